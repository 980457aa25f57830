import Verif.System.Props

/-!
# C129: reports and targets are moved into the same frame
-/

namespace Verif.System

open Verif.Tracker Matrix

/-- **C129** Whatever the origin of the cluster: a report from the very position of a component shows no innovation in
the local frame, and the correction leaves position and velocity of the component as they are. -/
theorem C129_agree (o : LL) (pd : ℝ) (z : Rpt) (p : Pdf) (i : Nat) (g : Cmp) (hg : p.mix.c[i]? = some g)
    (h : g.x.1 0 = z.1.x 0 ∧ g.x.1 1 = z.1.x 1) :
    ∃ l, (toLocal o p).mix.c[i]? = some l ∧ Kalman.innov Kalman.posH (rLocal o z).1 (toG l) = 0 ∧
      (Kalman.correct Kalman.posH pd (rLocal o z).1 (toG l)).x = l.x.1 := by
  have hh : head g.x.1 = z.1.x := by
    ext j
    fin_cases j
    · exact h.1
    · exact h.2
  have h0 : Kalman.innov Kalman.posH (rLocal o z).1
      (toG ⟨(setHead (CF.ll2ne (head g.x.1) o) g.x.1, g.x.2), g.w⟩) = 0 := by
    rw [hh]
    ext j
    fin_cases j <;>
      simp [Kalman.innov, rLocal, toG, Kalman.posH, setHead, Matrix.mulVec, dotProduct, Fin.sum_univ_four]
  refine ⟨_, ?_, h0, ?_⟩
  · simp [toLocal, cLocal, hg]
  · unfold Kalman.correct
    rw [h0]
    simp [toG]

/-- A report from the second of two components, in a frame with its origin elsewhere. -/
example (b : Box) : ∃ l, (toLocal ![59, 16] ⟨⟨[⟨(![58, 17, 0, 0], 1), 1 / 2⟩, ⟨(![58, 15, 3, 4], 1), 1 / 2⟩], 0⟩, 0,
      b⟩).mix.c[1]? = some l ∧
    Kalman.innov Kalman.posH (rLocal ![59, 16] (exRpt 58 15)).1 (toG l) = 0 ∧
    (Kalman.correct Kalman.posH (9 / 10) (rLocal ![59, 16] (exRpt 58 15)).1 (toG l)).x = l.x.1 :=
  C129_agree _ _ _ _ 1 _ rfl ⟨rfl, rfl⟩

end Verif.System

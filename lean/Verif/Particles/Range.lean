import Verif.Particles.Weights
import Verif.System.Forecast

/-!
# C125, particles: the range of latitudes and longitudes
-/

namespace Verif.Particles

open Verif.Tracker Matrix
open Verif.System (LL Rpt head setHead)

/-- The latitudes and longitudes of all particles are in range. -/
def InRange (p : Pdf) : Prop := ∀ g ∈ p.pf.c, (-180 < g.x 1 ∧ g.x 1 ≤ 180) ∧
  -(90 + 1 / 10 ^ 11) ≤ g.x 0 ∧ g.x 0 ≤ 90 + 1 / 10 ^ 11

theorem range_toGlobal (k : Opts) (p : Pdf) : InRange (toGlobal k p) := by
  intro g hg
  obtain ⟨g', _, rfl⟩ := List.mem_map.1 hg
  exact ⟨System.ne2ll_lon _ _, System.ne2ll_lat _ _⟩

theorem range_compute {k : Opts} {s : PSens} {prm : Params}
    {pick : ∀ r c, List (Murty.Node r c) → Nat} {fuel : Nat} {wt : ℚ → ℝ}
    {ts : List (Nat × Tgt Pdf)} {rs : List Rpt} {v : Comp Pdf Rpt}
    (e : compute (env k) (sensor k s) prm pick fuel wt ts rs = some v) :
    ∀ t ∈ v.ts, InRange t.pdf := by
  unfold compute at e
  simp only at e
  split at e
  · injection e with e
    subst e
    intro t ht
    simp at ht
  · split at e
    · cases e
    · split at e
      · injection e with e
        subst e
        intro t ht
        obtain ⟨y, hy, rfl⟩ := List.mem_map.1 ht
        exact range_toGlobal k _
      · injection e with e
        subst e
        intro t ht
        simp only [List.mem_ofFn, Set.mem_range] at ht
        obtain ⟨i, rfl⟩ := ht
        exact range_toGlobal k _

/-- **C125, particles** After any history of the tracker with particles, however far off the particles of new
targets are drawn (C92), the longitude of every particle of every target is above -180 and at most 180 degrees, its
latitude is from -90 to 90 degrees to within `10⁻¹¹`, and the position reported for the target is in the same range. -/
theorem C125_particles {k : Opts} (hk : GM.SortOk k.srt) (hN : 0 < k.N) {prm : Params} {fuel : Nat}
    {calls : List (Call Pdf Rpt)} (hc : ∀ c ∈ calls, WCall k c) {s : St Pdf}
    (e : run (env k) prm fuel calls St.empty = some s) (a : Nat) (t : Tgt Pdf) (ht : s.heap a = some t) :
    (∀ g ∈ t.pdf.pf.c, (-180 < g.x 1 ∧ g.x 1 ≤ 180) ∧
      -(90 + 1 / 10 ^ 11) ≤ g.x 0 ∧ g.x 0 ≤ 90 + 1 / 10 ^ 11) ∧
    (-180 ≤ pos t.pdf 1 ∧ pos t.pdf 1 ≤ 180) ∧
    -(90 + 1 / 10 ^ 11) ≤ pos t.pdf 0 ∧ pos t.pdf 0 ≤ 90 + 1 / 10 ^ 11 := by
  have h : InRange t.pdf := by
    refine run_tgt (T := fun t => InRange t.pdf) (env_box k) ?_ (fun c h => pCall_ok (hc c h).p) ?_ e a t ht
    · intro t u _ h2 h
      rw [h2]
      exact h
    · intro c hcm
      have h := hc c hcm
      cases c with
      | predict m ord => intro t _ _; exact range_toGlobal k _
      | correct S ch scan dflt =>
        obtain ⟨⟨sn, _, _, _, rfl⟩, _, _⟩ := h
        exact ⟨fun ts rs v _ _ hv t ht _ => range_compute hv t ht, fun z _ _ _ _ => range_toGlobal k _⟩
  obtain ⟨_, h0, hw⟩ := C124_weights hk hN hc e a t ht
  have hS0 : 0 ≤ (t.pdf.pf.c.map fun g => g.w).sum := by
    refine List.sum_nonneg fun x hx => ?_
    obtain ⟨g, hg, rfl⟩ := List.mem_map.1 hx
    exact h0 g hg
  have hS1 : (t.pdf.pf.c.map fun g => g.w).sum ≤ 1 := by
    rcases hw with h | h
    · exact h.le
    · exact h.trans (by norm_num)
  have b1 := sum_bound 1 (-180) 180 _ h0 fun g hg => ⟨(h g hg).1.1.le, (h g hg).1.2⟩
  have b0 := sum_bound 0 (-(90 + 1 / 10 ^ 11)) (90 + 1 / 10 ^ 11) _ h0 fun g hg => (h g hg).2
  refine ⟨h, ⟨?_, ?_⟩, ?_, ?_⟩
  · show -180 ≤ mean t.pdf.pf.c 1
    linarith [b1.1]
  · show mean t.pdf.pf.c 1 ≤ 180
    linarith [b1.2]
  · show _ ≤ mean t.pdf.pf.c 0
    nlinarith [b0.1]
  · show mean t.pdf.pf.c 0 ≤ _
    nlinarith [b0.2]

/-! ## Example -/

example : ∃ (s : St Pdf) (a : Nat) (t : Tgt Pdf), run (env exOpts) exPrm 0
      [.correct (sensor exOpts exSens0) exCh exOne ⟨System.exRpt 0 0, none, 0⟩] St.empty = some s ∧
    s.heap a = some t ∧ t.pdf.pf.c.length = 2 ∧ ∀ g ∈ t.pdf.pf.c, -180 < g.x 1 ∧ g.x 1 ≤ 180 := by
  obtain ⟨s, a, t, h1, h2, _⟩ := exCollapsed
  have hN : 0 < exOpts.N := by show 0 < 2; norm_num
  exact ⟨s, a, t, h1, h2, (C124_weights exOpts_sort hN exW h1 a t h2).1,
    fun g hg => ((C125_particles exOpts_sort hN exW h1 a t h2).1 g hg).1⟩

end Verif.Particles

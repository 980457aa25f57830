import Verif.Kalman.Props

/-! # C99 for the model without motion: every call of `NM` is a step, whatever the times -/

namespace Verif.Kalman

open Matrix

/-- **C99 (`NM`).**  After `n` calls the existence probability has been multiplied by `pS` `n` times, means
and weights are what they were, and every covariance has grown by `n` times `Q`.  It stays a covariance if `Q` is
one. -/
theorem C99_nm (pS : ℝ) (Q : Matrix (Fin 4) (Fin 4) ℝ) (t : ℝ × List (Gauss 4)) (n : Nat) :
    ((nmStep pS Q)^[n] t).1 = t.1 * pS ^ n ∧
    ((nmStep pS Q)^[n] t).2 = t.2.map (fun g => ⟨g.x, g.P + (n : ℝ) • Q, g.w⟩) ∧
    (Q.PosSemidef → (∀ g ∈ t.2, g.P.PosSemidef) → ∀ g ∈ ((nmStep pS Q)^[n] t).2, g.P.PosSemidef) := by
  have key : ((nmStep pS Q)^[n] t).1 = t.1 * pS ^ n ∧
      ((nmStep pS Q)^[n] t).2 = t.2.map (fun g => ⟨g.x, g.P + (n : ℝ) • Q, g.w⟩) := by
    induction n with
    | zero => simp
    | succ n ih =>
      rw [Function.iterate_succ_apply']
      refine ⟨?_, ?_⟩
      · show _ * pS = _
        rw [ih.1, pow_succ, mul_assoc]
      · show List.map (linearUpdate 1 Q) _ = _
        rw [ih.2, List.map_map]
        refine List.map_congr_left fun g _ => ?_
        simp only [Function.comp, linearUpdate, one_mulVec, one_mul, transpose_one, mul_one]
        rw [add_assoc, Nat.cast_succ, add_smul, one_smul]
  refine ⟨key.1, key.2, fun hQ hP g hg => ?_⟩
  rw [key.2] at hg
  obtain ⟨g', h1, rfl⟩ := List.mem_map.1 hg
  exact (hP g' h1).add (hQ.smul (Nat.cast_nonneg n))

/-- Three calls with the default survival probability. -/
example : ((nmStep (9 / 10) (1 : Matrix (Fin 4) (Fin 4) ℝ))^[3] (1, [⟨0, 1, 1⟩])).1 = 729 / 1000 ∧
    ∀ g ∈ ((nmStep (9 / 10) (1 : Matrix (Fin 4) (Fin 4) ℝ))^[3] (1, [⟨0, 1, 1⟩])).2, g.P.PosSemidef := by
  obtain ⟨h1, _, h3⟩ := C99_nm (9 / 10) 1 (1, [⟨0, 1, 1⟩]) 3
  refine ⟨by rw [h1]; norm_num, h3 PosSemidef.one ?_⟩
  intro g hg
  rw [List.mem_singleton.1 hg]
  exact PosSemidef.one

end Verif.Kalman

import Verif.Lap.Opt
import Mathlib.Data.Fin.VecNotation
import Mathlib.Tactic.FinCases

/-! # Properties C12–C16: the assignment solver -/

namespace Verif.Lap

open XR

variable {n m : Nat}

/-- Everything `lap` guarantees for at most 30 rows; the properties below are projections. -/
theorem lapWith_spec {fu : FindUmins m} (hfu : FuOk fu) {C : Cost n m} (hC : CostOk C) (hn : n ≤ 30) :
    ∃ F b sol, (∀ fuel, F ≤ fuel → lapWith fu C fuel = some (b, sol)) ∧
      (b = true ↔ ∃ τ, Feasible C τ) ∧
      (b = false → (∀ i, sol.u i = fin 0) ∧ (∀ j, sol.v j = fin 0) ∧ sol.cost = fin 0) ∧
      (b = true → ∃ σ, (∀ i, sol.rowsol i = some (σ i)) ∧ Feasible C σ ∧
        (∀ τ, Feasible C τ → total C σ ≤ total C τ) ∧ sol.cost = fin (total C σ) ∧
        Duals C σ sol.u sol.v ∧
        (∀ τ, Feasible C τ → ∀ i, total C σ + slack C sol.v σ τ i ≤ total C τ)) := by
  rcases hallCheck_spec hC hn with ⟨h1, τ, hτ⟩ | ⟨h1, h2⟩
  · obtain ⟨F, sol, σ, hrun, hrow, hfeas, hopt, hcost, hdual, hsl⟩ :=
      rlapWith_spec hfu hC hτ (fun _ => fin 0)
    refine ⟨F, true, sol, ?_, ?_, ?_, ?_⟩
    · intro fuel hfu
      simp only [lapWith, h1, hrun fuel hfu, Option.map_some]
      have : ((List.finRange n).all fun i => (sol.rowsol i).isSome) = true := by
        rw [List.all_eq_true]
        intro i _
        rw [hrow i]; rfl
      rw [this]
    · exact ⟨fun _ => ⟨τ, hτ⟩, fun _ => rfl⟩
    · intro h; cases h
    · intro _
      exact ⟨σ, hrow, hfeas, hopt, hcost, hdual, hsl⟩
  · refine ⟨0, false, _, fun fuel _ => by simp only [lapWith, h1]; rfl, ?_, ?_, ?_⟩
    · exact ⟨fun h => (Bool.false_ne_true h).elim, fun h => absurd h h2⟩
    · intro _; exact ⟨fun _ => rfl, fun _ => rfl, rfl⟩
    · intro h; cases h

/-- The same with `find_umins_plain`. -/
theorem lap_spec {C : Cost n m} (hC : CostOk C) (hn : n ≤ 30) :
    ∃ F b sol, (∀ fuel, F ≤ fuel → lap C fuel = some (b, sol)) ∧
      (b = true ↔ ∃ τ, Feasible C τ) ∧
      (b = false → (∀ i, sol.u i = fin 0) ∧ (∀ j, sol.v j = fin 0) ∧ sol.cost = fin 0) ∧
      (b = true → ∃ σ, (∀ i, sol.rowsol i = some (σ i)) ∧ Feasible C σ ∧
        (∀ τ, Feasible C τ → total C σ ≤ total C τ) ∧ sol.cost = fin (total C σ) ∧
        Duals C σ sol.u sol.v ∧
        (∀ τ, Feasible C τ → ∀ i, total C σ + slack C sol.v σ τ i ≤ total C τ)) :=
  lapWith_spec findUmins_ok hC hn

/-! ## A concrete matrix -/

/-- A 2×3 matrix with forbidden entries; row 0 can only use column 0. -/
def exC : Cost 2 3 := ![![fin 5, pinf, pinf], ![fin 1, fin 3, fin (7/2)]]

theorem exC_ok : CostOk exC := by
  intro i j
  fin_cases i <;> fin_cases j
  exacts [Or.inr ⟨_, rfl⟩, Or.inl rfl, Or.inl rfl, Or.inr ⟨_, rfl⟩, Or.inr ⟨_, rfl⟩,
    Or.inr ⟨_, rfl⟩]

/-- A feasible assignment of it. -/
theorem exC_feasible : Feasible exC ![0, 2] := by
  refine ⟨by decide, ?_⟩
  intro i
  fin_cases i
  exacts [⟨_, rfl⟩, ⟨_, rfl⟩]

/-- An infeasible matrix: two rows compete for the only finite column. -/
def exBad : Cost 2 2 := ![![fin 1, pinf], ![fin 2, pinf]]

theorem exBad_ok : CostOk exBad := by
  intro i j
  fin_cases i <;> fin_cases j
  exacts [Or.inr ⟨_, rfl⟩, Or.inl rfl, Or.inr ⟨_, rfl⟩, Or.inl rfl]

example : (lap exC 40).map (fun r => (r.1, r.2.rowsol 0, r.2.rowsol 1, r.2.cost)) =
    some (true, some 0, some 1, fin 8) := by decide +kernel

example : (lap exC 40).map (fun r => (r.2.u 0, r.2.u 1, r.2.v 0, r.2.v 1)) =
    some (pinf, fin (7/2), ninf, fin (-1/2)) := by decide +kernel

example : (lap exBad 40).map (·.1) = some false := by decide +kernel

/-! ## C12 -/

/-- C12: `lap` returns `true` exactly when a one-to-one assignment over finite entries exists. -/
theorem C12_feasibility {C : Cost n m} (hC : CostOk C) (hn : n ≤ 30) :
    ∃ F, ∀ fuel, F ≤ fuel → ∃ b sol, lap C fuel = some (b, sol) ∧
      (b = true ↔ ∃ τ : Fin n → Fin m, Function.Injective τ ∧ ∀ i, ∃ q, C i (τ i) = fin q) := by
  obtain ⟨F, b, sol, hrun, hiff, _⟩ := lap_spec hC hn
  exact ⟨F, fun fuel hfu => ⟨b, sol, hrun fuel hfu, hiff⟩⟩

example := C12_feasibility exC_ok (by decide)
example := C12_feasibility exBad_ok (by decide)

/-! ## C13 -/

/-- C13: if `lap` returns `true`, the row solution is one-to-one, uses finite entries and has
minimal total cost among all such assignments; the returned cost is that total. -/
theorem C13_optimal {C : Cost n m} (hC : CostOk C) (hn : n ≤ 30) :
    ∃ F, ∀ fuel, F ≤ fuel → ∀ sol, lap C fuel = some (true, sol) →
      ∃ (σ : Fin n → Fin m) (c : Fin n → ℚ), (∀ i, sol.rowsol i = some (σ i)) ∧
        Function.Injective σ ∧ (∀ i, C i (σ i) = fin (c i)) ∧ sol.cost = fin (∑ i, c i) ∧
        ∀ (τ : Fin n → Fin m) (d : Fin n → ℚ), Function.Injective τ →
          (∀ i, C i (τ i) = fin (d i)) → ∑ i, c i ≤ ∑ i, d i := by
  obtain ⟨F, b, sol, hrun, _, _, hres⟩ := lap_spec hC hn
  refine ⟨F, ?_⟩
  intro fuel hfu sol' hs
  rw [hrun fuel hfu] at hs
  injection hs with hs
  injection hs with hb hs
  subst hs
  obtain ⟨σ, h1, h2, h3, h4, _, _⟩ := hres hb
  refine ⟨σ, fun i => (C i (σ i)).val, h1, h2.1, fun i => (h2.2 i).eq, h4, ?_⟩
  intro τ d hτ hd
  have := h3 τ ⟨hτ, fun i => ⟨d i, hd i⟩⟩
  unfold total at this
  simp only [hd, val_fin] at this
  exact this

example := C13_optimal exC_ok (by decide)

/-! ## C14 -/

/-- C14: on every matrix with finite or `+inf` entries and at most 30 rows, `lap` terminates
without undefined behaviour (the model returns a result, the same for all sufficient fuel), and no
NaN is returned: the assigned columns exist, row duals are finite or `+inf`, column duals are
finite or `-inf`, and the cost is finite. -/
theorem C14_terminates {C : Cost n m} (hC : CostOk C) (hn : n ≤ 30) :
    ∃ F b sol, (∀ fuel, F ≤ fuel → lap C fuel = some (b, sol)) ∧
      (∀ i, sol.u i ≠ nan) ∧ (∀ j, sol.v j ≠ nan) ∧ (∃ q, sol.cost = fin q) := by
  obtain ⟨F, b, sol, hrun, _, hfalse, htrue⟩ := lap_spec hC hn
  refine ⟨F, b, sol, hrun, ?_⟩
  cases b with
  | false =>
    obtain ⟨h1, h2, h3⟩ := hfalse rfl
    exact ⟨fun i => by rw [h1]; simp, fun j => by rw [h2]; simp, 0, h3⟩
  | true =>
    obtain ⟨σ, h1, h2, h3, h4, h5, _⟩ := htrue rfl
    refine ⟨?_, ?_, _, h4⟩
    · intro i
      rcases h5.uform i with ⟨e, _⟩ | ⟨a, q, c, e, _⟩ <;> rw [e] <;> simp
    · intro j
      rcases h5.vform j with e | ⟨q, e, _⟩ <;> rw [e] <;> simp

example := C14_terminates exC_ok (by decide)

/-! ## C15 -/

/-- C15: the returned duals certify optimality. -/
theorem C15_duals {C : Cost n m} (hC : CostOk C) (hn : n ≤ 30) :
    ∃ F, ∀ fuel, F ≤ fuel → ∀ sol, lap C fuel = some (true, sol) →
      ∃ σ : Fin n → Fin m, (∀ i, sol.rowsol i = some (σ i)) ∧
        -- `u + v ≤ C` wherever all three are finite
        (∀ i j a q c, sol.u i = fin a → sol.v j = fin q → C i j = fin c → a + q ≤ c) ∧
        -- equality on assigned entries, or the row is forced and both duals are infinite
        (∀ i, (∃ a q c, sol.u i = fin a ∧ sol.v (σ i) = fin q ∧ C i (σ i) = fin c ∧ a + q = c) ∨
          (sol.u i = pinf ∧ sol.v (σ i) = ninf ∧ ∀ τ : Fin n → Fin m, Function.Injective τ →
            (∀ k, ∃ q, C k (τ k) = fin q) → τ i = σ i)) ∧
        -- column duals are not positive and vanish on unassigned columns
        (∀ j, sol.v j = ninf ∨ ∃ q, sol.v j = fin q ∧ q ≤ 0) ∧
        (∀ j, (∀ i, σ i ≠ j) → sol.v j = fin 0) := by
  obtain ⟨F, b, sol, hrun, _, _, hres⟩ := lap_spec hC hn
  refine ⟨F, ?_⟩
  intro fuel hfu sol' hs
  rw [hrun fuel hfu] at hs
  injection hs with hs
  injection hs with hb hs
  subst hs
  obtain ⟨σ, h1, h2, h3, h4, h5, _⟩ := hres hb
  refine ⟨σ, h1, h5.below, ?_, h5.vform, h5.vfree⟩
  intro i
  rcases h5.uform i with ⟨e1, e2⟩ | h6
  · exact Or.inr ⟨e1, e2, fun τ hi hf => h5.forced i e1 τ ⟨hi, hf⟩⟩
  · exact Or.inl h6

example := C15_duals exC_ok (by decide)

/-! ## C16 -/

/-- C16: with 31 or more rows and a feasible matrix, `lap` has undefined behaviour (overflow of
the `int` subset counter), whatever the number of columns. -/
theorem C16_row_limit {C : Cost n m} (hC : CostOk C) (hn : 31 ≤ n) {τ : Fin n → Fin m}
    (hinj : Function.Injective τ) (hfin : ∀ i, ∃ q, C i (τ i) = fin q) (fuel : Nat) :
    lap C fuel = none := by
  unfold lap lapWith
  rw [hallCheck_none hC hn ⟨hinj, hfin⟩]

/-- The hypotheses hold for the 31×31 zero matrix. -/
example (fuel : Nat) : lap (fun (_ _ : Fin 31) => fin 0) fuel = none :=
  C16_row_limit (fun _ _ => Or.inr ⟨0, rfl⟩) (le_refl _) (τ := id) Function.injective_id
    (fun _ => ⟨0, rfl⟩) fuel

end Verif.Lap

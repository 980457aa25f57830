import Verif.Metric.Match
import Mathlib.Algebra.BigOperators.Field
import Mathlib.Order.Bounds.Basic

/-! # Properties C34–C36: `ospa` and `gospa` -/

namespace Verif.Metric

open Verif.Lap

variable {M N n : Nat}

/-- The solver on a column-major matrix returns an optimal assignment of the transpose. -/
theorem lapColMajor_spec (A : Fin n → Fin n → ℚ) (hn : n ≤ 30) :
    ∃ (F : Nat) (σ : Equiv.Perm (Fin n)), (∀ fuel, F ≤ fuel →
        (lapColMajor (fun i j => XR.fin (A i j)) fuel).bind allAssigned = some σ) ∧
      ∀ τ : Equiv.Perm (Fin n), ∑ i, A (σ i) i ≤ ∑ i, A (τ i) i := by
  have hC : CostOk (fun i j => XR.fin (A i j)) := fun i j => Or.inr ⟨_, rfl⟩
  have hC' : CostOk (fun i j => XR.fin (A j i)) := fun i j => Or.inr ⟨_, rfl⟩
  have hf : Feasible (fun i j => XR.fin (A i j)) id := ⟨Function.injective_id, fun i => ⟨_, rfl⟩⟩
  have hf' : ∀ τ : Equiv.Perm (Fin n), Feasible (fun i j => XR.fin (A j i)) τ :=
    fun τ => ⟨τ.injective, fun i => ⟨_, rfl⟩⟩
  have h1 : hallCheck (fun i j => XR.fin (A i j)) = some true := by
    rcases hallCheck_spec hC hn with h | h
    · exact h.1
    · exact absurd ⟨_, hf⟩ h.2
  obtain ⟨F, sol, σ, hrun, hrow, hfeas, hopt, _⟩ :=
    rlap_spec hC' (hf' (Equiv.refl _)) (fun _ => XR.fin 0)
  have hb : Function.Bijective σ := (Finite.injective_iff_bijective).1 hfeas.1
  refine ⟨F, Equiv.ofBijective σ hb, ?_, ?_⟩
  · intro fuel hfu
    unfold lapColMajor
    rw [h1]
    simp only [hrun fuel hfu, Option.map_some, Option.bind_some]
    unfold allAssigned
    have hall : ∀ i, (sol.rowsol i).isSome := fun i => by rw [hrow i]; rfl
    rw [dif_pos hall]
    congr 1
    funext i
    simp [hrow i]
  · intro τ
    have := hopt τ (hf' τ)
    simpa [total] using this

theorem lapColMajor_none (A : Fin n → Fin n → ℚ) (hn : 31 ≤ n) (fuel : Nat) :
    lapColMajor (fun i j => XR.fin (A i j)) fuel = none := by
  unfold lapColMajor
  rw [hallCheck_none (τ := id) (fun i j => Or.inr ⟨_, rfl⟩) hn
    ⟨Function.injective_id, fun i => ⟨_, rfl⟩⟩]

/-! ## C34 -/

theorem ospaMatrix_nonneg {D : Fin M → Fin N → ℚ} {c : ℚ} (hD : ∀ i j, 0 ≤ D i j) (hc : 0 ≤ c)
    (i j : Fin (max M N)) : 0 ≤ ospaMatrix D c i j := by
  unfold ospaMatrix
  split
  · exact le_min (hD _ _) hc
  · simpa using hc

theorem ospaMatrix_le {D : Fin M → Fin N → ℚ} {c : ℚ} (i j : Fin (max M N)) :
    ospaMatrix D c i j ≤ c := by
  unfold ospaMatrix
  split
  · exact min_le_right _ _
  · exact min_le_right _ _

theorem mean_const {k : Nat} (hk : 0 < k) {x p : ℝ} (hx : 0 ≤ x) (hp : 0 < p) :
    ((∑ _i : Fin k, x ^ p) / (k : ℕ)) ^ (1 / p) = x := by
  have hk' : (k : ℝ) ≠ 0 := by exact_mod_cast hk.ne'
  rw [Finset.sum_const, Finset.card_univ, Fintype.card_fin, nsmul_eq_mul,
    mul_div_cancel_left₀ _ hk', ← Real.rpow_mul hx, mul_one_div_cancel hp.ne', Real.rpow_one]

/-- C34: with at most 30 targets and at most 30 truths, `ospa` returns a number in `[0, c]`; 0 if
there are neither targets nor truths and `c` if exactly one side is empty. -/
theorem C34_ospa_range (D : Fin M → Fin N → ℚ) (hD : ∀ i j, 0 ≤ D i j) (c : ℚ) (hc : 0 ≤ c)
    (p : ℝ) (hp : 0 < p) (hM : M ≤ 30) (hN : N ≤ 30) :
    ∃ (F : Nat) (s : ℝ), (∀ fuel, F ≤ fuel → ospa D c p fuel = some s) ∧ 0 ≤ s ∧ s ≤ c ∧
      (M = 0 ∧ N = 0 → s = 0) ∧ ((M = 0 ∧ N ≠ 0) ∨ (M ≠ 0 ∧ N = 0) → s = c) := by
  have hcR : (0 : ℝ) ≤ c := by exact_mod_cast hc
  by_cases h0 : 0 < max M N
  · obtain ⟨F, σ, h1, _⟩ := lapColMajor_spec (ospaMatrix D c) (max_le hM hN)
    refine ⟨F, ((∑ i, (ospaMatrix D c i (σ i) : ℝ) ^ p) / (max M N : ℕ)) ^ (1 / p),
      fun fuel hfu => ?_, ?_⟩
    · unfold ospa ospaAssign
      rw [if_pos h0, h1 fuel hfu]
      rfl
    have hnn : ∀ i, (0 : ℝ) ≤ (ospaMatrix D c i (σ i) : ℝ) ^ p := fun i =>
      Real.rpow_nonneg (by exact_mod_cast ospaMatrix_nonneg hD hc i (σ i)) p
    have hs : (0 : ℝ) ≤ (∑ i, (ospaMatrix D c i (σ i) : ℝ) ^ p) / (max M N : ℕ) :=
      div_nonneg (Finset.sum_nonneg fun i _ => hnn i) (Nat.cast_nonneg _)
    refine ⟨Real.rpow_nonneg hs _, ?_, ?_, ?_⟩
    · conv_rhs => rw [← mean_const h0 hcR hp]
      apply Real.rpow_le_rpow hs _ (by positivity)
      apply div_le_div_of_nonneg_right _ (Nat.cast_nonneg _)
      apply Finset.sum_le_sum
      intro i _
      apply Real.rpow_le_rpow _ _ hp.le
      · exact_mod_cast ospaMatrix_nonneg hD hc i (σ i)
      · exact_mod_cast ospaMatrix_le i (σ i)
    · rintro ⟨rfl, rfl⟩
      simp at h0
    · intro h
      have : ∀ i j, ospaMatrix D c i j = c := by
        intro i j
        unfold ospaMatrix
        rw [dif_neg, min_self]
        rintro ⟨a, b⟩
        rcases h with ⟨rfl, _⟩ | ⟨_, rfl⟩ <;> omega
      simp only [this]
      exact mean_const h0 hcR hp
  · refine ⟨0, 0, fun fuel _ => ?_, le_refl _, hcR, fun _ => rfl, ?_⟩
    · unfold ospa; rw [if_neg h0]
    · intro h
      exfalso
      apply h0
      rcases h with ⟨_, h⟩ | ⟨h, _⟩
      · exact lt_of_lt_of_le (Nat.pos_of_ne_zero h) (le_max_right _ _)
      · exact lt_of_lt_of_le (Nat.pos_of_ne_zero h) (le_max_left _ _)

/-- Distances between three targets and two truths. -/
def exD : Fin 3 → Fin 2 → ℚ := ![![1, 4], ![5, 2], ![7, 9]]

example := C34_ospa_range exD (by decide) 5 (by norm_num) 2 (by norm_num) (by norm_num)
  (by norm_num)

/-- C34: with 31 or more targets or truths `ospa` and `gospa` have undefined behaviour. -/
theorem C34_limit (D : Fin M → Fin N → ℚ) (c : ℚ) (p : ℝ) (pw : ℚ → ℚ) (h : 31 ≤ M ∨ 31 ≤ N)
    (fuel : Nat) : ospa D c p fuel = none ∧ gospa D c pw p fuel = none := by
  have hn : 31 ≤ max M N := by
    rcases h with h | h
    · exact h.trans (le_max_left _ _)
    · exact h.trans (le_max_right _ _)
  have h0 : 0 < max M N := by omega
  constructor
  · unfold ospa ospaAssign
    rw [if_pos h0, lapColMajor_none _ hn]; rfl
  · unfold gospa gospaAssign
    rw [if_pos h0, lapColMajor_none _ hn]; rfl

example (D : Fin 31 → Fin 2 → ℚ) : ospa D 5 2 1000 = none :=
  (C34_limit D 5 2 id (by norm_num) 1000).1

/-! ## C35 -/

/-- The OSPA value of a matching: matched pairs cost their distance, cut off at `c`, to the power
`p`; every one of the `max M N` objects that is in no pair costs `c ^ p`. -/
noncomputable def ospaVal (D : Fin M → Fin N → ℚ) (c : ℚ) (p : ℝ) (θ : Matching M N) : ℝ :=
  ((θ.sum (fun i j => ((min (D i j) c : ℚ) : ℝ) ^ p) +
    ((max M N : ℕ) - (θ.size : ℝ)) * (c : ℝ) ^ p) / (max M N : ℕ)) ^ (1 / p)

theorem Matching.sum_sub {A : Type*} [AddCommGroup A] (θ : Matching M N) (g : Fin M → Fin N → A)
    (a : A) : θ.sum (fun i j => g i j - a) = θ.sum g - θ.size • a := by
  unfold Matching.sum Matching.size
  rw [Finset.sum_smul, ← Finset.sum_sub_distrib]
  apply Finset.sum_congr rfl
  intro i _
  cases θ.fn i <;> simp

theorem ospaVal_eq (D : Fin M → Fin N → ℚ) (c : ℚ) (p : ℝ) (θ : Matching M N) :
    ospaVal D c p θ = (((max M N) • (c : ℝ) ^ p +
      θ.sum (fun i j => ((min (D i j) c : ℚ) : ℝ) ^ p - (c : ℝ) ^ p)) / (max M N : ℕ)) ^ (1 / p) := by
  unfold ospaVal
  rw [Matching.sum_sub, nsmul_eq_mul, nsmul_eq_mul]
  congr 2
  ring

theorem ospaSum_eq (D : Fin M → Fin N → ℚ) (c : ℚ) (p : ℝ)
    (τ : Fin (max M N) → Fin (max M N)) :
    (∑ i, (ospaMatrix D c i (τ i) : ℝ) ^ p) = (max M N) • (c : ℝ) ^ p +
      pairSum (le_max_left M N) (fun i j => ((min (D i j) c : ℚ) : ℝ) ^ p - (c : ℝ) ^ p) τ := by
  rw [← sum_pad (le_max_left M N) ((c : ℝ) ^ p) (fun i j => ((min (D i j) c : ℚ) : ℝ) ^ p) τ]
  apply Finset.sum_congr rfl
  intro i _
  unfold ospaMatrix
  split
  · rfl
  · rw [min_self]

/-- Every permutation of the padded matrix is a matching of the same value. -/
theorem ospaVal_ofPerm (D : Fin M → Fin N → ℚ) (c : ℚ) (p : ℝ) (τ : Equiv.Perm (Fin (max M N))) :
    ospaVal D c p (ofPerm (le_max_left M N) (fun _ _ => True) τ) =
      ((∑ i, (ospaMatrix D c i (τ i) : ℝ) ^ p) / (max M N : ℕ)) ^ (1 / p) := by
  rw [ospaVal_eq, ospaSum_eq, pairSum_ofPerm _ _ _ (fun _ _ h => absurd trivial h)]

/-- Every matching is met or beaten by a permutation. -/
theorem ospaVal_perm {D : Fin M → Fin N → ℚ} (hD : ∀ i j, 0 ≤ D i j) {c : ℚ} (hc : 0 ≤ c) {p : ℝ}
    (hp : 0 < p) (θ : Matching M N) : ∃ τ : Equiv.Perm (Fin (max M N)),
    (∑ i, (ospaMatrix D c i (τ i) : ℝ) ^ p) ≤ (max M N) • (c : ℝ) ^ p +
      θ.sum (fun i j => ((min (D i j) c : ℚ) : ℝ) ^ p - (c : ℝ) ^ p) := by
  obtain ⟨τ, hτ⟩ := exists_perm_le (le_max_left M N) (le_max_right M N) θ
    (fun i j => ((min (D i j) c : ℚ) : ℝ) ^ p - (c : ℝ) ^ p)
    (fun i j => ((min (D i j) c : ℚ) : ℝ) ^ p - (c : ℝ) ^ p)
    (fun i j => by
      rw [sub_nonpos]
      apply Real.rpow_le_rpow _ _ hp.le
      · exact_mod_cast le_min (hD i j) hc
      · exact_mod_cast min_le_right _ _)
    (fun i j => le_refl _)
  exact ⟨τ, by rw [ospaSum_eq]; exact add_le_add_right hτ _⟩

/-- C35, upper bound: the score is the value of some matching, so never below the optimum. -/
theorem C35_upper_bound (D : Fin M → Fin N → ℚ) (c : ℚ) (p : ℝ) (hM : M ≤ 30) (hN : N ≤ 30)
    (h0 : 0 < max M N) :
    ∃ (F : Nat) (s : ℝ) (θ : Matching M N), (∀ fuel, F ≤ fuel → ospa D c p fuel = some s) ∧
      s = ospaVal D c p θ := by
  obtain ⟨F, σ, h1, _⟩ := lapColMajor_spec (ospaMatrix D c) (max_le hM hN)
  refine ⟨F, _, ofPerm (le_max_left M N) (fun _ _ => True) σ, fun fuel hfu => ?_, rfl⟩
  unfold ospa ospaAssign
  rw [if_pos h0, h1 fuel hfu, ospaVal_ofPerm]
  rfl

example := C35_upper_bound exD 5 2 (by norm_num) (by norm_num) (by norm_num)

/-- A permutation of at most two things is its own inverse. -/
theorem perm_small (hn : n ≤ 2) (σ : Equiv.Perm (Fin n)) (i : Fin n) : σ (σ i) = i := by
  by_contra h
  have h1 : σ i ≠ i := fun e => h (by rw [e, e])
  have h2 : σ (σ i) ≠ σ i := fun e => h1 (σ.injective e)
  have a := (σ (σ i)).2; have b := (σ i).2; have c := i.2
  have ha : (σ (σ i)).val ≠ i.val := fun e => h (Fin.ext e)
  have hb : (σ i).val ≠ i.val := fun e => h1 (Fin.ext e)
  have hd : (σ (σ i)).val ≠ (σ i).val := fun e => h2 (Fin.ext e)
  omega

/-- If the matrix is symmetric or there are at most two objects, the transposition does not
matter. -/
theorem opt_of_transposed {A : Fin n → Fin n → ℚ} (h : n ≤ 2 ∨ ∀ i j, A i j = A j i)
    {σ : Equiv.Perm (Fin n)} (hσ : ∀ τ : Equiv.Perm (Fin n), ∑ i, A (σ i) i ≤ ∑ i, A (τ i) i)
    (τ : Equiv.Perm (Fin n)) : ∑ i, A i (σ i) ≤ ∑ i, A i (τ i) := by
  have key : ∀ τ : Equiv.Perm (Fin n), ∑ i, A i (τ i) = ∑ i, A (τ i) i := by
    intro τ
    rcases h with h | h
    · rw [← Equiv.sum_comp τ (fun i => A i (τ i))]
      apply Finset.sum_congr rfl
      intro i _
      rw [perm_small h]
    · exact Finset.sum_congr rfl fun i _ => h _ _
  rw [key, key]
  exact hσ τ

/-- C35, exact cases: with `p = 1`, and at most two objects a side or equally many targets and
truths with symmetric distances, the score is the optimum over all matchings. -/
theorem C35_exact (D : Fin M → Fin N → ℚ) (hD : ∀ i j, 0 ≤ D i j) (c : ℚ) (hc : 0 ≤ c)
    (hM : M ≤ 30) (hN : N ≤ 30) (h0 : 0 < max M N)
    (hs : (M ≤ 2 ∧ N ≤ 2) ∨ ∃ e : M = N, ∀ i j, D i (Fin.cast e j) = D j (Fin.cast e i)) :
    ∃ (F : Nat) (s : ℝ), (∀ fuel, F ≤ fuel → ospa D c 1 fuel = some s) ∧
      IsLeast (Set.range (ospaVal D c 1)) s := by
  obtain ⟨F, σ, h1, h2⟩ := lapColMajor_spec (ospaMatrix D c) (max_le hM hN)
  refine ⟨F, _, fun fuel hfu => ?_, ⟨ofPerm (le_max_left M N) (fun _ _ => True) σ, rfl⟩, ?_⟩
  · unfold ospa ospaAssign
    rw [if_pos h0, h1 fuel hfu, ospaVal_ofPerm]
    rfl
  have hsym : max M N ≤ 2 ∨ ∀ i j, ospaMatrix D c i j = ospaMatrix D c j i := by
    rcases hs with hs | ⟨rfl, hs⟩
    · exact Or.inl (max_le hs.1 hs.2)
    · right
      intro i j
      have hi : i.val < M := lt_of_lt_of_eq i.2 (max_self M)
      have hj : j.val < M := lt_of_lt_of_eq j.2 (max_self M)
      unfold ospaMatrix
      rw [dif_pos ⟨hi, hj⟩, dif_pos ⟨hj, hi⟩]
      congr 1
      exact hs ⟨i, hi⟩ ⟨j, hj⟩
  rintro _ ⟨θ, rfl⟩
  obtain ⟨τ, hτ⟩ := ospaVal_perm hD hc one_pos θ
  rw [ospaVal_ofPerm, ospaVal_eq]
  have h3 := opt_of_transposed hsym h2 τ
  have h4 : (∑ i, (ospaMatrix D c i (σ i) : ℝ) ^ (1 : ℝ)) ≤
      ∑ i, (ospaMatrix D c i (τ i) : ℝ) ^ (1 : ℝ) := by
    simp only [Real.rpow_one]
    exact_mod_cast h3
  apply Real.rpow_le_rpow _ _ (by norm_num)
  · apply div_nonneg _ (Nat.cast_nonneg _)
    exact Finset.sum_nonneg fun i _ => Real.rpow_nonneg
      (by exact_mod_cast ospaMatrix_nonneg hD hc i (σ i)) _
  · exact div_le_div_of_nonneg_right (h4.trans hτ) (Nat.cast_nonneg _)

example := C35_exact (M := 1) (N := 2) ![![1, 4]] (by decide) 5 (by norm_num) (by norm_num)
  (by norm_num) (by norm_num) (Or.inl ⟨by norm_num, by norm_num⟩)

example := C35_exact (M := 3) (N := 3) ![![1, 4, 2], ![4, 0, 3], ![2, 3, 7]] (by decide) 5
  (by norm_num) (by norm_num) (by norm_num) (by norm_num) (Or.inr ⟨rfl, by decide⟩)

/-- Targets at 0, 10 and 20 on a line; truths at 20, 0 and 10. -/
def exCyc : Fin 3 → Fin 3 → ℚ := ![![20, 0, 10], ![10, 10, 0], ![0, 20, 10]]

/-- The matching of the targets with the truths at the same place. -/
def exCycMatch : Matching 3 3 := ⟨![some 1, some 2, some 0], by decide⟩

theorem exCyc_entries : (ospaAssign exCyc 100 100).map (fun r =>
    (List.finRange _).map fun i => ospaMatrix exCyc 100 i (r i)) = some [10, 10, 20] := by
  decide +kernel

/-- Two targets and two truths, `p = 2`: the code minimises the sum of distances. -/
def exSq : Fin 2 → Fin 2 → ℚ := ![![0, 2], ![2, 3]]

/-- The better matching for `p = 2`. -/
def exSqMatch : Matching 2 2 := ⟨![some 1, some 0], by decide⟩

theorem exSq_entries : (ospaAssign exSq 100 100).map (fun r =>
    (List.finRange _).map fun i => ospaMatrix exSq 100 i (r i)) = some [0, 3] := by
  decide +kernel

/-- `ospa` from the matrix entries it adds up. -/
theorem ospa_of_entries {D : Fin M → Fin N → ℚ} {c : ℚ} {fuel : Nat} {l : List ℚ}
    (h0 : 0 < max M N) (h : (ospaAssign D c fuel).map (fun r =>
      (List.finRange _).map fun i => ospaMatrix D c i (r i)) = some l) (p : ℝ) :
    ospa D c p fuel = some (((l.map fun x : ℚ => ((x : ℚ) : ℝ) ^ p).sum / (max M N : ℕ)) ^ (1 / p)) := by
  rw [Option.map_eq_some_iff] at h
  obtain ⟨r, h1, h2⟩ := h
  unfold ospa
  rw [if_pos h0, h1, Option.map_some, ← h2, List.map_map, Fin.sum_univ_def]
  rfl

/-- C35, refuted twice.  Three targets exactly at the three truths, listed in another order: the
optimum is 0 but the score is 40/3 (transposed matrix).  And with two symmetric objects and `p = 2`
a matching of value 2 exists but the score is the root of 9/2 (the assignment minimises the
distances, not their squares). -/
theorem C35_refuted :
    (∃ F, ospaVal exCyc 100 1 exCycMatch = 0 ∧ ospa exCyc 100 1 F = some (40 / 3)) ∧
    (∃ F s, ospaVal exSq 100 2 exSqMatch = 2 ∧ ospa exSq 100 2 F = some s ∧ 2 < s) := by
  constructor
  · refine ⟨100, ?_, ?_⟩
    · simp [ospaVal, Matching.sum, Matching.size, Fin.sum_univ_three, exCyc, exCycMatch]
    · rw [ospa_of_entries (by decide) exCyc_entries]
      congr 1
      norm_num
  · refine ⟨100, _, ?_, ospa_of_entries (by decide) exSq_entries 2, ?_⟩
    · have : (2 : ℝ) = ((2 : ℝ) ^ (2 : ℝ)) ^ (1 / (2 : ℝ)) := by
        rw [← Real.rpow_mul (by norm_num)]; norm_num
      conv_rhs => rw [this]
      simp [ospaVal, Matching.sum, Matching.size, Fin.sum_univ_two, exSq, exSqMatch]
      norm_num
    · have : (2 : ℝ) = ((2 : ℝ) ^ (2 : ℝ)) ^ (1 / (2 : ℝ)) := by
        rw [← Real.rpow_mul (by norm_num)]; norm_num
      conv_lhs => rw [this]
      apply Real.rpow_lt_rpow (by positivity) _ (by norm_num)
      norm_num

/-! ## C36 -/

/-- The GOSPA cost of a matching, before the root: matched pairs cost their distance to the power
`p`, and every target and every truth in no pair costs `c ^ p / 2`. -/
def gospaVal (D : Fin M → Fin N → ℚ) (c : ℚ) (pw : ℚ → ℚ) (θ : Matching M N) : ℚ :=
  θ.sum (fun i j => pw (D i j)) + ((M : ℚ) + N - 2 * θ.size) * (pw c / 2)

theorem gospaVal_eq (D : Fin M → Fin N → ℚ) (c : ℚ) (pw : ℚ → ℚ) (θ : Matching M N) :
    gospaVal D c pw θ = ((M : ℚ) + N) * (pw c / 2) + θ.sum (fun i j => pw (D i j) - pw c) := by
  unfold gospaVal
  rw [Matching.sum_sub, nsmul_eq_mul]
  ring

theorem gospaSum_eq (D : Fin M → Fin N → ℚ) (c : ℚ) (pw : ℚ → ℚ)
    (τ : Equiv.Perm (Fin (max M N))) :
    (∑ i, gospaMatrix D c pw i (τ i)) = ((M : ℚ) + N) * (pw c / 2) +
      pairSum (le_max_left M N) (fun i j => pw (min (D i j) c) - pw c) τ := by
  have h1 : (∑ i, gospaMatrix D c pw i (τ i)) = (max M N) • (pw c / 2) +
      pairSum (le_max_left M N) (fun i j => pw (min (D i j) c) - pw c / 2) τ :=
    sum_pad (le_max_left M N) (pw c / 2) (fun i j => pw (min (D i j) c)) τ
  have h2 : pairSum (le_max_left M N) (fun i j => pw (min (D i j) c) - pw c / 2) τ =
      pairSum (le_max_left M N) (fun i j => pw (min (D i j) c) - pw c) τ +
        ((pairSum (N := N) (le_max_left M N) (fun _ _ => (1 : ℕ)) τ : ℕ) : ℚ) * (pw c / 2) := by
    unfold pairSum
    rw [Nat.cast_sum, Finset.sum_mul, ← Finset.sum_add_distrib]
    apply Finset.sum_congr rfl
    intro i _
    split
    · simp only [Nat.cast_one]; ring
    · simp
  rw [h1, h2, pairSum_one, nsmul_eq_mul]
  have h3 : ((max M N : ℕ) : ℚ) + ((min M N : ℕ) : ℚ) = M + N := by
    rw [← Nat.cast_add, max_add_min, Nat.cast_add]
  rw [← h3]
  ring

theorem gospaVal_ofPerm {D : Fin M → Fin N → ℚ} {c : ℚ} {pw : ℚ → ℚ}
    (τ : Equiv.Perm (Fin (max M N))) :
    gospaVal D c pw (ofPerm (le_max_left M N) (fun i j => D i j ≤ c) τ) =
      ∑ i, gospaMatrix D c pw i (τ i) := by
  rw [gospaVal_eq, gospaSum_eq, ← pairSum_ofPerm _ (fun i j => D i j ≤ c)
    (fun i j => pw (min (D i j) c) - pw c)]
  · congr 1
    unfold Matching.sum
    apply Finset.sum_congr rfl
    intro i _
    cases h : (ofPerm (le_max_left M N) (fun i j => D i j ≤ c) τ).fn i with
    | none => rfl
    | some j =>
      have : D i j ≤ c := by
        unfold ofPerm at h
        simp only at h
        split at h
        · split at h
          · rename_i h1 h2
            rw [← Option.some.inj h]; exact h2
          · cases h
        · cases h
      simp only [min_eq_left this]
  · intro i j h
    rw [min_eq_right (le_of_not_ge h), sub_self]

theorem gospaVal_perm {D : Fin M → Fin N → ℚ} (hD : ∀ i j, 0 ≤ D i j) {c : ℚ} (hc : 0 ≤ c)
    {pw : ℚ → ℚ} (hpw : MonotoneOn pw (Set.Ici 0)) (θ : Matching M N) :
    ∃ τ : Equiv.Perm (Fin (max M N)), ∑ i, gospaMatrix D c pw i (τ i) ≤ gospaVal D c pw θ := by
  obtain ⟨τ, hτ⟩ := exists_perm_le (le_max_left M N) (le_max_right M N) θ
    (fun i j => pw (min (D i j) c) - pw c) (fun i j => pw (D i j) - pw c)
    (fun i j => sub_nonpos.2 (hpw (le_min (hD i j) hc) hc (min_le_right _ _)))
    (fun i j => sub_le_sub_right (hpw (le_min (hD i j) hc) (hD i j) (min_le_left _ _)) _)
  exact ⟨τ, by rw [gospaSum_eq, gospaVal_eq]; exact add_le_add_right hτ _⟩

/-- C36, upper bound: the score is the root of the cost of some matching. -/
theorem C36_upper_bound (D : Fin M → Fin N → ℚ) (c : ℚ) (pw : ℚ → ℚ) (p : ℝ) (hM : M ≤ 30)
    (hN : N ≤ 30) (h0 : 0 < max M N) :
    ∃ (F : Nat) (s : ℝ) (θ : Matching M N), (∀ fuel, F ≤ fuel → gospa D c pw p fuel = some s) ∧
      s = (gospaVal D c pw θ : ℝ) ^ (1 / p) := by
  obtain ⟨F, σ, h1, _⟩ := lapColMajor_spec (gospaMatrix D c pw) (max_le hM hN)
  refine ⟨F, _, ofPerm (le_max_left M N) (fun i j => D i j ≤ c) σ, fun fuel hfu => ?_, rfl⟩
  unfold gospa gospaAssign
  rw [if_pos h0, h1 fuel hfu, gospaVal_ofPerm]
  rfl

/-- `std::pow(·, 2)`, `lmb.hpp:309,321`, for the examples. -/
def sqr (x : ℚ) : ℚ := x ^ 2

theorem sqr_mono : MonotoneOn sqr (Set.Ici 0) := fun _ ha _ _ h => pow_le_pow_left₀ ha h 2

example := C36_upper_bound exD 5 sqr 2 (by norm_num) (by norm_num) (by norm_num)

/-- C36, exact cases: for at most two objects a side, or equally many targets and truths with
symmetric distances, the score is the optimum over all matchings, for every `p > 0`. -/
theorem C36_exact (D : Fin M → Fin N → ℚ) (hD : ∀ i j, 0 ≤ D i j) (c : ℚ) (hc : 0 ≤ c)
    (pw : ℚ → ℚ) (hpw : MonotoneOn pw (Set.Ici 0)) (hp0 : 0 ≤ pw 0) (p : ℝ) (hp : 0 < p)
    (hM : M ≤ 30) (hN : N ≤ 30) (h0 : 0 < max M N)
    (hs : (M ≤ 2 ∧ N ≤ 2) ∨ ∃ e : M = N, ∀ i j, D i (Fin.cast e j) = D j (Fin.cast e i)) :
    ∃ (F : Nat) (s : ℝ), (∀ fuel, F ≤ fuel → gospa D c pw p fuel = some s) ∧
      IsLeast (Set.range fun θ => (gospaVal D c pw θ : ℝ) ^ (1 / p)) s := by
  obtain ⟨F, σ, h1, h2⟩ := lapColMajor_spec (gospaMatrix D c pw) (max_le hM hN)
  refine ⟨F, _, fun fuel hfu => ?_, ⟨ofPerm (le_max_left M N) (fun i j => D i j ≤ c) σ, rfl⟩, ?_⟩
  · unfold gospa gospaAssign
    simp only
    rw [if_pos h0, h1 fuel hfu, gospaVal_ofPerm]
    rfl
  have hsym : max M N ≤ 2 ∨ ∀ i j, gospaMatrix D c pw i j = gospaMatrix D c pw j i := by
    rcases hs with hs | ⟨rfl, hs⟩
    · exact Or.inl (max_le hs.1 hs.2)
    · right
      intro i j
      have hi : i.val < M := lt_of_lt_of_eq i.2 (max_self M)
      have hj : j.val < M := lt_of_lt_of_eq j.2 (max_self M)
      unfold gospaMatrix
      rw [dif_pos ⟨hi, hj⟩, dif_pos ⟨hj, hi⟩]
      congr 2
      exact hs ⟨i, hi⟩ ⟨j, hj⟩
  have hnn : ∀ x, 0 ≤ x → 0 ≤ pw x := fun x hx => hp0.trans (hpw (le_refl (0 : ℚ)) hx hx)
  rintro _ ⟨θ, rfl⟩
  obtain ⟨τ, hτ⟩ := gospaVal_perm hD hc hpw θ
  simp only
  rw [gospaVal_ofPerm]
  apply Real.rpow_le_rpow
  · have : 0 ≤ ∑ i, gospaMatrix D c pw i (σ i) := by
      apply Finset.sum_nonneg
      intro i _
      unfold gospaMatrix
      split
      · exact hnn _ (le_min (hD _ _) hc)
      · exact div_nonneg (hnn c hc) (by norm_num)
    exact_mod_cast this
  · exact_mod_cast (opt_of_transposed hsym h2 τ).trans hτ
  · positivity

example := C36_exact exSq (by decide) 5 (by norm_num) sqr sqr_mono (by decide) 2 (by norm_num)
  (by norm_num) (by norm_num) (by norm_num) (Or.inl ⟨by norm_num, by norm_num⟩)

theorem exCyc_gospa_entries : (gospaAssign exCyc 100 sqr 100).map (fun r =>
    (List.finRange _).map fun i => gospaMatrix exCyc 100 sqr i (r i)) = some [100, 100, 400] := by
  decide +kernel

/-- C36, refuted: three targets exactly at the three truths, in another order; the optimum is 0
and the score is not. -/
theorem C36_refuted : ∃ F s, (gospaVal exCyc 100 sqr exCycMatch : ℝ) ^ (1 / (2 : ℝ)) = 0 ∧
    gospa exCyc 100 sqr 2 F = some s ∧ 0 < s := by
  have h := exCyc_gospa_entries
  rw [Option.map_eq_some_iff] at h
  obtain ⟨r, h1, h2⟩ := h
  refine ⟨100, ((∑ i, gospaMatrix exCyc 100 sqr i (r i) : ℚ) : ℝ) ^ (1 / (2 : ℝ)), ?_, ?_, ?_⟩
  · have : gospaVal exCyc 100 sqr exCycMatch = 0 := by decide +kernel
    rw [this]
    norm_num
  · unfold gospa
    rw [if_pos (by decide), h1, Option.map_some]
  · apply Real.rpow_pos_of_pos
    rw [Fin.sum_univ_def, h2]
    norm_num

end Verif.Metric

import Verif.LapF.Opt
import Verif.LapF.Exact
import Verif.LapF.Binary64
import Verif.LapF.Fuel
import Verif.Lap.Props

/-! # Property C77: the assignment solver in `double` arithmetic -/

namespace Verif.LapF

open Verif.Lap Verif.Lap.XR

variable {n m : Nat}

/-- Everything `lap` guarantees in rounded arithmetic, for at most 30 rows. -/
theorem lap_spec {A : Arith} {C : Cost n m} {D : Nat} {R K δ S : ℚ} (hE : Env A C D R K δ S)
    (hn : n ≤ 30) :
    ∃ F b sol, (∀ fuel, F ≤ fuel → lap A C fuel = some (b, sol)) ∧
      (b = true ↔ ∃ τ, Feasible C τ) ∧
      (b = false → (∀ i, sol.u i = fin 0) ∧ (∀ j, sol.v j = fin 0) ∧ sol.cost = fin 0) ∧
      (b = true → ∃ σ, Result C D K δ sol σ) := by
  rcases hallCheck_spec hE.ok hn with ⟨h1, τ, hτ⟩ | ⟨h1, h2⟩
  · obtain ⟨F, sol, σ, hrun, hres⟩ := rlap_spec hE hτ (fun _ => fin 0)
    refine ⟨F, true, sol, ?_, ⟨fun _ => ⟨τ, hτ⟩, fun _ => rfl⟩,
      ⟨fun h => (Bool.false_ne_true h.symm).elim, fun _ => ⟨σ, hres⟩⟩⟩
    intro fuel hfu
    simp only [lap, h1, hrun fuel hfu, Option.map_some]
    have : ((List.finRange n).all fun i => (sol.rowsol i).isSome) = true := by
      rw [List.all_eq_true]
      intro i _
      rw [hres.rows i]; rfl
    rw [this]
  · refine ⟨0, false, _, fun fuel _ => by simp only [lap, h1]; rfl,
      ⟨fun h => (Bool.false_ne_true h).elim, fun h => absurd h h2⟩,
      fun _ => ⟨fun _ => rfl, fun _ => rfl, rfl⟩, fun h => (Bool.false_ne_true h).elim⟩

/-- What the returned prices certify: if the duals violate the constraints of `C15` by at most `ε`
(a quantity read off the output), the assignment is within `2 n ε` of the optimum. -/
theorem Result.certificate {C : Cost n m} {D : Nat} {K δ : ℚ} {sol : Sol n m} {σ : Fin n → Fin m}
    (h : Result C D K δ sol σ) {ε : ℚ} (hε : 0 ≤ ε)
    (h1 : ∀ i j q c r d, sol.v j = fin q → C i j = fin c → sol.v (σ i) = fin r →
      C i (σ i) = fin d → d - r ≤ c - q + ε)
    (h2 : ∀ j q, sol.v j = fin q → q ≤ ε) {τ : Fin n → Fin m} (hτ : Feasible C τ) :
    total C σ ≤ total C τ + 2 * n * ε := by
  have e1 := total_slack_eq C sol.v σ τ
  have e2 := prices_le (v := sol.v) h.feas.1 hτ.1 h.vfree
  have isV : ∀ j, sol.v j ≠ ninf → ∃ q, sol.v j = fin q := fun j hj => by
    rcases h.vform j with e | ⟨q, e, _⟩
    · exact absurd e hj
    · exact ⟨q, e⟩
  have e3 : -(n * ε) ≤ ∑ i, slack C sol.v σ τ i := by
    have := Finset.card_nsmul_le_sum Finset.univ (fun i => slack C sol.v σ τ i) (-ε) (by
      intro i _
      simp only [slack]
      by_cases hu : sol.u i = pinf
      · rw [h.forced i hu τ hτ]; linarith
      · obtain ⟨q, hq⟩ := isV _ (h.unforced i hu τ hτ)
        obtain ⟨r, hr⟩ := isV _ (h.unforced i hu σ h.feas)
        obtain ⟨c, hc⟩ := hτ.2 i
        obtain ⟨d, hd⟩ := h.feas.2 i
        have := h1 i (τ i) q c r d hq hc hr hd
        rw [hq, hr, hc, hd, val_fin, val_fin, val_fin, val_fin]
        linarith)
    rw [Finset.card_univ, Fintype.card_fin, nsmul_eq_mul] at this
    linarith
  have e4 : ∑ i, max (sol.v (σ i)).val 0 ≤ n * ε := by
    have := Finset.sum_le_card_nsmul Finset.univ (fun i => max (sol.v (σ i)).val 0) ε (by
      intro i _
      refine max_le ?_ hε
      rcases h.vform (σ i) with e | ⟨q, e, _⟩
      · rw [e]; exact hε
      · rw [e]; exact h2 _ q e)
    rw [Finset.card_univ, Fintype.card_fin, nsmul_eq_mul] at this
    exact this
  linarith

/-! ## `double` matrices -/

/-- The entries are finite `double`s of magnitude at most `K`, or `+inf`. -/
def Doubles (C : Cost n m) (K : ℚ) : Prop :=
  ∀ i j, C i j = pinf ∨ ∃ q, C i j = fin q ∧ IsDouble q ∧ |q| ≤ K

/-- The rounding unit for `m` columns and costs up to `K`. -/
def roundErr (m : Nat) (K : ℚ) : ℚ := (20 * m + 20) * K / 2 ^ 52

theorem Doubles.ok {C : Cost n m} {K : ℚ} (h : Doubles C K) : CostOk C := fun i j =>
  (h i j).imp id fun ⟨q, hq, _⟩ => ⟨q, hq⟩

theorem Doubles.env {C : Cost n m} {K : ℚ} (h : Doubles C K) (hK : 0 ≤ K) (hm : (m : ℚ) ≤ 2 ^ 40)
    (hr : (20 * m + 20) * K ≤ 2 ^ 1022) :
    Env b64 C (2 ^ 1074) ((20 * m + 20) * K) K (roundErr m K) (K + 2 * roundErr m K) := by
  have hm0 : (0:ℚ) ≤ m := Nat.cast_nonneg m
  refine ⟨rounds_b64 (mul_nonneg (by clear hr; linarith) hK) hr, h.ok, ⟨hK, ?_, ?_⟩, rfl, ?_⟩
  · intro i j q hq
    rcases h i j with e | ⟨q', e, hd, _⟩
    · rw [e] at hq; cases hq
    · rw [e] at hq; injection hq with hq; rw [← hq]; exact hd.onGrid
  · intro i j q hq
    rcases h i j with e | ⟨q', e, _, hk⟩
    · rw [e] at hq; cases hq
    · exact XR.fin.inj (e.symm.trans hq) ▸ hk
  · have h1 : 2 * roundErr m K ≤ K := by
      have h3 : (40 * (m:ℚ) + 40) ≤ 2 ^ 52 := by
        have : (40 * (2:ℚ) ^ 40 + 40) ≤ 2 ^ 52 := by norm_num
        clear hr
        linarith
      have h2 := mul_le_mul_of_nonneg_right h3 hK
      unfold roundErr
      rw [mul_div_assoc', div_le_iff₀ (by norm_num)]
      clear hr
      linarith
    have h4 : (10 * (m:ℚ) + 10) * (2 * roundErr m K) ≤ (10 * m + 10) * K :=
      mul_le_mul_of_nonneg_left h1 (by linarith)
    clear hr
    linarith

/-- Multiples of `2⁻ᵏ`, in a range where all numbers of the run are exact. -/
theorem exact_env {C : Cost n m} {K : ℚ} {k : Nat} (hK : 0 ≤ K) (hk : k ≤ 1074)
    (hC : ∀ i j, C i j = pinf ∨ ∃ z : ℤ, C i j = fin (z / 2 ^ k) ∧ |(z : ℚ)| / 2 ^ k ≤ K)
    (hr : (10 * m + 10) * K * 2 ^ k ≤ 2 ^ 52) :
    Env b64 C (2 ^ k) ((10 * m + 10) * K) K 0 K := by
  have h2 : (2:ℚ) ^ k ≠ 0 := pow_ne_zero _ (by norm_num)
  refine ⟨rounds_b64_exact hk hr, fun i j => (hC i j).imp id fun ⟨z, hz, _⟩ => ⟨_, hz⟩,
    ⟨hK, ?_, ?_⟩, by ring, le_refl _⟩
  · intro i j q hq
    rcases hC i j with e | ⟨z, e, _⟩
    · rw [e] at hq; cases hq
    · rw [e] at hq; injection hq with hq
      refine ⟨z, ?_⟩
      rw [← hq]; push_cast; rw [div_mul_cancel₀ _ h2]
  · intro i j q hq
    rcases hC i j with e | ⟨z, e, hk⟩
    · rw [e] at hq; cases hq
    · rw [e] at hq; injection hq with hq
      rw [← hq, abs_div, abs_of_pos (pow_pos (by norm_num : (0:ℚ) < 2) _)]
      exact hk

/-! ## Concrete matrices -/

theorem isDouble_int {z : ℤ} (h : |z| < 2 ^ 53) : IsDouble z :=
  ⟨z, 0, by simp, h, by norm_num, by norm_num⟩

/-- `exC` consists of `double`s up to 5. -/
theorem exC_doubles : Doubles exC 5 := by
  have h72 : IsDouble (7 / 2) := ⟨7, -1, by norm_num, by norm_num, by norm_num, by norm_num⟩
  have h5 : IsDouble 5 := isDouble_int (z := 5) (by norm_num)
  have h3 : IsDouble 3 := isDouble_int (z := 3) (by norm_num)
  have h1 : IsDouble 1 := by exact_mod_cast isDouble_int (z := 1) (by norm_num)
  intro i j
  fin_cases i <;> fin_cases j
  exacts [Or.inr ⟨_, rfl, h5, by norm_num⟩, Or.inl rfl, Or.inl rfl,
    Or.inr ⟨_, rfl, h1, by norm_num⟩, Or.inr ⟨_, rfl, h3, by norm_num⟩,
    Or.inr ⟨_, rfl, h72, by norm_num [abs_of_pos]⟩]

theorem exC_range : (20 * ((3 : Nat) : ℚ) + 20) * 5 ≤ 2 ^ 1022 := by
  have h1 : (2:ℚ) ^ 9 ≤ 2 ^ 1022 := pow_le_pow_right₀ (by norm_num) (by norm_num)
  exact le_trans (by norm_num) h1

/-- `exC` consists of halves. -/
theorem exC_halves : ∀ i j, exC i j = pinf ∨
    ∃ z : ℤ, exC i j = fin (z / 2 ^ 1) ∧ |(z : ℚ)| / 2 ^ 1 ≤ 5 := by
  intro i j
  fin_cases i <;> fin_cases j
  exacts [Or.inr ⟨10, by decide +kernel, by norm_num⟩, Or.inl rfl, Or.inl rfl,
    Or.inr ⟨2, by decide +kernel, by norm_num⟩, Or.inr ⟨6, by decide +kernel, by norm_num⟩,
    Or.inr ⟨7, by decide +kernel, by norm_num [abs_of_pos]⟩]

example : (lap b64 exC 40).map (fun r => (r.1, r.2.rowsol 0, r.2.rowsol 1, r.2.cost)) =
    some (true, some 0, some 1, fin 8) := by decide +kernel

/-- A matrix of integers for which the numbers of the run do not fit into 53 bits. -/
def exR : Cost 3 3 := ![![pinf, fin (2 ^ 53), fin (2 ^ 53)], ![fin (2 ^ 52), pinf, fin 0],
  ![fin (2 ^ 53 - 1), fin 1, fin 0]]

/-! ## C77 -/

/-- C77: in `double` arithmetic `lap` still terminates without undefined behaviour on every matrix
of finite or `+inf` `double`s (at most 30 rows, magnitudes far from overflow), decides feasibility
correctly, and returns no NaN. -/
theorem C77_terminates {C : Cost n m} {K : ℚ} (hC : Doubles C K) (hK : 0 ≤ K) (hn : n ≤ 30)
    (hm : (m : ℚ) ≤ 2 ^ 40) (hr : (20 * m + 20) * K ≤ 2 ^ 1022) :
    ∃ F b sol, (∀ fuel, F ≤ fuel → lap b64 C fuel = some (b, sol)) ∧
      (b = true ↔ ∃ τ : Fin n → Fin m, Function.Injective τ ∧ ∀ i, ∃ q, C i (τ i) = fin q) ∧
      (∀ i, sol.u i ≠ nan) ∧ (∀ j, sol.v j ≠ nan) ∧ (∃ q, sol.cost = fin q) := by
  obtain ⟨F, b, sol, hrun, hiff, hfalse, htrue⟩ := lap_spec (hC.env hK hm hr) hn
  refine ⟨F, b, sol, hrun, hiff, ?_⟩
  cases b with
  | false =>
    obtain ⟨h1, h2, h3⟩ := hfalse rfl
    exact ⟨fun i => by rw [h1]; simp, fun j => by rw [h2]; simp, 0, h3⟩
  | true =>
    obtain ⟨σ, h⟩ := htrue rfl
    obtain ⟨c, hc, _⟩ := h.cost
    refine ⟨?_, ?_, c, hc⟩
    · intro i
      rcases h.uform i with ⟨e, _⟩ | ⟨a, q, c, e, _⟩ <;> rw [e] <;> simp
    · intro j
      rcases h.vform j with e | ⟨q, e, _⟩ <;> rw [e] <;> simp

example := C77_terminates exC_doubles (by norm_num) (by decide) (by norm_num) exC_range

/-- C77: the assignment returned in `double` arithmetic is one-to-one over finite entries, within
`16 n (n+4)ⁿ` rounding units of the optimum, and its cost is off by at most `n` units. -/
theorem C77_near_optimal {C : Cost n m} {K : ℚ} (hC : Doubles C K) (hK : 0 ≤ K) (hn : n ≤ 30)
    (hm : (m : ℚ) ≤ 2 ^ 40) (hr : (20 * m + 20) * K ≤ 2 ^ 1022) :
    ∃ F, ∀ fuel, F ≤ fuel → ∀ sol, lap b64 C fuel = some (true, sol) →
      ∃ (σ : Fin n → Fin m) (c : Fin n → ℚ) (w : ℚ), (∀ i, sol.rowsol i = some (σ i)) ∧
        Function.Injective σ ∧ (∀ i, C i (σ i) = fin (c i)) ∧
        sol.cost = fin w ∧ |w - ∑ i, c i| ≤ n * ((20 * m + 20) * K / 2 ^ 52) ∧
        ∀ (τ : Fin n → Fin m) (d : Fin n → ℚ), Function.Injective τ →
          (∀ i, C i (τ i) = fin (d i)) →
          ∑ i, c i ≤ ∑ i, d i + 16 * n * (n + 4) ^ n * ((20 * m + 20) * K / 2 ^ 52) := by
  obtain ⟨F, b, sol, hrun, _, _, hres⟩ := lap_spec (hC.env hK hm hr) hn
  refine ⟨F, ?_⟩
  intro fuel hfu sol' hs
  rw [hrun fuel hfu] at hs
  injection hs with hs
  injection hs with hb hs
  subst hs
  obtain ⟨σ, h⟩ := hres hb
  obtain ⟨w, hw, hw'⟩ := h.cost
  refine ⟨σ, fun i => (C i (σ i)).val, w, h.rows, h.feas.1, fun i => (h.feas.2 i).eq, hw, hw', ?_⟩
  intro τ d hτ hd
  have := h.near τ ⟨hτ, fun i => ⟨d i, hd i⟩⟩
  unfold total at this
  simp only [hd, val_fin] at this
  refine this.trans (le_of_eq ?_)
  unfold slackBound roundErr
  ring

example := C77_near_optimal exC_doubles (by norm_num) (by decide) (by norm_num) exC_range

/-- C77: the returned duals bound the distance from the optimum, whatever was lost to rounding.
`ε` is read off the output: the largest violation of the constraints of C15.  Rows with infinite
dual are forced. -/
theorem C77_certificate {C : Cost n m} {K : ℚ} (hC : Doubles C K) (hK : 0 ≤ K) (hn : n ≤ 30)
    (hm : (m : ℚ) ≤ 2 ^ 40) (hr : (20 * m + 20) * K ≤ 2 ^ 1022) :
    ∃ F, ∀ fuel, F ≤ fuel → ∀ sol, lap b64 C fuel = some (true, sol) →
      ∃ (σ : Fin n → Fin m) (c : Fin n → ℚ), (∀ i, sol.rowsol i = some (σ i)) ∧
        (∀ i, C i (σ i) = fin (c i)) ∧
        (∀ i, sol.u i = pinf → ∀ τ : Fin n → Fin m, Function.Injective τ →
          (∀ k, ∃ q, C k (τ k) = fin q) → τ i = σ i) ∧
        ∀ ε : ℚ, 0 ≤ ε →
          (∀ i j q a r, sol.v j = fin q → C i j = fin a → sol.v (σ i) = fin r →
            c i - r ≤ a - q + ε) →
          (∀ j q, sol.v j = fin q → q ≤ ε) →
          ∀ (τ : Fin n → Fin m) (d : Fin n → ℚ), Function.Injective τ →
            (∀ i, C i (τ i) = fin (d i)) → ∑ i, c i ≤ ∑ i, d i + 2 * n * ε := by
  obtain ⟨F, b, sol, hrun, _, _, hres⟩ := lap_spec (hC.env hK hm hr) hn
  refine ⟨F, ?_⟩
  intro fuel hfu sol' hs
  rw [hrun fuel hfu] at hs
  injection hs with hs
  injection hs with hb hs
  subst hs
  obtain ⟨σ, h⟩ := hres hb
  refine ⟨σ, fun i => (C i (σ i)).val, h.rows, fun i => (h.feas.2 i).eq,
    fun i hi τ hτ hf => h.forced i hi τ ⟨hτ, hf⟩, ?_⟩
  intro ε hε h1 h2 τ d hτ hd
  have := h.certificate hε (fun i j q a r d' hq ha hr hd' => by
    have := h1 i j q a r hq ha hr
    simp only [hd', val_fin] at this
    exact this) h2 (τ := τ) ⟨hτ, fun i => ⟨d i, hd i⟩⟩
  unfold total at this
  simp only [hd, val_fin] at this
  exact this

example := C77_certificate exC_doubles (by norm_num) (by decide) (by norm_num) exC_range

/-- C77: if the costs are multiples of `2⁻ᵏ` and small enough for 52 bits, rounding does not
matter: the assignment is optimal, its cost exact, and the duals satisfy C15. -/
theorem C77_exact {C : Cost n m} {K : ℚ} {k : Nat} (hK : 0 ≤ K) (hk : k ≤ 1074)
    (hC : ∀ i j, C i j = pinf ∨ ∃ z : ℤ, C i j = fin (z / 2 ^ k) ∧ |(z : ℚ)| / 2 ^ k ≤ K)
    (hr : (10 * m + 10) * K * 2 ^ k ≤ 2 ^ 52) (hn : n ≤ 30) :
    ∃ F, ∀ fuel, F ≤ fuel → ∃ b sol, lap b64 C fuel = some (b, sol) ∧
      (b = true ↔ ∃ τ : Fin n → Fin m, Function.Injective τ ∧ ∀ i, ∃ q, C i (τ i) = fin q) ∧
      (b = true → ∃ (σ : Fin n → Fin m) (c : Fin n → ℚ), (∀ i, sol.rowsol i = some (σ i)) ∧
        Function.Injective σ ∧ (∀ i, C i (σ i) = fin (c i)) ∧ sol.cost = fin (∑ i, c i) ∧
        (∀ (τ : Fin n → Fin m) (d : Fin n → ℚ), Function.Injective τ →
          (∀ i, C i (τ i) = fin (d i)) → ∑ i, c i ≤ ∑ i, d i) ∧
        (∀ i j a q w, sol.u i = fin a → sol.v j = fin q → C i j = fin w → a + q ≤ w) ∧
        (∀ i, (∃ a q, sol.u i = fin a ∧ sol.v (σ i) = fin q ∧ a + q = c i) ∨
          (sol.u i = pinf ∧ sol.v (σ i) = ninf)) ∧
        (∀ j, sol.v j = ninf ∨ ∃ q, sol.v j = fin q ∧ q ≤ 0)) := by
  obtain ⟨F, b, sol, hrun, hiff, _, hres⟩ := lap_spec (exact_env hK hk hC hr) hn
  refine ⟨F, fun fuel hfu => ⟨b, sol, hrun fuel hfu, hiff, fun hb => ?_⟩⟩
  obtain ⟨σ, h⟩ := hres hb
  obtain ⟨w, hw, hw'⟩ := h.cost
  have hsb : slackBound n 0 = 0 := by unfold slackBound; ring
  have hw0 : w = total C σ := by
    rw [mul_zero] at hw'
    have := abs_nonpos_iff.1 hw'
    linarith
  refine ⟨σ, fun i => (C i (σ i)).val, h.rows, h.feas.1, fun i => (h.feas.2 i).eq, ?_, ?_, ?_, ?_, ?_⟩
  · rw [hw, hw0]; rfl
  · intro τ d hτ hd
    have := h.near τ ⟨hτ, fun i => ⟨d i, hd i⟩⟩
    rw [hsb, mul_zero, add_zero] at this
    unfold total at this
    simp only [hd, val_fin] at this
    exact this
  · intro i j a q w ha hq hw
    have := h.below i j a q w ha hq hw
    rw [hsb, add_zero] at this
    exact this
  · intro i
    rcases h.uform i with h1 | ⟨a, q, c, h1, h2, h3, h4⟩
    · exact Or.inr h1
    · refine Or.inl ⟨a, q, h1, h2, ?_⟩
      simp only [h3, val_fin]
      have := abs_nonpos_iff.1 h4
      linarith
  · intro j
    rcases h.vform j with e | ⟨q, e, h1, _⟩
    · exact Or.inl e
    · rw [hsb] at h1
      exact Or.inr ⟨q, e, h1⟩

example := C77_exact (K := 5) (k := 1) (by norm_num) (by norm_num) exC_halves (by norm_num)
  (by decide)

/-- C77: the exact statement of C13 fails in `double` arithmetic, already for 3×3 matrices of
integers up to `2⁵³`: `lap` returns an assignment that is not optimal. -/
theorem C77_optimal_refuted : ∃ C : Cost 3 3, Doubles C (2 ^ 53) ∧
    ∃ F, ∀ fuel, F ≤ fuel → ∃ (sol : Sol 3 3) (σ τ : Fin 3 → Fin 3) (c d : Fin 3 → ℚ),
      lap b64 C fuel = some (true, sol) ∧ (∀ i, sol.rowsol i = some (σ i)) ∧
      (∀ i, C i (σ i) = fin (c i)) ∧ Function.Injective τ ∧ (∀ i, C i (τ i) = fin (d i)) ∧
      ∑ i, d i < ∑ i, c i := by
  have hD : Doubles exR (2 ^ 53) := by
    have d53 : IsDouble (2 ^ 53) := ⟨1, 53, by norm_num, by norm_num, by norm_num, by norm_num⟩
    have d52 : IsDouble (2 ^ 52) := ⟨1, 52, by norm_num, by norm_num, by norm_num, by norm_num⟩
    have d0 : IsDouble 0 := by exact_mod_cast isDouble_int (z := 0) (by norm_num)
    have d1 : IsDouble 1 := by exact_mod_cast isDouble_int (z := 1) (by norm_num)
    have dm : IsDouble (2 ^ 53 - 1) := by
      have := isDouble_int (z := 9007199254740991) (by norm_num)
      norm_num at this ⊢
      exact this
    intro i j
    fin_cases i <;> fin_cases j
    exacts [Or.inl rfl, Or.inr ⟨_, rfl, d53, by norm_num⟩, Or.inr ⟨_, rfl, d53, by norm_num⟩,
      Or.inr ⟨_, rfl, d52, by norm_num⟩, Or.inl rfl, Or.inr ⟨_, rfl, d0, by norm_num⟩,
      Or.inr ⟨_, rfl, dm, by norm_num⟩, Or.inr ⟨_, rfl, d1, by norm_num⟩,
      Or.inr ⟨_, rfl, d0, by norm_num⟩]
  refine ⟨exR, hD, ?_⟩
  have hrun : (lap b64 exR 40).map (fun r => (r.1, r.2.rowsol 0, r.2.rowsol 1, r.2.rowsol 2)) =
      some (true, some 2, some 0, some 1) := by decide +kernel
  obtain ⟨⟨b, sol⟩, h1, h2⟩ := Option.map_eq_some_iff.1 hrun
  simp only [Prod.mk.injEq] at h2
  obtain ⟨rfl, r0, r1, r2⟩ := h2
  refine ⟨40, fun fuel hf => ⟨sol, ![2, 0, 1], ![1, 0, 2], ![2 ^ 53, 2 ^ 52, 1],
    ![2 ^ 53, 2 ^ 52, 0], lap_mono b64 exR hf h1, ?_, ?_, by decide, ?_, ?_⟩⟩
  · intro i; fin_cases i
    exacts [r0, r1, r2]
  · intro i; fin_cases i <;> rfl
  · intro i; fin_cases i <;> rfl
  · rw [Fin.sum_univ_three, Fin.sum_univ_three]
    simp

end Verif.LapF

import Verif.Metric.Props

/-!
# C114: `ospa` and `gospa` as distances between sets

The score of a perfect estimate depends on the order in which targets and truths are listed: it is 0 exactly
for the orders that are involutions.  Swapping the roles of estimate and truth does not change the score if
there is one best assignment.  There is no triangle inequality.
-/

namespace Verif.Metric

open Verif.Lap

variable {n : Nat}

/-- The assignment for a square table. -/
theorem square_assign (D : Fin n → Fin n → ℚ) (f : ℚ → ℚ) {A : Fin (max n n) → Fin (max n n) → ℚ}
    (hA : ∀ i j : Fin n, A (Fin.cast (max_self n).symm i) (Fin.cast (max_self n).symm j) = f (D i j))
    (hn : n ≤ 30) : ∃ (F : Nat) (σ' : Equiv.Perm (Fin (max n n))) (σ : Equiv.Perm (Fin n)),
      (∀ fuel, F ≤ fuel →
        (lapColMajor (fun i j => XR.fin (A i j)) fuel).bind allAssigned = some (⇑σ')) ∧
      (∀ i, σ' (Fin.cast (max_self n).symm i) = Fin.cast (max_self n).symm (σ i)) ∧
      ∀ τ : Equiv.Perm (Fin n), ∑ i, f (D (σ i) i) ≤ ∑ i, f (D (τ i) i) := by
  obtain ⟨F, σ', h1, h2⟩ := lapColMajor_spec A (by simpa using hn)
  let e : Fin n ≃ Fin (max n n) := finCongr (max_self n).symm
  have he : ∀ i, e i = Fin.cast (max_self n).symm i := fun i => rfl
  refine ⟨F, σ', (e.trans σ').trans e.symm, h1, fun i => ?_, fun τ => ?_⟩
  · rw [← he, ← he]
    simp
  · have key : ∀ ρ : Equiv.Perm (Fin (max n n)),
        ∑ i, A (ρ i) i = ∑ i, f (D (((e.trans ρ).trans e.symm) i) i) := by
      intro ρ
      rw [← e.sum_comp]
      apply Finset.sum_congr rfl
      intro i _
      rw [← hA, ← he, ← he]
      simp
    have h3 := h2 ((e.symm.trans τ).trans e)
    rw [key, key] at h3
    refine h3.trans (le_of_eq ?_)
    apply Finset.sum_congr rfl
    intro i _
    simp

theorem ospa_square (D : Fin n → Fin n → ℚ) (c : ℚ) (p : ℝ) (hn : n ≤ 30) (h0 : 0 < n) :
    ∃ (F : Nat) (σ : Equiv.Perm (Fin n)),
      (∀ fuel, F ≤ fuel → ospa D c p fuel =
        some (((∑ i, ((min (D i (σ i)) c : ℚ) : ℝ) ^ p) / (n : ℕ)) ^ (1 / p))) ∧
      ∀ τ : Equiv.Perm (Fin n), ∑ i, min (D (σ i) i) c ≤ ∑ i, min (D (τ i) i) c := by
  obtain ⟨F, σ', σ, h1, h2, h3⟩ := square_assign D (fun x => min x c) (A := ospaMatrix D c)
    (fun i j => by simp [ospaMatrix]) hn
  refine ⟨F, σ, fun fuel hf => ?_, h3⟩
  unfold ospa ospaAssign
  rw [if_pos (by simpa using h0), h1 fuel hf]
  rw [Option.map_some]
  congr 3
  · rw [← (finCongr (max_self n).symm).sum_comp]
    apply Finset.sum_congr rfl
    intro i _
    change ((ospaMatrix D c (Fin.cast (max_self n).symm i) (σ' (Fin.cast (max_self n).symm i)) : ℚ) : ℝ) ^ p = _
    rw [h2]
    simp [ospaMatrix]
  · simp

theorem gospa_square (D : Fin n → Fin n → ℚ) (c : ℚ) (pw : ℚ → ℚ) (p : ℝ) (hn : n ≤ 30) (h0 : 0 < n) :
    ∃ (F : Nat) (σ : Equiv.Perm (Fin n)),
      (∀ fuel, F ≤ fuel → gospa D c pw p fuel =
        some (((∑ i, pw (min (D i (σ i)) c) : ℚ) : ℝ) ^ (1 / p))) ∧
      ∀ τ : Equiv.Perm (Fin n), ∑ i, pw (min (D (σ i) i) c) ≤ ∑ i, pw (min (D (τ i) i) c) := by
  obtain ⟨F, σ', σ, h1, h2, h3⟩ := square_assign D (fun x => pw (min x c)) (A := gospaMatrix D c pw)
    (fun i j => by simp [gospaMatrix]) hn
  refine ⟨F, σ, fun fuel hf => ?_, h3⟩
  unfold gospa gospaAssign
  rw [if_pos (by simpa using h0), h1 fuel hf]
  rw [Option.map_some]
  have he : (∑ i, gospaMatrix D c pw i (σ' i)) = ∑ i, pw (min (D i (σ i)) c) := ?_
  · rw [he]
  rw [← (finCongr (max_self n).symm).sum_comp]
  apply Finset.sum_congr rfl
  intro i _
  change gospaMatrix D c pw (Fin.cast (max_self n).symm i) (σ' (Fin.cast (max_self n).symm i)) = _
  rw [h2]
  simp [gospaMatrix]

/-- With nonnegative costs that vanish only on the pairs of `π`, the best assignment is `π`. -/
theorem only_zero {B : Fin n → Fin n → ℚ} (hB : ∀ i j, 0 ≤ B i j) {π σ : Equiv.Perm (Fin n)}
    (hz : ∀ i j, B i j = 0 ↔ i = π j)
    (hσ : ∀ τ : Equiv.Perm (Fin n), ∑ i, B (σ i) i ≤ ∑ i, B (τ i) i) : σ = π := by
  have h1 : ∑ i, B (σ i) i ≤ 0 := by
    refine (hσ π).trans (le_of_eq ?_)
    exact Finset.sum_eq_zero fun i _ => (hz _ _).2 rfl
  have h2 : ∀ i ∈ Finset.univ, B (σ i) i = 0 :=
    (Finset.sum_eq_zero_iff_of_nonneg fun i _ => hB _ _).1
      (le_antisymm h1 (Finset.sum_nonneg fun i _ => hB _ _))
  ext1 i
  exact (hz _ _).1 (h2 i (Finset.mem_univ i))

/-- C114: the score of a perfect estimate.  The targets are at the points `x`, and the truths are the same
points in the order `π`; `d` is a distance. -/
theorem C114_perfect {α : Type} {d : α → α → ℚ} (hd : ∀ a b, 0 ≤ d a b) (hd0 : ∀ a b, d a b = 0 ↔ a = b)
    {x : Fin n → α} (hx : Function.Injective x) (π : Equiv.Perm (Fin n)) {c : ℚ} (hc : 0 < c) {p : ℝ}
    (hp : 0 < p) {pw : ℚ → ℚ} (hpw : pw 0 = 0) (hpw' : ∀ y, 0 < y → 0 < pw y) (hn : n ≤ 30)
    (h0 : 0 < n) :
    ∃ F s g, (∀ fuel, F ≤ fuel → ospa (fun i j => d (x i) (x (π j))) c p fuel = some s ∧
        gospa (fun i j => d (x i) (x (π j))) c pw p fuel = some g) ∧
      s = ((∑ i, ((min (d (x i) (x (π (π i)))) c : ℚ) : ℝ) ^ p) / (n : ℕ)) ^ (1 / p) ∧
      g = ((∑ i, pw (min (d (x i) (x (π (π i)))) c) : ℚ) : ℝ) ^ (1 / p) ∧
      (s = 0 ↔ ∀ i, π (π i) = i) ∧ (g = 0 ↔ ∀ i, π (π i) = i) := by
  obtain ⟨F1, σ1, a1, a2⟩ := ospa_square (fun i j => d (x i) (x (π j))) c p hn h0
  obtain ⟨F2, σ2, b1, b2⟩ := gospa_square (fun i j => d (x i) (x (π j))) c pw p hn h0
  have hm0 : ∀ i j, min (d (x i) (x j)) c = 0 ↔ i = j := by
    intro i j
    constructor
    · intro h
      rcases min_choice (d (x i) (x j)) c with e | e
      · exact hx ((hd0 _ _).1 (by rw [← e, h]))
      · exact absurd (by rw [← e, h]) hc.ne'
    · rintro rfl
      rw [(hd0 _ _).2 rfl]
      exact min_eq_left hc.le
  have hmn : ∀ i j, 0 ≤ min (d (x i) (x j)) c := fun i j => le_min (hd _ _) hc.le
  have hpn : ∀ y, 0 ≤ y → 0 ≤ pw y := fun y hy => by
    rcases hy.eq_or_lt with rfl | hy
    · exact hpw.ge
    · exact (hpw' y hy).le
  have hp0 : ∀ y, 0 ≤ y → (pw y = 0 ↔ y = 0) := fun y hy =>
    ⟨fun h => by
      by_contra hne
      exact (hpw' y (lt_of_le_of_ne hy (Ne.symm hne))).ne' h, fun h => by rw [h, hpw]⟩
  have e1 : σ1 = π := only_zero (B := fun i j => min (d (x i) (x (π j))) c) (fun i j => hmn _ _)
    (fun i j => hm0 _ _) a2
  have e2 : σ2 = π := only_zero (B := fun i j => pw (min (d (x i) (x (π j))) c))
    (fun i j => hpn _ (hmn _ _)) (fun i j => by rw [hp0 _ (hmn _ _), hm0]) b2
  subst e1
  rw [e2] at b1
  have hpi : (1 : ℝ) / p ≠ 0 := by positivity
  refine ⟨max F1 F2, _, _, fun fuel hf => ⟨a1 fuel (le_of_max_le_left hf), b1 fuel (le_of_max_le_right hf)⟩,
    rfl, rfl, ?_, ?_⟩
  · have hnn : ∀ i, (0 : ℝ) ≤ ((min (d (x i) (x (σ1 (σ1 i)))) c : ℚ) : ℝ) ^ p := fun i =>
      Real.rpow_nonneg (by exact_mod_cast hmn _ _) _
    have hn' : (n : ℝ) ≠ 0 := by exact_mod_cast h0.ne'
    rw [Real.rpow_eq_zero (div_nonneg (Finset.sum_nonneg fun i _ => hnn i) (Nat.cast_nonneg _)) hpi,
      div_eq_zero_iff, or_iff_left hn', Finset.sum_eq_zero_iff_of_nonneg fun i _ => hnn i]
    refine ⟨fun h i => ?_, fun h i _ => ?_⟩
    · have := h i (Finset.mem_univ i)
      rw [Real.rpow_eq_zero (by exact_mod_cast hmn _ _) hp.ne'] at this
      exact ((hm0 _ _).1 (by exact_mod_cast this)).symm
    · rw [h i, (hm0 i i).2 rfl, Rat.cast_zero, Real.zero_rpow hp.ne']
  · have hnn : ∀ i, 0 ≤ pw (min (d (x i) (x (σ1 (σ1 i)))) c) := fun i => hpn _ (hmn _ _)
    rw [Real.rpow_eq_zero (by exact_mod_cast Finset.sum_nonneg fun i _ => hnn i) hpi]
    rw [Rat.cast_eq_zero, Finset.sum_eq_zero_iff_of_nonneg fun i _ => hnn i]
    refine ⟨fun h i => ?_, fun h i _ => ?_⟩
    · have := h i (Finset.mem_univ i)
      rw [hp0 _ (hmn _ _)] at this
      exact ((hm0 _ _).1 this).symm
    · rw [h i, (hm0 i i).2 rfl, hpw]

/-- C114: swapping estimate and truth does not change the score, if there is one best assignment. -/
theorem C114_swap (D : Fin n → Fin n → ℚ) (c : ℚ) (p : ℝ) (pw : ℚ → ℚ) (hn : n ≤ 30) (h0 : 0 < n) :
    (∀ τ : Equiv.Perm (Fin n), (∀ ρ : Equiv.Perm (Fin n), ρ ≠ τ →
        ∑ i, min (D i (τ i)) c < ∑ i, min (D i (ρ i)) c) →
      ∃ F s, ∀ fuel, F ≤ fuel → ospa D c p fuel = some s ∧ ospa (fun i j => D j i) c p fuel = some s) ∧
    (∀ τ : Equiv.Perm (Fin n), (∀ ρ : Equiv.Perm (Fin n), ρ ≠ τ →
        ∑ i, pw (min (D i (τ i)) c) < ∑ i, pw (min (D i (ρ i)) c)) →
      ∃ F s, ∀ fuel, F ≤ fuel → gospa D c pw p fuel = some s ∧
        gospa (fun i j => D j i) c pw p fuel = some s) := by
  have flip : ∀ (f : Fin n → Fin n → ℚ) (σ : Equiv.Perm (Fin n)),
      ∑ i, f (σ i) i = ∑ i, f i (σ⁻¹ i) := by
    intro f σ
    rw [← Equiv.sum_comp σ (fun i => f i (σ⁻¹ i))]
    simp
  have flipR : ∀ (f : Fin n → Fin n → ℝ) (σ : Equiv.Perm (Fin n)),
      ∑ i, f (σ i) i = ∑ i, f i (σ⁻¹ i) := by
    intro f σ
    rw [← Equiv.sum_comp σ (fun i => f i (σ⁻¹ i))]
    simp
  constructor
  · intro τ hτ
    obtain ⟨F1, σ1, a1, a2⟩ := ospa_square D c p hn h0
    obtain ⟨F2, σ2, b1, b2⟩ := ospa_square (fun i j => D j i) c p hn h0
    have e1 : σ1⁻¹ = τ := by
      by_contra h
      have h1 := hτ _ h
      have h2 := a2 τ⁻¹
      rw [flip (fun i j => min (D i j) c), flip (fun i j => min (D i j) c), inv_inv] at h2
      exact absurd h2 (not_le.2 h1)
    have e2 : σ2 = τ := by
      by_contra h
      exact absurd (b2 τ) (not_le.2 (hτ _ h))
    refine ⟨max F1 F2, _, fun fuel hf => ⟨a1 fuel (le_of_max_le_left hf), ?_⟩⟩
    rw [b1 fuel (le_of_max_le_right hf), e2, ← e1]
    rw [flipR (fun i j => ((min (D i j) c : ℚ) : ℝ) ^ p) σ1⁻¹, inv_inv]
  · intro τ hτ
    obtain ⟨F1, σ1, a1, a2⟩ := gospa_square D c pw p hn h0
    obtain ⟨F2, σ2, b1, b2⟩ := gospa_square (fun i j => D j i) c pw p hn h0
    have e1 : σ1⁻¹ = τ := by
      by_contra h
      have h1 := hτ _ h
      have h2 := a2 τ⁻¹
      rw [flip (fun i j => pw (min (D i j) c)), flip (fun i j => pw (min (D i j) c)), inv_inv] at h2
      exact absurd h2 (not_le.2 h1)
    have e2 : σ2 = τ := by
      by_contra h
      exact absurd (b2 τ) (not_le.2 (hτ _ h))
    refine ⟨max F1 F2, _, fun fuel hf => ⟨a1 fuel (le_of_max_le_left hf), ?_⟩⟩
    rw [b1 fuel (le_of_max_le_right hf), e2, ← e1]
    rw [flip (fun i j => pw (min (D i j) c)) σ1⁻¹, inv_inv]

/-! ## Three objects -/

/-- The distance of points on a line. -/
def exDist (a b : ℚ) : ℚ := |a - b|

/-- Three points, 10 apart. -/
def exPts (i : Fin 3) : ℚ := 10 * (i.val : ℚ)

theorem exPts_inj : Function.Injective exPts := by
  intro i j h
  have : (i.val : ℚ) = j.val := by unfold exPts at h; linarith
  exact Fin.ext (by exact_mod_cast this)

theorem exDist_zero (a b : ℚ) : exDist a b = 0 ↔ a = b := by
  unfold exDist
  rw [abs_eq_zero, sub_eq_zero]

/-- C114: `ospa` and `gospa` are not distances between sets, for any cut-off and any order `p`.  `A`, `B` and
`C` are lists of the same three points: `A` and `B` have the score 0, and so have `B` and `C`, but `A` and `C`
have a positive score. -/
theorem C114_triangle_refuted (c : ℚ) (hc : 0 < c) (p : ℝ) (hp : 0 < p) (pw : ℚ → ℚ) (hpw : pw 0 = 0)
    (hpw' : ∀ y, 0 < y → 0 < pw y) :
    ∃ (A B C : Fin 3 → ℚ), Set.range A = Set.range B ∧ Set.range B = Set.range C ∧ ∃ F s g,
      (∀ fuel, F ≤ fuel → ospa (fun i j => exDist (A i) (B j)) c p fuel = some 0 ∧
        ospa (fun i j => exDist (B i) (C j)) c p fuel = some 0 ∧
        ospa (fun i j => exDist (A i) (C j)) c p fuel = some s) ∧
      (∀ fuel, F ≤ fuel → gospa (fun i j => exDist (A i) (B j)) c pw p fuel = some 0 ∧
        gospa (fun i j => exDist (B i) (C j)) c pw p fuel = some 0 ∧
        gospa (fun i j => exDist (A i) (C j)) c pw p fuel = some g) ∧ 0 < s ∧ 0 < g := by
  have nn : ∀ a b, 0 ≤ exDist a b := fun a b => abs_nonneg _
  let u : Equiv.Perm (Fin 3) := Equiv.swap 0 1
  let v : Equiv.Perm (Fin 3) := Equiv.swap 1 2
  have hB : Function.Injective (exPts ∘ u) := exPts_inj.comp u.injective
  obtain ⟨F1, s1, g1, a1, _, _, a2, a3⟩ := C114_perfect nn exDist_zero exPts_inj u hc hp hpw hpw'
    (by norm_num) (by norm_num)
  obtain ⟨F2, s2, g2, b1, _, _, b2, b3⟩ := C114_perfect nn exDist_zero hB v hc hp hpw hpw'
    (by norm_num) (by norm_num)
  obtain ⟨F3, s3, g3, c1, c4, c5, c2, c3⟩ := C114_perfect nn exDist_zero exPts_inj (v.trans u) hc hp hpw
    hpw' (by norm_num) (by norm_num)
  have hs1 : s1 = 0 := a2.2 (by decide)
  have hg1 : g1 = 0 := a3.2 (by decide)
  have hs2 : s2 = 0 := b2.2 (by decide)
  have hg2 : g2 = 0 := b3.2 (by decide)
  have hno : ¬ ∀ i, (v.trans u) ((v.trans u) i) = i := by decide
  have hs3 : s3 ≠ 0 := fun h => hno (c2.1 h)
  have hg3 : g3 ≠ 0 := fun h => hno (c3.1 h)
  have ps : 0 ≤ s3 := by
    rw [c4]
    exact Real.rpow_nonneg (div_nonneg (Finset.sum_nonneg fun i _ => Real.rpow_nonneg
      (by exact_mod_cast le_min (nn _ _) hc.le) _) (Nat.cast_nonneg _)) _
  have hpn : ∀ y, 0 ≤ y → 0 ≤ pw y := fun y hy => by
    rcases hy.eq_or_lt with rfl | hy
    · exact hpw.ge
    · exact (hpw' y hy).le
  have pg : 0 ≤ g3 := by
    rw [c5]
    have : 0 ≤ ∑ i, pw (min (exDist (exPts i) (exPts ((v.trans u) ((v.trans u) i)))) c) :=
      Finset.sum_nonneg fun i _ => hpn _ (le_min (nn _ _) hc.le)
    exact Real.rpow_nonneg (by exact_mod_cast this) _
  subst hs1 hg1 hs2 hg2
  refine ⟨exPts, exPts ∘ u, exPts ∘ u ∘ v, ?_, ?_, max F1 (max F2 F3), s3, g3, fun fuel hf => ?_,
    fun fuel hf => ?_, lt_of_le_of_ne ps (Ne.symm hs3), lt_of_le_of_ne pg (Ne.symm hg3)⟩
  · rw [u.surjective.range_comp]
  · rw [← Function.comp_assoc, v.surjective.range_comp]
  · exact ⟨(a1 fuel (le_of_max_le_left hf)).1,
      (b1 fuel (le_of_max_le_left (le_of_max_le_right hf))).1,
      (c1 fuel (le_of_max_le_right (le_of_max_le_right hf))).1⟩
  · exact ⟨(a1 fuel (le_of_max_le_left hf)).2,
      (b1 fuel (le_of_max_le_left (le_of_max_le_right hf))).2,
      (c1 fuel (le_of_max_le_right (le_of_max_le_right hf))).2⟩

/-- Three targets, the truths listed in cyclic order: the score is positive. -/
example : ∃ F s g, (∀ fuel, F ≤ fuel →
      ospa (fun i j => exDist (exPts i) (exPts (finRotate 3 j))) 100 2 fuel = some s ∧
      gospa (fun i j => exDist (exPts i) (exPts (finRotate 3 j))) 100 sqr 2 fuel = some g) ∧
    s ≠ 0 ∧ g ≠ 0 := by
  obtain ⟨F, s, g, h1, _, _, h2, h3⟩ := C114_perfect (fun a b => abs_nonneg _) exDist_zero exPts_inj
    (finRotate 3) (c := 100) (by norm_num) (p := 2) (by norm_num) (pw := sqr) (by norm_num [sqr])
    (fun y hy => by unfold sqr; positivity) (by norm_num) (by norm_num)
  have hno : ¬ ∀ i, finRotate 3 (finRotate 3 i) = i := by decide
  exact ⟨F, s, g, h1, fun h => hno (h2.1 h), fun h => hno (h3.1 h)⟩

/-- Two objects: one best assignment. -/
example : ∃ F s, ∀ fuel, F ≤ fuel → ospa (fun i j : Fin 2 => if i = j then 1 else 5) 10 2 fuel = some s ∧
    ospa (fun i j : Fin 2 => if j = i then 1 else 5) 10 2 fuel = some s :=
  (C114_swap (fun i j => if i = j then 1 else 5) 10 2 sqr (by norm_num) (by norm_num)).1 1 (by
    intro ρ hρ
    have : ρ = Equiv.swap 0 1 := by
      rcases Fin.exists_fin_two.1 ⟨ρ 0, rfl⟩ with h | h
      · refine absurd (Equiv.ext fun i => ?_) hρ
        have h1 : ρ 1 ≠ ρ 0 := fun e => absurd (ρ.injective e) (by decide)
        fin_cases i
        · exact h
        · change ρ 1 = 1
          omega
      · have h1 : ρ 1 ≠ ρ 0 := fun e => absurd (ρ.injective e) (by decide)
        ext1 i
        fin_cases i
        · exact h
        · change ρ 1 = 0
          omega
    subst this
    norm_num [Fin.sum_univ_two])

end Verif.Metric

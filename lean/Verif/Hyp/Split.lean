import Verif.Hyp.Marginal

/-! # Independent groups of targets and reports -/

namespace Verif.Hyp

variable {M N M' N' : Nat}

/-- Renumber the reports. -/
def Fate.map (ρ : Fin N' → Fin N) : Fate N' → Fate N
  | .report j => .report (ρ j)
  | .missed => .missed
  | .absent => .absent

theorem Fate.map_inj {ρ : Fin N' → Fin N} (hρ : Function.Injective ρ) :
    Function.Injective (Fate.map ρ) := by
  intro f g h
  cases f <;> cases g <;> simp only [Fate.map, Fate.report.injEq, reduceCtorEq] at h
  · rw [hρ h]
  · rfl
  · rfl

theorem Fate.map_report {ρ : Fin N' → Fin N} {f : Fate N'} {j : Fin N} (h : f.map ρ = .report j) :
    ∃ j', f = .report j' ∧ ρ j' = j := by
  cases f <;> simp only [Fate.map, Fate.report.injEq, reduceCtorEq] at h
  exact ⟨_, rfl, h⟩

theorem Fate.mem_map {ρ : Fin N' → Fin N} (f : Fate N) :
    (∃ f' : Fate N', f'.map ρ = f) ∨ ∃ j, f = .report j ∧ j ∉ Set.range ρ := by
  cases f with
  | report j =>
    by_cases h : j ∈ Set.range ρ
    · obtain ⟨j', rfl⟩ := h
      exact Or.inl ⟨.report j', rfl⟩
    · exact Or.inr ⟨j, rfl, h⟩
  | missed => exact Or.inl ⟨.missed, rfl⟩
  | absent => exact Or.inl ⟨.absent, rfl⟩

/-- The targets `σ` and the reports `ρ` have nothing to do with the others. -/
structure Apart (W : Fin M → Fate N → ℝ) (σ : Fin M' → Fin M) (ρ : Fin N' → Fin N) : Prop where
  σ_inj : Function.Injective σ
  ρ_inj : Function.Injective ρ
  own : ∀ k j, j ∉ Set.range ρ → W (σ k) (.report j) = 0
  other : ∀ i, i ∉ Set.range σ → ∀ j, W i (.report (ρ j)) = 0

open Classical in
/-- The weight of the events of the other targets. -/
noncomputable def others (W : Fin M → Fate N → ℝ) (σ : Fin M' → Fin M) (ρ : Fin N' → Fin N) : ℝ :=
  ∑ e : Fin M → Fate N with ∀ k, e (σ k) = .absent,
    if Valid e ∧ ∀ i, i ∉ Set.range σ → ∀ j, e i ≠ .report (ρ j) then
      ∏ i with i ∉ Set.range σ, W i (e i) else 0

open Classical in
theorem others_congr {W V : Fin M → Fate N → ℝ} {σ : Fin M' → Fin M} {ρ : Fin N' → Fin N}
    (h : ∀ i, i ∉ Set.range σ → W i = V i) : others W σ ρ = others V σ ρ := by
  unfold others
  refine Finset.sum_congr rfl fun e _ => ?_
  split
  · refine Finset.prod_congr rfl fun i hi => ?_
    rw [h i (Finset.mem_filter.1 hi).2]
  · rfl

open Classical in
/-- The weight of an event about the group is the weight within the group times the weight of the
others. -/
theorem evidence_split {W : Fin M → Fate N → ℝ} {σ : Fin M' → Fin M} {ρ : Fin N' → Fin N}
    (h : Apart W σ ρ) (Q : (Fin M' → Fate N') → Prop) (Q' : (Fin M → Fate N) → Prop)
    (hQ : ∀ e e', (∀ k, e (σ k) = (e' k).map ρ) →
      (∀ i, i ∉ Set.range σ → ∀ j, e i ≠ .report (ρ j)) → (Q' e ↔ Q e')) :
    evidence W Q' = evidence (fun k f => W (σ k) (f.map ρ)) Q * others W σ ρ := by
  let glue : (Fin M' → Fate N') × (Fin M → Fate N) → Fin M → Fate N := fun x i =>
    if hi : i ∈ Set.range σ then (x.1 hi.choose).map ρ else x.2 i
  have glue_σ : ∀ x k, glue x (σ k) = (x.1 k).map ρ := by
    intro x k
    have hk : σ k ∈ Set.range σ := ⟨k, rfl⟩
    simp only [glue, dif_pos hk]
    rw [h.σ_inj hk.choose_spec]
  have glue_o : ∀ x i, i ∉ Set.range σ → glue x i = x.2 i := by
    intro x i hi
    simp only [glue, dif_neg hi]
  have hWn : ∀ e : Fin M → Fate N, joint W e =
      (∏ k, W (σ k) (e (σ k))) * ∏ i with i ∉ Set.range σ, W i (e i) := by
    intro e
    unfold joint
    rw [← Finset.prod_filter_mul_prod_filter_not Finset.univ (fun i => i ∈ Set.range σ)]
    congr 1
    symm
    refine Finset.prod_bij (fun k _ => σ k) ?_ ?_ ?_ ?_
    · intro k _; simp
    · intro a _ b _ hab; exact h.σ_inj hab
    · intro i hi
      obtain ⟨k, hk⟩ := (Finset.mem_filter.1 hi).2
      exact ⟨k, Finset.mem_univ _, hk⟩
    · intro k _; rfl
  unfold evidence others
  rw [Finset.sum_mul_sum, ← Finset.sum_product']
  symm
  refine Finset.sum_of_injOn glue ?_ ?_ ?_ ?_
  · rintro ⟨a, b⟩ hab ⟨c, d⟩ hcd e
    simp only [Finset.coe_product, Set.mem_prod, Finset.mem_coe, Finset.mem_filter,
      Finset.mem_univ, true_and] at hab hcd
    have h1 : a = c := by
      funext k
      have := congrFun e (σ k)
      rw [glue_σ, glue_σ] at this
      exact Fate.map_inj h.ρ_inj this
    have h2 : b = d := by
      funext i
      by_cases hi : i ∈ Set.range σ
      · obtain ⟨k, rfl⟩ := hi
        rw [hab k, hcd k]
      · have := congrFun e i
        rwa [glue_o _ _ hi, glue_o _ _ hi] at this
    rw [h1, h2]
  · intro x _
    simp
  · intro e _ he
    by_cases hall : ∀ k, ∃ f : Fate N', f.map ρ = e (σ k)
    · exfalso
      choose e' he' using hall
      apply he
      refine ⟨(e', fun i => if i ∈ Set.range σ then .absent else e i), ?_, ?_⟩
      · simp
      · funext i
        by_cases hi : i ∈ Set.range σ
        · obtain ⟨k, rfl⟩ := hi
          rw [glue_σ]
          exact he' k
        · rw [glue_o _ _ hi]
          simp only [if_neg hi]
    · push Not at hall
      obtain ⟨k, hk⟩ := hall
      rcases Fate.mem_map (ρ := ρ) (e (σ k)) with ⟨f, hf⟩ | ⟨j, hj, hj'⟩
      · exact absurd hf (hk f)
      · have : joint W e = 0 := by
          unfold joint
          refine Finset.prod_eq_zero (Finset.mem_univ (σ k)) ?_
          rw [hj]
          exact h.own k j hj'
        rw [this]
        split <;> rfl
  · rintro ⟨a, b⟩ hab
    simp only [Finset.mem_product, Finset.mem_filter, Finset.mem_univ, true_and] at hab
    by_cases hfree : ∀ i, i ∉ Set.range σ → ∀ j, b i ≠ .report (ρ j)
    · have hQ' : Q' (glue (a, b)) ↔ Q a := hQ _ _ (fun k => glue_σ (a, b) k) fun i hi j => by
        rw [glue_o _ _ hi]
        exact hfree i hi j
      have hv : Valid (glue (a, b)) ↔ Valid a ∧ Valid b := by
        constructor
        · intro hv
          refine ⟨fun x y j hx hy => ?_, fun x y j hx hy => ?_⟩
          · apply h.σ_inj
            refine hv _ _ (ρ j) ?_ ?_
            · rw [glue_σ]; simp only [hx, Fate.map]
            · rw [glue_σ]; simp only [hy, Fate.map]
          · have hx' : x ∉ Set.range σ := by
              rintro ⟨k, rfl⟩
              rw [hab k] at hx; cases hx
            have hy' : y ∉ Set.range σ := by
              rintro ⟨k, rfl⟩
              rw [hab k] at hy; cases hy
            refine hv _ _ j ?_ ?_
            · rw [glue_o _ _ hx']; exact hx
            · rw [glue_o _ _ hy']; exact hy
        · rintro ⟨h1, h2⟩ x y j hx hy
          by_cases hx' : x ∈ Set.range σ <;> by_cases hy' : y ∈ Set.range σ
          · obtain ⟨k, rfl⟩ := hx'
            obtain ⟨l, rfl⟩ := hy'
            rw [glue_σ] at hx hy
            obtain ⟨j1, q1, q2⟩ := Fate.map_report hx
            obtain ⟨j2, q3, q4⟩ := Fate.map_report hy
            have : j1 = j2 := h.ρ_inj (q2.trans q4.symm)
            subst this
            rw [h1 k l j1 q1 q3]
          · obtain ⟨k, rfl⟩ := hx'
            rw [glue_σ] at hx
            obtain ⟨j1, q1, q2⟩ := Fate.map_report hx
            rw [glue_o _ _ hy'] at hy
            exact absurd (by rw [q2]; exact hy) (hfree y hy' j1)
          · obtain ⟨k, rfl⟩ := hy'
            rw [glue_σ] at hy
            obtain ⟨j1, q1, q2⟩ := Fate.map_report hy
            rw [glue_o _ _ hx'] at hx
            exact absurd (by rw [q2]; exact hx) (hfree x hx' j1)
          · rw [glue_o _ _ hx'] at hx
            rw [glue_o _ _ hy'] at hy
            exact h2 x y j hx hy
      have hj : joint W (glue (a, b)) = joint (fun k f => W (σ k) (f.map ρ)) a *
          ∏ i with i ∉ Set.range σ, W i (b i) := by
        rw [hWn]
        congr 1
        · unfold joint
          refine Finset.prod_congr rfl fun k _ => ?_
          rw [glue_σ]
        · refine Finset.prod_congr rfl fun i hi => ?_
          rw [glue_o _ _ (Finset.mem_filter.1 hi).2]
      have hb : (Valid b ∧ ∀ i, i ∉ Set.range σ → ∀ j, b i ≠ .report (ρ j)) ↔ Valid b :=
        ⟨fun h => h.1, fun h => ⟨h, hfree⟩⟩
      simp only [hv, hQ', hj, hb]
      by_cases h1 : Valid a <;> by_cases h2 : Valid b <;> by_cases h3 : Q a <;>
        simp [h1, h2, h3]
    · have hz : joint W (glue (a, b)) = 0 := by
        push Not at hfree
        obtain ⟨i, hi, j, hj⟩ := hfree
        unfold joint
        refine Finset.prod_eq_zero (Finset.mem_univ i) ?_
        rw [glue_o _ _ hi]
        simp only [hj]
        exact h.other i hi j
      rw [hz]
      have : ¬ (Valid b ∧ ∀ i, i ∉ Set.range σ → ∀ j, b i ≠ .report (ρ j)) := fun hh => hfree hh.2
      simp only [if_neg this, mul_zero]
      split <;> rfl

/-- The posterior probability of an event about the group does not depend on the others. -/
theorem bayes_split {W : Fin M → Fate N → ℝ} {σ : Fin M' → Fin M} {ρ : Fin N' → Fin N}
    (h : Apart W σ ρ) (hW : ∀ i f, 0 ≤ W i f) (h0 : ∀ i, ∃ f : Fate N, f.Free ∧ 0 < W i f)
    {V : Fin M → Fate N → ℝ} (hV : ∀ i, i ∉ Set.range σ → V i = W i) (hA : Apart V σ ρ)
    (Q : (Fin M' → Fate N') → Prop) (Q' : (Fin M → Fate N) → Prop)
    (hQ : ∀ e e', (∀ k, e (σ k) = (e' k).map ρ) →
      (∀ i, i ∉ Set.range σ → ∀ j, e i ≠ .report (ρ j)) → (Q' e ↔ Q e')) :
    evidence V Q' / evidence W (fun _ => True) =
      evidence (fun k f => V (σ k) (f.map ρ)) Q /
        evidence (fun k f => W (σ k) (f.map ρ)) fun _ => True := by
  have e1 := evidence_split hA Q Q' hQ
  have e2 := evidence_split h (fun _ => True) (fun _ => True) fun _ _ _ _ => Iff.rfl
  rw [others_congr hV] at e1
  have hp := evidence_pos hW h0
  rw [e2] at hp
  have hne : others W σ ρ ≠ 0 := by
    intro h; rw [h, mul_zero] at hp; exact lt_irrefl _ hp
  rw [e1, e2, mul_div_mul_right _ _ hne]

end Verif.Hyp

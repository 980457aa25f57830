import Verif.Kalman.Law

/-!
# Mixtures as probability laws: prediction and measurement update
-/

namespace Verif.Kalman

open Matrix MeasureTheory ProbabilityTheory
open scoped ENNReal

variable {n m : Nat}

/-- The measure a mixture stands for: the weighted sum of the laws of its components. -/
noncomputable def mixLaw (c : List (Gauss n)) : Measure (Fin n → ℝ) :=
  (c.map fun g => ENNReal.ofReal g.w • law g.x g.P).sum

@[simp] theorem mixLaw_nil : mixLaw ([] : List (Gauss n)) = 0 := rfl

@[simp] theorem mixLaw_cons (g : Gauss n) (c : List (Gauss n)) :
    mixLaw (g :: c) = ENNReal.ofReal g.w • law g.x g.P + mixLaw c := by
  unfold mixLaw; rw [List.map_cons, List.sum_cons]

/-- The total mass is the sum of the weights. -/
theorem mixLaw_univ (c : List (Gauss n)) (hw : ∀ g ∈ c, 0 ≤ g.w) :
    mixLaw c Set.univ = ENNReal.ofReal (c.map Gauss.w).sum := by
  induction c with
  | nil => simp
  | cons g c ih =>
    rw [mixLaw_cons, Measure.add_apply, Measure.smul_apply, measure_univ, smul_eq_mul, mul_one,
      ih fun q hq => hw q (List.mem_cons_of_mem _ hq), List.map_cons, List.sum_cons,
      ENNReal.ofReal_add (hw g (List.mem_cons_self ..))]
    apply List.sum_nonneg
    intro a ha
    obtain ⟨q, hq, rfl⟩ := List.mem_map.1 ha
    exact hw q (List.mem_cons_of_mem _ hq)

/-- The detection probability times the likelihood of the measurement given the state, over the
clutter intensity. -/
noncomputable def detLik (H : Matrix (Fin m) (Fin n) ℝ) (pD : ℝ) (z : Report m) (x : Fin n → ℝ) : ℝ :=
  pD * density (H *ᵥ x) z.P z.x / z.kappa

theorem measurable_detLik (H : Matrix (Fin m) (Fin n) ℝ) (pD : ℝ) (z : Report m) :
    Measurable (detLik H pD z) := by
  unfold detLik density
  have h1 : Continuous fun x : Fin n → ℝ => z.x - H *ᵥ x :=
    continuous_const.sub (Matrix.mulVecLin H).continuous_of_finiteDimensional
  have h2 : Continuous fun x : Fin n → ℝ => z.P⁻¹ *ᵥ (z.x - H *ᵥ x) :=
    (Matrix.mulVecLin z.P⁻¹).continuous_of_finiteDimensional.comp h1
  have h3 := h1.dotProduct h2
  apply Continuous.measurable
  fun_prop

/-- One component: the prior measure reweighted by the likelihood is the corrected component. -/
theorem component_bayes (H : Matrix (Fin m) (Fin n) ℝ) (pD : ℝ) (z : Report m) (g : Gauss n)
    (hR : z.P.PosDef) (hP : g.P.PosDef) (hw : 0 ≤ g.w) (hp : 0 ≤ pD) (hk : 0 ≤ z.kappa) :
    (ENNReal.ofReal g.w • law g.x g.P).withDensity (fun x => ENNReal.ofReal (detLik H pD z x)) =
      ENNReal.ofReal (correct H pD z g).w • law (correct H pD z g).x (correct H pD z g).P := by
  have hw' := (C42_update H z g pD hR hP.posSemidef).2.2.2 hw hp hk
  rw [law_density hP, law_density (correct_posDef H z g hR hP pD), withDensity_smul_measure,
    ← withDensity_mul _ (measurable_density _ _).ennreal_ofReal
      (measurable_detLik H pD z).ennreal_ofReal,
    ← withDensity_smul _ ((measurable_density _ _).ennreal_ofReal.mul
      (measurable_detLik H pD z).ennreal_ofReal),
    ← withDensity_smul _ (measurable_density _ _).ennreal_ofReal]
  congr 1
  funext x
  simp only [Pi.smul_apply, Pi.mul_apply, smul_eq_mul]
  rw [← ENNReal.ofReal_mul (density_nonneg _ _ _),
    ← ENNReal.ofReal_mul hw, ← ENNReal.ofReal_mul hw']
  congr 1
  have := C59_bayes H z g hR hP pD x
  unfold detLik
  linarith

/-- C68, the update of a mixture is Bayes' rule: the prior measure reweighted by the likelihood of
the measurement (detection probability and clutter intensity included) is the measure of the
corrected components, and the sum of their weights is the evidence, the integral of the likelihood
against the prior. -/
theorem C68_mixture (H : Matrix (Fin m) (Fin n) ℝ) (pD : ℝ) (z : Report m) (c : List (Gauss n))
    (hR : z.P.PosDef) (hP : ∀ g ∈ c, g.P.PosDef) (hw : ∀ g ∈ c, 0 ≤ g.w) (hp : 0 ≤ pD)
    (hk : 0 ≤ z.kappa) :
    (mixLaw c).withDensity (fun x => ENNReal.ofReal (pD * density (H *ᵥ x) z.P z.x / z.kappa)) =
      mixLaw (c.map (correct H pD z)) ∧
    ENNReal.ofReal ((c.map fun g => (correct H pD z g).w).sum) =
      ∫⁻ x, ENNReal.ofReal (pD * density (H *ᵥ x) z.P z.x / z.kappa) ∂(mixLaw c) := by
  have h1 : (mixLaw c).withDensity (fun x => ENNReal.ofReal (detLik H pD z x)) =
      mixLaw (c.map (correct H pD z)) := by
    induction c with
    | nil => simp
    | cons g c ih =>
      rw [mixLaw_cons, withDensity_add_measure, List.map_cons, mixLaw_cons,
        ih (fun q hq => hP q (List.mem_cons_of_mem _ hq)) fun q hq => hw q (List.mem_cons_of_mem _ hq)]
      rw [component_bayes H pD z g hR (hP g (List.mem_cons_self ..)) (hw g (List.mem_cons_self ..)) hp hk]
  refine ⟨h1, ?_⟩
  have h2 : ∀ g ∈ c.map (correct H pD z), 0 ≤ g.w := by
    intro q hq
    obtain ⟨g, hg, rfl⟩ := List.mem_map.1 hq
    exact (C42_update H z g pD hR (hP g hg).posSemidef).2.2.2 (hw g hg) hp hk
  have h3 := mixLaw_univ _ h2
  rw [← h1, withDensity_apply _ MeasurableSet.univ, Measure.restrict_univ, List.map_map] at h3
  exact h3.symm

/-- C43, a mixture: the law of `F x + noise` is the measure of the predicted mixture. -/
theorem C43_mixture (F Q : Matrix (Fin n) (Fin n) ℝ) (c : List (Gauss n)) (hQ : Q.PosSemidef)
    (hP : ∀ g ∈ c, g.P.PosSemidef) :
    (((mixLaw c).prod (law 0 Q)).map fun p => F *ᵥ p.1 + p.2) =
      mixLaw (c.map (linearUpdate F Q)) := by
  have hm : Measurable fun p : (Fin n → ℝ) × (Fin n → ℝ) => F *ᵥ p.1 + p.2 := by
    have := (Matrix.mulVecLin F).continuous_of_finiteDimensional.measurable
    exact (this.comp measurable_fst).add measurable_snd
  induction c with
  | nil => simp [Measure.zero_prod]
  | cons g c ih =>
    have hf : ∀ c : List (Gauss n), SFinite (mixLaw c) := by
      intro c
      induction c with
      | nil => rw [mixLaw_nil]; infer_instance
      | cons g c ih => rw [mixLaw_cons]; infer_instance
    have := hf c
    rw [mixLaw_cons, Measure.add_prod, Measure.map_add _ _ hm, Measure.prod_smul_left,
      Measure.map_smul, C43_law F Q g hQ (hP g (List.mem_cons_self ..)),
      ih fun q hq => hP q (List.mem_cons_of_mem _ hq), List.map_cons, mixLaw_cons]
    rfl

/-! Two components, a sensor that reports the first coordinate. -/

example := C68_mixture !![1, 0] (9 / 10) (⟨![1], 1, 1 / 5⟩ : Report 1)
  [⟨![1, 3], 1, 1 / 4⟩, ⟨![2, -1], 1, 3 / 4⟩] PosDef.one
  (by intro g hg; fin_cases hg <;> exact PosDef.one)
  (by intro g hg; fin_cases hg <;> norm_num) (by norm_num) (by norm_num)
example := C43_mixture !![1, 2; 0, 1] 1 [⟨![1, 3], 1, 1 / 4⟩, ⟨![2, -1], 1, 3 / 4⟩] PosSemidef.one
  (by intro g hg; fin_cases hg <;> exact PosSemidef.one)

end Verif.Kalman

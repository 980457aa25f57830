import Verif.Kalman.Props
import Mathlib.Probability.Distributions.Gaussian.Multivariate
import Mathlib.MeasureTheory.Measure.Lebesgue.Basic
import Mathlib.MeasureTheory.Integral.Pi

/-!
# Gaussian components as probability laws

The components of a mixture stand for Gaussian laws.  Here they are related to Mathlib's
multivariate Gaussian measure.
-/

namespace Verif.Kalman

open Matrix MeasureTheory ProbabilityTheory WithLp
open scoped ENNReal MatrixOrder

variable {n m k : Nat}

/-- The Gaussian law with mean `μ` and covariance `S` (Mathlib's measure, on plain vectors). -/
noncomputable def law (μ : Fin k → ℝ) (S : Matrix (Fin k) (Fin k) ℝ) : Measure (Fin k → ℝ) :=
  (multivariateGaussian (toLp 2 μ) S).map (ofLp (p := 2))

instance (μ : Fin k → ℝ) (S : Matrix (Fin k) (Fin k) ℝ) : IsProbabilityMeasure (law μ S) :=
  Measure.isProbabilityMeasure_map (by fun_prop)

/-- Independent standard normal numbers. -/
noncomputable def white (k : Nat) : Measure (Fin k → ℝ) := Measure.pi fun _ => gaussianReal 0 1

instance (k : Nat) : IsProbabilityMeasure (white k) := by unfold white; infer_instance

/-- The characteristic function of a law. -/
noncomputable def phi (ν : Measure (Fin k → ℝ)) (v : Fin k → ℝ) : ℂ :=
  ∫ x, Complex.exp ((v ⬝ᵥ x : ℝ) * Complex.I) ∂ν

theorem phi_eq (ν : Measure (Fin k → ℝ)) (v : Fin k → ℝ) :
    phi ν v = charFun (ν.map (toLp 2)) (toLp 2 v) := by
  rw [charFun_apply, integral_map (by fun_prop) (by fun_prop)]
  unfold phi
  rfl

theorem ext_phi {ν ν' : Measure (Fin k → ℝ)} [IsFiniteMeasure ν] [IsFiniteMeasure ν']
    (h : ∀ v, phi ν v = phi ν' v) : ν = ν' := by
  have : ν.map (toLp 2) = ν'.map (toLp 2) := by
    apply Measure.ext_of_charFun
    funext t
    have := h (ofLp t)
    rwa [phi_eq, phi_eq] at this
  exact (MeasurableEquiv.toLp 2 (Fin k → ℝ)).map_measurableEquiv_injective this

theorem phi_law {μ : Fin k → ℝ} {S : Matrix (Fin k) (Fin k) ℝ} (hS : S.PosSemidef)
    (v : Fin k → ℝ) :
    phi (law μ S) v = Complex.exp ((v ⬝ᵥ μ : ℝ) * Complex.I - (v ⬝ᵥ S *ᵥ v : ℝ) / 2) := by
  rw [phi_eq, law, Measure.map_map (by fun_prop) (by fun_prop)]
  rw [show (toLp 2 : (Fin k → ℝ) → _) ∘ (ofLp (p := 2)) = id from rfl, Measure.map_id,
    charFun_multivariateGaussian hS]
  congr 3
  rw [EuclideanSpace.inner_toLp_toLp]
  simp [dotProduct_comm]

theorem phi_map {l : Nat} (ν : Measure (Fin k → ℝ)) (a : Fin l → ℝ) (A : Matrix (Fin l) (Fin k) ℝ)
    (v : Fin l → ℝ) :
    phi (ν.map fun u => a + A *ᵥ u) v =
      Complex.exp ((v ⬝ᵥ a : ℝ) * Complex.I) * phi ν (Aᵀ *ᵥ v) := by
  have hm : Measurable fun u : Fin k → ℝ => a + A *ᵥ u := by
    apply Measurable.const_add
    exact (Matrix.mulVecLin A).continuous_of_finiteDimensional.measurable
  unfold phi
  rw [integral_map hm.aemeasurable (by fun_prop), ← integral_const_mul]
  congr 1
  funext u
  rw [← Complex.exp_add, dotProduct_add, dotProduct_mulVec, ← mulVec_transpose]
  push_cast
  ring_nf

theorem white_eq : white k = law 0 1 := by
  unfold law white
  rw [toLp_zero, multivariateGaussian_zero_one, ← map_pi_eq_stdGaussian,
    Measure.map_map (by fun_prop) (by fun_prop)]
  exact Measure.map_id.symm

/-- An affine image of independent standard normal numbers is Gaussian. -/
theorem map_white {l : Nat} (a : Fin l → ℝ) (A : Matrix (Fin l) (Fin k) ℝ) :
    ((white k).map fun u => a + A *ᵥ u) = law a (A * Aᵀ) := by
  have hm : Measurable fun u : Fin k → ℝ => a + A *ᵥ u := by
    apply Measurable.const_add
    exact (Matrix.mulVecLin A).continuous_of_finiteDimensional.measurable
  have : IsProbabilityMeasure ((white k).map fun u => a + A *ᵥ u) :=
    Measure.isProbabilityMeasure_map hm.aemeasurable
  have hS : (A * Aᵀ).PosSemidef := by
    have := posSemidef_self_mul_conjTranspose A
    rwa [conjTranspose_eq_transpose_of_trivial] at this
  apply ext_phi
  intro v
  rw [phi_map, phi_law hS, white_eq, phi_law PosSemidef.one, ← Complex.exp_add]
  congr 1
  rw [one_mulVec, ← mulVec_mulVec, dotProduct_mulVec v A, ← mulVec_transpose]
  simp
  ring

/-- C43, the law: if the state is distributed as the component and the noise is independent of it,
with law `N(0, Q)`, then `F x + noise` is distributed as the predicted component. -/
theorem C43_law (F Q : Matrix (Fin n) (Fin n) ℝ) (g : Gauss n) (hQ : Q.PosSemidef)
    (hP : g.P.PosSemidef) :
    (((law g.x g.P).prod (law 0 Q)).map fun p => F *ᵥ p.1 + p.2) =
      law (linearUpdate F Q g).x (linearUpdate F Q g).P := by
  have hm : Measurable fun p : (Fin n → ℝ) × (Fin n → ℝ) => F *ᵥ p.1 + p.2 := by
    have := (Matrix.mulVecLin F).continuous_of_finiteDimensional.measurable
    exact (this.comp measurable_fst).add measurable_snd
  have : IsProbabilityMeasure (((law g.x g.P).prod (law 0 Q)).map fun p => F *ᵥ p.1 + p.2) :=
    Measure.isProbabilityMeasure_map hm.aemeasurable
  apply ext_phi
  intro v
  rw [phi_law (C43_predict_psd F Q g hQ hP).1]
  unfold phi
  rw [integral_map hm.aemeasurable (by fun_prop)]
  have e : ∀ p : (Fin n → ℝ) × (Fin n → ℝ),
      Complex.exp ((v ⬝ᵥ (F *ᵥ p.1 + p.2) : ℝ) * Complex.I) =
        Complex.exp (((Fᵀ *ᵥ v) ⬝ᵥ p.1 : ℝ) * Complex.I) *
          Complex.exp ((v ⬝ᵥ p.2 : ℝ) * Complex.I) := by
    intro p
    rw [← Complex.exp_add, dotProduct_add, dotProduct_mulVec, ← mulVec_transpose]
    push_cast
    ring_nf
  simp only [e]
  rw [integral_prod_mul (fun x => Complex.exp (((Fᵀ *ᵥ v) ⬝ᵥ x : ℝ) * Complex.I))
    (fun x => Complex.exp ((v ⬝ᵥ x : ℝ) * Complex.I))]
  change phi (law g.x g.P) (Fᵀ *ᵥ v) * phi (law 0 Q) v = _
  rw [phi_law hP, phi_law hQ, ← Complex.exp_add]
  congr 1
  unfold linearUpdate
  simp only [dotProduct_zero, Complex.ofReal_zero, zero_mul, zero_sub]
  rw [add_mulVec, dotProduct_add, dotProduct_mulVec v F, ← mulVec_transpose F,
    ← mulVec_mulVec, ← mulVec_mulVec, dotProduct_mulVec v F, ← mulVec_transpose F]
  push_cast
  ring

theorem measurable_affine {l : Nat} (a : Fin l → ℝ) (A : Matrix (Fin l) (Fin k) ℝ) :
    Measurable fun u : Fin k → ℝ => a + A *ᵥ u := by
  apply Measurable.const_add
  exact (Matrix.mulVecLin A).continuous_of_finiteDimensional.measurable

theorem measurable_density (μ : Fin k → ℝ) (S : Matrix (Fin k) (Fin k) ℝ) :
    Measurable (density μ S) := by
  apply Continuous.measurable
  unfold density
  have : Continuous fun x : Fin k → ℝ => S⁻¹ *ᵥ (x - μ) :=
    (Matrix.mulVecLin S⁻¹).continuous_of_finiteDimensional.comp (continuous_id.sub continuous_const)
  have h2 : Continuous fun x : Fin k → ℝ => (x - μ) ⬝ᵥ S⁻¹ *ᵥ (x - μ) :=
    (continuous_id.sub continuous_const).dotProduct this
  fun_prop

theorem density_nonneg (μ : Fin k → ℝ) (S : Matrix (Fin k) (Fin k) ℝ) (x : Fin k → ℝ) :
    0 ≤ density μ S x := div_nonneg (Real.exp_pos _).le (Real.sqrt_nonneg _)

theorem density_white (x : Fin k → ℝ) : density 0 1 x = ∏ i, gaussianPDFReal 0 1 (x i) := by
  unfold density gaussianPDFReal
  rw [Finset.prod_mul_distrib, ← Real.exp_sum, Finset.prod_const, Finset.card_univ, Fintype.card_fin,
    inv_one, one_mulVec, sub_zero, det_one, mul_one, div_eq_mul_inv, mul_comm]
  congr 1
  · rw [inv_pow, NNReal.coe_one, mul_one]
    congr 1
    have := Real.sqrt_prod (Finset.univ : Finset (Fin k)) (x := fun _ => 2 * Real.pi)
      fun _ _ => by positivity
    simpa using this
  · congr 1
    rw [dotProduct, neg_div, Finset.sum_div, ← Finset.sum_neg_distrib]
    refine Finset.sum_congr rfl fun i _ => ?_
    simp
    ring

theorem white_density : white k = volume.withDensity fun x => ENNReal.ofReal (density 0 1 x) := by
  unfold white
  apply Measure.pi_eq
  intro s hs
  rw [withDensity_apply _ (MeasurableSet.univ_pi hs), volume_pi, Measure.restrict_pi_pi,
    ← ofReal_integral_eq_lintegral_ofReal]
  · simp only [density_white]
    rw [integral_fintype_prod_eq_prod, ENNReal.ofReal_prod_of_nonneg]
    · refine Finset.prod_congr rfl fun i _ => ?_
      rw [gaussianReal_apply_eq_integral _ one_ne_zero]
    · intro i _
      exact integral_nonneg fun x => gaussianPDFReal_nonneg _ _ _
  · rw [show density 0 1 = fun x : Fin k → ℝ => ∏ i, gaussianPDFReal 0 1 (x i) from
      funext density_white]
    exact Integrable.fintype_prod (f := fun _ => gaussianPDFReal 0 1)
      fun i => (integrable_gaussianPDFReal 0 1).integrableOn
  · exact Filter.Eventually.of_forall fun x => density_nonneg _ _ x

/-- The density of a positive definite Gaussian law is `density`. -/
theorem law_density {μ : Fin k → ℝ} {S : Matrix (Fin k) (Fin k) ℝ} (hS : S.PosDef) :
    law μ S = volume.withDensity fun x => ENNReal.ofReal (density μ S x) := by
  obtain ⟨B, hB⟩ : ∃ B : Matrix (Fin k) (Fin k) ℝ, S = B * Bᵀ := by
    have h1 := CFC.sqrt_mul_sqrt_self S hS.posSemidef.nonneg
    have h2 : (CFC.sqrt S)ᵀ = CFC.sqrt S := by
      have := (CFC.sqrt_nonneg S).isSelfAdjoint
      rwa [isSelfAdjoint_iff, star_eq_conjTranspose, conjTranspose_eq_transpose_of_trivial] at this
    exact ⟨CFC.sqrt S, by rw [h2, h1]⟩
  have hdet : S.det = B.det ^ 2 := by rw [hB, det_mul, det_transpose, sq]
  have hB0 : B.det ≠ 0 := by
    have := hS.det_pos
    rw [hdet] at this
    exact fun h => by rw [h] at this; simp at this
  have hu : IsUnit B.det := isUnit_iff_ne_zero.2 hB0
  rw [hB, ← map_white, ← hB]
  ext s hs
  rw [Measure.map_apply (measurable_affine μ B) hs, white_density,
    withDensity_apply _ (measurable_affine μ B hs), withDensity_apply _ hs]
  rw [← lintegral_indicator hs, ← lintegral_indicator (measurable_affine μ B hs)]
  have hvol := Real.map_matrix_volume_pi_eq_smul_volume_pi hB0
  have hv2 : (volume : Measure (Fin k → ℝ)) = ENNReal.ofReal |B.det| •
      (volume : Measure (Fin k → ℝ)).map (fun u => μ + B *ᵥ u) := by
    have e : (fun u : Fin k → ℝ => μ + B *ᵥ u) = (fun u => μ + u) ∘ (toLin' B) := by
      funext u; simp [toLin'_apply]
    rw [e, ← Measure.map_map (measurable_const_add μ)
      (LinearMap.continuous_of_finiteDimensional _).measurable, hvol, Measure.map_smul,
      (measurePreserving_add_left volume μ).map_eq, smul_smul, ← ENNReal.ofReal_mul (abs_nonneg _),
      ← abs_mul, mul_inv_cancel₀ hB0]
    simp
  have hf : Measurable (s.indicator fun x => ENNReal.ofReal (density μ S x)) :=
    (measurable_density μ S).ennreal_ofReal.indicator hs
  conv_rhs => rw [hv2]
  rw [lintegral_smul_measure, lintegral_map hf (measurable_affine μ B), smul_eq_mul,
    ← lintegral_const_mul' _ _ ENNReal.ofReal_ne_top]
  congr 1
  funext u
  by_cases hus : μ + B *ᵥ u ∈ s
  · rw [Set.indicator_of_mem (show u ∈ (fun u => μ + B *ᵥ u) ⁻¹' s from hus),
      Set.indicator_of_mem hus, ← ENNReal.ofReal_mul (abs_nonneg _)]
    congr 1
    unfold density
    have hq : (μ + B *ᵥ u - μ) ⬝ᵥ S⁻¹ *ᵥ (μ + B *ᵥ u - μ) = u ⬝ᵥ u := by
      rw [add_sub_cancel_left, hB, Matrix.mul_inv_rev, mulVec_mulVec, Matrix.mul_assoc,
        nonsing_inv_mul _ hu, Matrix.mul_one, dotProduct_comm, dotProduct_mulVec,
        ← mulVec_transpose, mulVec_mulVec, ← transpose_nonsing_inv, ← transpose_mul,
        nonsing_inv_mul _ hu, transpose_one, one_mulVec]
    rw [hq, hdet, det_one, inv_one, one_mulVec, sub_zero, mul_one,
      Real.sqrt_mul (by positivity), Real.sqrt_sq_eq_abs]
    have : |B.det| ≠ 0 := abs_ne_zero.2 hB0
    have : Real.sqrt ((2 * Real.pi) ^ k) ≠ 0 := by positivity
    field_simp
  · rw [Set.indicator_of_notMem (show u ∉ (fun u => μ + B *ᵥ u) ⁻¹' s from hus),
      Set.indicator_of_notMem hus, mul_zero]

/-- C43, a new target: the law of the density that `pdf_init1` creates is that of a position with the
law of the report and an independent velocity with mean 0 and covariance `pv`. -/
theorem C43_init_law {pv : Matrix (Fin 2) (Fin 2) ℝ} (hpv : pv.PosSemidef) (z : Report 2)
    (hz : z.P.PosSemidef) :
    (((law z.x z.P).prod (law 0 pv)).map fun p => ![p.1 0, p.1 1, p.2 0, p.2 1]) =
      law (init1 pv z).x (init1 pv z).P := by
  have hm : Measurable fun p : (Fin 2 → ℝ) × (Fin 2 → ℝ) => ![p.1 0, p.1 1, p.2 0, p.2 1] := by
    rw [measurable_pi_iff]
    intro i
    fin_cases i <;> simp only [Fin.zero_eta, Fin.mk_one, Fin.reduceFinMk, Matrix.cons_val] <;> fun_prop
  have : IsProbabilityMeasure (((law z.x z.P).prod (law 0 pv)).map
      fun p => ![p.1 0, p.1 1, p.2 0, p.2 1]) :=
    Measure.isProbabilityMeasure_map hm.aemeasurable
  apply ext_phi
  intro v
  rw [phi_law (C43_init_psd pv hpv z hz)]
  have h1 : phi (((law z.x z.P).prod (law 0 pv)).map fun p => ![p.1 0, p.1 1, p.2 0, p.2 1]) v =
      phi (law z.x z.P) ![v 0, v 1] * phi (law 0 pv) ![v 2, v 3] := by
    unfold phi
    rw [integral_map hm.aemeasurable (by fun_prop), ← integral_prod_mul]
    congr 1
    funext p
    rw [← Complex.exp_add]
    congr 1
    simp [dotProduct, Fin.sum_univ_four, Fin.sum_univ_two]
    ring
  rw [h1, phi_law hz, phi_law hpv, ← Complex.exp_add]
  congr 1
  simp [init1, dotProduct, mulVec, Fin.sum_univ_four, Fin.sum_univ_two]
  ring

/-! A mixture of two components, a motion with noise, and a report. -/

example := C43_law !![1, 2; 0, 1] !![1, 0; 0, 0] ⟨![1, 3], 1, 1 / 2⟩
  (by
    have := PosSemidef.diagonal (n := Fin 2) (R := ℝ) (d := ![1, 0]) fun i => by fin_cases i <;> simp
    convert this using 1
    ext i j
    fin_cases i <;> fin_cases j <;> simp) PosSemidef.one
example := C43_init_law PosSemidef.one (⟨![1, 2], 1, 1 / 10⟩ : Report 2) PosSemidef.one

end Verif.Kalman

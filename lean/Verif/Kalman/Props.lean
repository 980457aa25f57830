import Verif.Kalman.Model
import Mathlib.Tactic.Linarith
import Mathlib.Tactic.FinCases
import Mathlib.Tactic.NoncommRing

/-! # Properties C40, C42, C43 and C59: Gaussian components -/

namespace Verif.Kalman

open Matrix

variable {n m : Nat}

/-! ## Small facts about real matrices -/

theorem psd_vecMulVec (v : Fin n → ℝ) : (vecMulVec v v).PosSemidef := by
  have := posSemidef_vecMulVec_self_star v
  simpa using this

theorem psd_conj {A : Matrix (Fin n) (Fin n) ℝ} (hA : A.PosSemidef) (B : Matrix (Fin m) (Fin n) ℝ) :
    (B * A * Bᵀ).PosSemidef := by
  have := hA.mul_mul_conjTranspose_same B
  rwa [conjTranspose_eq_transpose_of_trivial] at this

theorem psd_symm {A : Matrix (Fin n) (Fin n) ℝ} (hA : A.PosSemidef) : Aᵀ = A := by
  have := hA.isHermitian
  unfold IsHermitian at this
  rwa [conjTranspose_eq_transpose_of_trivial] at this

/-! ## C40 -/

theorem mean_eq (c : List (Gauss n)) : mean c = (c.map fun g => g.w • g.x).sum := by
  have key : ∀ (c : List (Gauss n)) (a : Fin n → ℝ),
      c.foldl (fun r g => r + g.w • g.x) a = a + (c.map fun g => g.w • g.x).sum := by
    intro c
    induction c with
    | nil => intro a; simp
    | cons g l ih => intro a; rw [List.foldl_cons, ih, List.map_cons, List.sum_cons, add_assoc]
  unfold mean
  rw [key, zero_add]

theorem covAt_eq (c : List (Gauss n)) (x : Fin n → ℝ) :
    covAt c x = (c.map fun g => g.w • (g.P + vecMulVec (g.x - x) (g.x - x))).sum := by
  have key : ∀ (c : List (Gauss n)) (a : Matrix (Fin n) (Fin n) ℝ),
      c.foldl (fun r g => r + g.w • (g.P + vecMulVec (g.x - x) (g.x - x))) a =
        a + (c.map fun g => g.w • (g.P + vecMulVec (g.x - x) (g.x - x))).sum := by
    intro c
    induction c with
    | nil => intro a; simp
    | cons g l ih => intro a; rw [List.foldl_cons, ih, List.map_cons, List.sum_cons, add_assoc]
  unfold covAt
  rw [key, zero_add]

theorem psd_listSum {l : List (Matrix (Fin n) (Fin n) ℝ)} (h : ∀ A ∈ l, A.PosSemidef) :
    l.sum.PosSemidef := by
  induction l with
  | nil => exact PosSemidef.zero
  | cons A l ih =>
    rw [List.sum_cons]
    exact (h A (List.mem_cons_self ..)).add (ih fun B hB => h B (List.mem_cons_of_mem _ hB))

/-- The second moment about any point is the covariance plus the offset of the mean, for weights
that sum to 1. -/
theorem covAt_shift (c : List (Gauss n)) (h1 : (c.map Gauss.w).sum = 1) (x : Fin n → ℝ) :
    covAt c x = cov c + vecMulVec (mean c - x) (mean c - x) := by
  have key : ∀ (c : List (Gauss n)) (y : Fin n → ℝ), covAt c x = covAt c y +
      (vecMulVec (mean c) (y - x) + vecMulVec (y - x) (mean c)) +
      (c.map Gauss.w).sum • (vecMulVec x x - vecMulVec y y) := by
    intro c y
    rw [covAt_eq, covAt_eq, mean_eq]
    induction c with
    | nil => simp
    | cons g l ih =>
      simp only [List.map_cons, List.sum_cons]
      rw [ih]
      ext i j
      simp only [Matrix.add_apply, Matrix.smul_apply, Matrix.sub_apply, vecMulVec_apply,
        Pi.add_apply, Pi.sub_apply, Pi.smul_apply, smul_eq_mul]
      ring
  rw [key c (mean c), h1]
  unfold cov
  ext i j
  simp only [Matrix.add_apply, Matrix.smul_apply, Matrix.sub_apply, vecMulVec_apply,
    Pi.sub_apply, smul_eq_mul]
  ring

/-- C40: the covariance of a mixture is symmetric and positive semidefinite; for weights that sum
to 1 it is at most the second moment about any point; mean and covariance do not depend on the
order of the components. -/
theorem C40_moments (c : List (Gauss n)) (hw : ∀ g ∈ c, 0 ≤ g.w) (hP : ∀ g ∈ c, g.P.PosSemidef) :
    (cov c)ᵀ = cov c ∧ (cov c).PosSemidef ∧
    ((c.map Gauss.w).sum = 1 → ∀ x, (covAt c x - cov c).PosSemidef) ∧
    (∀ c', c'.Perm c → mean c' = mean c ∧ cov c' = cov c) := by
  have hpsd : (cov c).PosSemidef := by
    unfold cov
    rw [covAt_eq]
    apply psd_listSum
    intro A hA
    obtain ⟨g, hg, rfl⟩ := List.mem_map.1 hA
    exact ((hP g hg).add (psd_vecMulVec _)).smul (hw g hg)
  refine ⟨psd_symm hpsd, hpsd, ?_, ?_⟩
  · intro h1 x
    rw [covAt_shift c h1 x, add_sub_cancel_left]
    exact psd_vecMulVec _
  · intro c' hp
    have hm : mean c' = mean c := by
      rw [mean_eq, mean_eq]
      exact (hp.map _).sum_eq
    refine ⟨hm, ?_⟩
    unfold cov
    rw [hm, covAt_eq, covAt_eq]
    exact (hp.map _).sum_eq

/-- Two components in the plane. -/
noncomputable def exGM : List (Gauss 2) := [⟨![0, 1], 1, 1 / 4⟩, ⟨![2, 0], 2, 3 / 4⟩]

example := C40_moments exGM
  (by intro g hg; simp only [exGM, List.mem_cons, List.not_mem_nil, or_false] at hg
      rcases hg with rfl | rfl <;> norm_num)
  (by intro g hg; simp only [exGM, List.mem_cons, List.not_mem_nil, or_false] at hg
      rcases hg with rfl | rfl
      · exact PosSemidef.one
      · exact PosSemidef.ofNat 2)

/-! ## C42 -/

section update

variable (H : Matrix (Fin m) (Fin n) ℝ) (z : Report m) (g : Gauss n)

/-- The innovation covariance is positive definite. -/
theorem innov_posDef (hR : z.P.PosDef) (hP : g.P.PosSemidef) : (H * g.P * Hᵀ + z.P).PosDef :=
  hR.posSemidef_add (psd_conj hP H)

theorem dinv_posDef (hR : z.P.PosDef) (hP : g.P.PosSemidef) : (dinv H z g).PosDef :=
  (innov_posDef H z g hR hP).inv

theorem mul_dinv (hR : z.P.PosDef) (hP : g.P.PosSemidef) :
    (H * g.P * Hᵀ + z.P) * dinv H z g = 1 :=
  Matrix.mul_nonsing_inv _ ((Matrix.isUnit_iff_isUnit_det _).1 (innov_posDef H z g hR hP).isUnit)

theorem dinv_mul (hR : z.P.PosDef) (hP : g.P.PosSemidef) :
    dinv H z g * (H * g.P * Hᵀ + z.P) = 1 :=
  Matrix.nonsing_inv_mul _ ((Matrix.isUnit_iff_isUnit_det _).1 (innov_posDef H z g hR hP).isUnit)

theorem gain_transpose (hR : z.P.PosDef) (hP : g.P.PosSemidef) :
    (gain H z g)ᵀ = dinv H z g * H * g.P := by
  unfold gain
  rw [transpose_mul, transpose_mul, transpose_transpose, psd_symm hP,
    psd_symm (dinv_posDef H z g hR hP).posSemidef, Matrix.mul_assoc]

/-- The Joseph form of the covariance update. -/
theorem joseph (hR : z.P.PosDef) (hP : g.P.PosSemidef) (pD : ℝ) :
    (correct H pD z g).P = (1 - gain H z g * H) * g.P * (1 - gain H z g * H)ᵀ +
      gain H z g * z.P * (gain H z g)ᵀ := by
  have hT := gain_transpose H z g hR hP
  have hS : gain H z g * (H * g.P * Hᵀ + z.P) = g.P * Hᵀ := by
    unfold gain
    rw [Matrix.mul_assoc, dinv_mul H z g hR hP, Matrix.mul_one]
  have hS' : gain H z g * (H * g.P * Hᵀ) * (gain H z g)ᵀ + gain H z g * z.P * (gain H z g)ᵀ =
      g.P * Hᵀ * (gain H z g)ᵀ := by
    rw [← Matrix.add_mul, ← Matrix.mul_add, hS]
  have e1 : (1 - gain H z g * H)ᵀ = 1 - Hᵀ * (gain H z g)ᵀ := by
    rw [transpose_sub, transpose_one, transpose_mul]
  change g.P - gain H z g * H * g.P = _
  rw [e1]
  have e2 : (1 - gain H z g * H) * g.P * (1 - Hᵀ * (gain H z g)ᵀ) = g.P - gain H z g * H * g.P -
      g.P * Hᵀ * (gain H z g)ᵀ + gain H z g * (H * g.P * Hᵀ) * (gain H z g)ᵀ := by
    simp only [Matrix.sub_mul, Matrix.mul_sub, Matrix.one_mul, Matrix.mul_one, Matrix.mul_assoc]
    abel
  rw [e2, add_assoc, hS']
  abel

/-- C42: with a positive definite report covariance, the measurement update keeps the covariance
symmetric and positive semidefinite and does not increase it; weights do not become negative. -/
theorem C42_update (pD : ℝ) (hR : z.P.PosDef) (hP : g.P.PosSemidef) :
    ((correct H pD z g).P)ᵀ = (correct H pD z g).P ∧ (correct H pD z g).P.PosSemidef ∧
    (g.P - (correct H pD z g).P).PosSemidef ∧
    (0 ≤ g.w → 0 ≤ pD → 0 ≤ z.kappa → 0 ≤ (correct H pD z g).w) := by
  have hpsd : (correct H pD z g).P.PosSemidef := by
    rw [joseph H z g hR hP]
    exact (psd_conj hP _).add (psd_conj hR.posSemidef _)
  refine ⟨psd_symm hpsd, hpsd, ?_, ?_⟩
  · have h1 : g.P - (correct H pD z g).P = (g.P * Hᵀ) * dinv H z g * (g.P * Hᵀ)ᵀ := by
      change g.P - (g.P - gain H z g * H * g.P) = _
      rw [sub_sub_cancel, transpose_mul, transpose_transpose, psd_symm hP]
      unfold gain
      simp only [Matrix.mul_assoc]
    rw [h1]
    exact psd_conj (dinv_posDef H z g hR hP).posSemidef _
  · intro h1 h2 h3
    have hl : 0 ≤ likelihood (innov H z g) (dinv H z g) :=
      mul_nonneg (Real.exp_pos _).le (Real.sqrt_nonneg _)
    exact mul_nonneg h1 (div_nonneg (mul_nonneg h2 hl) h3)

end update

/-- A report with unit covariance. -/
noncomputable def exRep : Report 2 := ⟨![3, 4], 1, 1 / 10⟩

/-- A target seen once. -/
noncomputable def exTgt : Gauss 4 := ⟨![1, 2, 0, 0], 1, 1⟩

example := C42_update posH exRep exTgt (9 / 10) PosDef.one PosSemidef.one

/-! ## C59: the update is Bayes' rule -/

section bayes

variable (H : Matrix (Fin m) (Fin n) ℝ) (z : Report m) (g : Gauss n)

/-- The density of a Gaussian with mean `μ` and covariance `S`. -/
noncomputable def density {k : Nat} (μ : Fin k → ℝ) (S : Matrix (Fin k) (Fin k) ℝ)
    (x : Fin k → ℝ) : ℝ :=
  Real.exp (-((x - μ) ⬝ᵥ S⁻¹ *ᵥ (x - μ)) / 2) / Real.sqrt ((2 * Real.pi) ^ k * S.det)

theorem posDef_mul_inv {k : Nat} {A : Matrix (Fin k) (Fin k) ℝ} (h : A.PosDef) : A * A⁻¹ = 1 :=
  Matrix.mul_nonsing_inv _ ((Matrix.isUnit_iff_isUnit_det _).1 h.isUnit)

theorem posDef_inv_mul {k : Nat} {A : Matrix (Fin k) (Fin k) ℝ} (h : A.PosDef) : A⁻¹ * A = 1 :=
  Matrix.nonsing_inv_mul _ ((Matrix.isUnit_iff_isUnit_det _).1 h.isUnit)

/-- `H K = 1 - R S⁻¹`. -/
theorem h_gain (hR : z.P.PosDef) (hP : g.P.PosDef) :
    H * gain H z g = 1 - z.P * dinv H z g := by
  have := mul_dinv H z g hR hP.posSemidef
  rw [Matrix.add_mul] at this
  unfold gain
  rw [← this, add_sub_cancel_right]
  simp only [Matrix.mul_assoc]

/-- The information form: the updated covariance is the inverse of `P⁻¹ + Hᵀ R⁻¹ H`. -/
theorem info_mul (hR : z.P.PosDef) (hP : g.P.PosDef) (pD : ℝ) :
    (g.P⁻¹ + Hᵀ * z.P⁻¹ * H) * (correct H pD z g).P = 1 := by
  have h1 : Hᵀ * z.P⁻¹ * (H * gain H z g) = Hᵀ * z.P⁻¹ - Hᵀ * dinv H z g := by
    rw [h_gain H z g hR hP, Matrix.mul_sub, Matrix.mul_one]
    congr 1
    rw [Matrix.mul_assoc, ← Matrix.mul_assoc z.P⁻¹, posDef_inv_mul hR, Matrix.one_mul]
  have h2 : g.P⁻¹ * gain H z g = Hᵀ * dinv H z g := by
    unfold gain
    rw [← Matrix.mul_assoc, ← Matrix.mul_assoc, posDef_inv_mul hP, Matrix.one_mul]
  change _ * (g.P - gain H z g * H * g.P) = 1
  have h3 : (g.P⁻¹ + Hᵀ * z.P⁻¹ * H) * gain H z g = Hᵀ * z.P⁻¹ := by
    rw [Matrix.add_mul, h2, Matrix.mul_assoc, h1]
    abel
  rw [Matrix.mul_sub, Matrix.mul_assoc (gain H z g), ← Matrix.mul_assoc, h3, Matrix.add_mul,
    posDef_inv_mul hP]
  simp only [Matrix.mul_assoc]
  abel

theorem info_gain (hR : z.P.PosDef) (hP : g.P.PosDef) :
    (g.P⁻¹ + Hᵀ * z.P⁻¹ * H) * gain H z g = Hᵀ * z.P⁻¹ := by
  have h1 : Hᵀ * z.P⁻¹ * (H * gain H z g) = Hᵀ * z.P⁻¹ - Hᵀ * dinv H z g := by
    rw [h_gain H z g hR hP, Matrix.mul_sub, Matrix.mul_one]
    congr 1
    rw [Matrix.mul_assoc, ← Matrix.mul_assoc z.P⁻¹, posDef_inv_mul hR, Matrix.one_mul]
  have h2 : g.P⁻¹ * gain H z g = Hᵀ * dinv H z g := by
    unfold gain
    rw [← Matrix.mul_assoc, ← Matrix.mul_assoc, posDef_inv_mul hP, Matrix.one_mul]
  rw [Matrix.add_mul, h2, Matrix.mul_assoc, h1]
  abel

theorem correct_inv (hR : z.P.PosDef) (hP : g.P.PosDef) (pD : ℝ) :
    (correct H pD z g).P⁻¹ = g.P⁻¹ + Hᵀ * z.P⁻¹ * H :=
  Matrix.inv_eq_left_inv (info_mul H z g hR hP pD)

theorem info_posDef (hR : z.P.PosDef) (hP : g.P.PosDef) :
    (g.P⁻¹ + Hᵀ * z.P⁻¹ * H).PosDef := by
  apply hP.inv.add_posSemidef
  have := psd_conj hR.inv.posSemidef Hᵀ
  rwa [transpose_transpose] at this

theorem correct_posDef (hR : z.P.PosDef) (hP : g.P.PosDef) (pD : ℝ) :
    (correct H pD z g).P.PosDef := by
  have := info_posDef H z g hR hP
  rw [← correct_inv H z g hR hP pD] at this
  exact Matrix.posDef_inv_iff.1 this

/-- `det P' * det S = det P * det R`. -/
theorem det_update (hR : z.P.PosDef) (hP : g.P.PosDef) (pD : ℝ) :
    (correct H pD z g).P.det * (H * g.P * Hᵀ + z.P).det = g.P.det * z.P.det := by
  have h1 : (g.P⁻¹ + Hᵀ * z.P⁻¹ * H).det * (correct H pD z g).P.det = 1 := by
    rw [← det_mul, info_mul H z g hR hP pD, det_one]
  have h2 : g.P.det * (g.P⁻¹ + Hᵀ * z.P⁻¹ * H).det = (1 + (g.P * Hᵀ) * (z.P⁻¹ * H)).det := by
    rw [← det_mul, Matrix.mul_add, posDef_mul_inv hP]
    simp only [Matrix.mul_assoc]
  have h3 : z.P.det * (1 + (g.P * Hᵀ) * (z.P⁻¹ * H)).det = (H * g.P * Hᵀ + z.P).det := by
    rw [det_one_add_mul_comm, ← det_mul, Matrix.mul_add, Matrix.mul_one]
    have : z.P * (z.P⁻¹ * H * (g.P * Hᵀ)) = H * g.P * Hᵀ := by
      rw [← Matrix.mul_assoc, ← Matrix.mul_assoc, ← Matrix.mul_assoc, posDef_mul_inv hR,
        Matrix.one_mul]
    rw [this, add_comm]
  rw [← h3, ← h2]
  linear_combination (g.P.det * z.P.det) * h1

theorem dot_symm {k : Nat} {A : Matrix (Fin k) (Fin k) ℝ} (hA : Aᵀ = A) (u v : Fin k → ℝ) :
    u ⬝ᵥ A *ᵥ v = v ⬝ᵥ A *ᵥ u := by
  rw [dotProduct_mulVec, ← mulVec_transpose, hA, dotProduct_comm]

/-- Completing the square. -/
theorem exponent (hR : z.P.PosDef) (hP : g.P.PosDef) (pD : ℝ) (x : Fin n → ℝ) :
    (x - g.x) ⬝ᵥ g.P⁻¹ *ᵥ (x - g.x) + (z.x - H *ᵥ x) ⬝ᵥ z.P⁻¹ *ᵥ (z.x - H *ᵥ x) =
      (x - (correct H pD z g).x) ⬝ᵥ (correct H pD z g).P⁻¹ *ᵥ (x - (correct H pD z g).x) +
        innov H z g ⬝ᵥ dinv H z g *ᵥ innov H z g := by
  obtain ⟨e, rfl⟩ : ∃ e, x = g.x + e := ⟨x - g.x, by simp⟩
  have hz : z.x - H *ᵥ (g.x + e) = innov H z g - H *ᵥ e := by
    unfold innov
    rw [mulVec_add]; abel
  have hx : g.x + e - (correct H pD z g).x = e - gain H z g *ᵥ innov H z g := by
    change g.x + e - (g.x + gain H z g *ᵥ innov H z g) = _
    abel
  rw [hz, hx, correct_inv H z g hR hP pD, add_sub_cancel_left]
  generalize innov H z g = d
  have hW : (z.P⁻¹)ᵀ = z.P⁻¹ := psd_symm hR.inv.posSemidef
  have hA : (g.P⁻¹ + Hᵀ * z.P⁻¹ * H)ᵀ = g.P⁻¹ + Hᵀ * z.P⁻¹ * H :=
    psd_symm (info_posDef H z g hR hP).posSemidef
  have hG := info_gain H z g hR hP
  -- `A K d = Hᵀ W d`
  have h1 : (g.P⁻¹ + Hᵀ * z.P⁻¹ * H) *ᵥ (gain H z g *ᵥ d) = Hᵀ *ᵥ (z.P⁻¹ *ᵥ d) := by
    rw [mulVec_mulVec, hG, mulVec_mulVec]
  -- `eᵀ A e`
  have h2 : e ⬝ᵥ (g.P⁻¹ + Hᵀ * z.P⁻¹ * H) *ᵥ e =
      e ⬝ᵥ g.P⁻¹ *ᵥ e + (H *ᵥ e) ⬝ᵥ z.P⁻¹ *ᵥ (H *ᵥ e) := by
    rw [add_mulVec, dotProduct_add, ← mulVec_mulVec, ← mulVec_mulVec, dotProduct_mulVec e Hᵀ,
      vecMul_transpose]
  have h3 : e ⬝ᵥ Hᵀ *ᵥ (z.P⁻¹ *ᵥ d) = (H *ᵥ e) ⬝ᵥ z.P⁻¹ *ᵥ d := by
    rw [dotProduct_mulVec e Hᵀ, vecMul_transpose]
  have h4 : (gain H z g *ᵥ d) ⬝ᵥ Hᵀ *ᵥ (z.P⁻¹ *ᵥ d) = d ⬝ᵥ z.P⁻¹ *ᵥ d - d ⬝ᵥ dinv H z g *ᵥ d := by
    rw [dotProduct_mulVec _ Hᵀ, vecMul_transpose, mulVec_mulVec, h_gain H z g hR hP, sub_mulVec,
      one_mulVec, sub_dotProduct]
    congr 1
    rw [dotProduct_mulVec, ← mulVec_transpose, hW, mulVec_mulVec, ← Matrix.mul_assoc,
      posDef_inv_mul hR, Matrix.one_mul, dotProduct_comm]
  have h5 : (H *ᵥ e) ⬝ᵥ z.P⁻¹ *ᵥ d = d ⬝ᵥ z.P⁻¹ *ᵥ (H *ᵥ e) := dot_symm hW _ _
  have h6 : (gain H z g *ᵥ d) ⬝ᵥ (g.P⁻¹ + Hᵀ * z.P⁻¹ * H) *ᵥ e =
      e ⬝ᵥ (g.P⁻¹ + Hᵀ * z.P⁻¹ * H) *ᵥ (gain H z g *ᵥ d) := dot_symm hA _ _
  simp only [mulVec_sub, dotProduct_sub, sub_dotProduct]
  rw [h6, h1, h2, h3, h4, h5]
  ring

/-- C59: the measurement update is Bayes' rule.  For every state `x`, the prior weight times the
prior density at `x` times the detection probability and the likelihood of the measurement given
`x`, over the clutter intensity, is the posterior weight times the posterior density at `x`. -/
theorem C59_bayes (hR : z.P.PosDef) (hP : g.P.PosDef) (pD : ℝ) (x : Fin n → ℝ) :
    g.w * density g.x g.P x * (pD * density (H *ᵥ x) z.P z.x / z.kappa) =
      (correct H pD z g).w * density (correct H pD z g).x (correct H pD z g).P x := by
  have hS := innov_posDef H z g hR hP.posSemidef
  have hexp := exponent H z g hR hP pD x
  have hdet := det_update H z g hR hP pD
  have d1 := hP.det_pos
  have d2 := hR.det_pos
  have d3 := hS.det_pos
  have d4 := (correct_posDef H z g hR hP pD).det_pos
  have hpi : 0 < 2 * Real.pi := by positivity
  have hl : likelihood (innov H z g) (dinv H z g) =
      Real.exp (-(innov H z g ⬝ᵥ dinv H z g *ᵥ innov H z g) / 2) /
        Real.sqrt ((2 * Real.pi) ^ m * (H * g.P * Hᵀ + z.P).det) := by
    unfold likelihood
    rw [show (dinv H z g).det = ((H * g.P * Hᵀ + z.P).det)⁻¹ from by
      unfold dinv; rw [Matrix.det_nonsing_inv, Ring.inverse_eq_inv']]
    rw [show ((H * g.P * Hᵀ + z.P).det)⁻¹ / (2 * Real.pi) ^ m =
      ((2 * Real.pi) ^ m * (H * g.P * Hᵀ + z.P).det)⁻¹ from by
        rw [mul_inv, div_eq_mul_inv, mul_comm], Real.sqrt_inv, ← div_eq_mul_inv]
    congr 2
    ring
  change _ = (g.w * (pD * likelihood (innov H z g) (dinv H z g) / z.kappa)) * _
  rw [hl]
  unfold density
  have e1 : Real.exp (-((x - g.x) ⬝ᵥ g.P⁻¹ *ᵥ (x - g.x)) / 2) *
      Real.exp (-((z.x - H *ᵥ x) ⬝ᵥ z.P⁻¹ *ᵥ (z.x - H *ᵥ x)) / 2) =
      Real.exp (-(innov H z g ⬝ᵥ dinv H z g *ᵥ innov H z g) / 2) *
      Real.exp (-((x - (correct H pD z g).x) ⬝ᵥ (correct H pD z g).P⁻¹ *ᵥ
        (x - (correct H pD z g).x)) / 2) := by
    rw [← Real.exp_add, ← Real.exp_add]
    congr 1
    linarith
  have e2 : Real.sqrt ((2 * Real.pi) ^ n * g.P.det) * Real.sqrt ((2 * Real.pi) ^ m * z.P.det) =
      Real.sqrt ((2 * Real.pi) ^ m * (H * g.P * Hᵀ + z.P).det) *
        Real.sqrt ((2 * Real.pi) ^ n * (correct H pD z g).P.det) := by
    rw [← Real.sqrt_mul (by positivity), ← Real.sqrt_mul (by positivity)]
    congr 1
    linear_combination -((2 * Real.pi) ^ n * (2 * Real.pi) ^ m) * hdet
  have p1 : Real.sqrt ((2 * Real.pi) ^ n * g.P.det) ≠ 0 := by positivity
  have p2 : Real.sqrt ((2 * Real.pi) ^ m * z.P.det) ≠ 0 := by positivity
  have p3 : Real.sqrt ((2 * Real.pi) ^ m * (H * g.P * Hᵀ + z.P).det) ≠ 0 := by positivity
  have p4 : Real.sqrt ((2 * Real.pi) ^ n * (correct H pD z g).P.det) ≠ 0 := by positivity
  calc _ = g.w * pD / z.kappa * (Real.exp (-((x - g.x) ⬝ᵥ g.P⁻¹ *ᵥ (x - g.x)) / 2) *
        Real.exp (-((z.x - H *ᵥ x) ⬝ᵥ z.P⁻¹ *ᵥ (z.x - H *ᵥ x)) / 2)) /
        (Real.sqrt ((2 * Real.pi) ^ n * g.P.det) * Real.sqrt ((2 * Real.pi) ^ m * z.P.det)) := by
        ring
    _ = _ := by
        rw [e1, e2]
        ring

end bayes

example (x : Fin 4 → ℝ) := C59_bayes posH exRep exTgt PosDef.one PosDef.one (9 / 10) x

/-! ## C43 -/

/-- C43: prediction keeps the covariance symmetric and positive semidefinite, for every transition
matrix. -/
theorem C43_predict_psd (F Q : Matrix (Fin n) (Fin n) ℝ) (g : Gauss n) (hQ : Q.PosSemidef)
    (hP : g.P.PosSemidef) :
    (linearUpdate F Q g).P.PosSemidef ∧ ((linearUpdate F Q g).P)ᵀ = (linearUpdate F Q g).P := by
  have : (linearUpdate F Q g).P.PosSemidef := (psd_conj hP F).add hQ
  exact ⟨this, psd_symm this⟩

/-- C43: the process noise of the constant-velocity model is positive semidefinite for time steps
that are not negative, and is not for negative ones. -/
theorem C43_cv_noise (q : ℝ) (dT : ℝ) : (0 ≤ q → 0 ≤ dT → (cvQ q dT).PosSemidef) ∧
    (0 < q → dT < 0 → ¬ (cvQ q dT).PosSemidef) := by
  constructor
  · intro hq hd
    apply PosSemidef.of_dotProduct_mulVec_nonneg
    · unfold IsHermitian cvQ
      ext i j
      fin_cases i <;> fin_cases j <;> simp
    · intro x
      have e : star x ⬝ᵥ cvQ q dT *ᵥ x = q * (dT * ((x 2 + dT * x 0 / 2) ^ 2 +
          dT ^ 2 * x 0 ^ 2 / 12) + dT * ((x 3 + dT * x 1 / 2) ^ 2 + dT ^ 2 * x 1 ^ 2 / 12)) := by
        simp [cvQ, dotProduct, mulVec, Fin.sum_univ_four]
        ring
      rw [e]
      positivity
  · intro hq hd h
    have := h.diag_nonneg (i := 2)
    simp [cvQ] at this
    nlinarith

/-- C43: two consecutive steps of the constant-velocity model are one step over the whole time,
for the existence probability and for every component. -/
theorem C43_cv_compose (pS q tscale t0 t1 t2 : ℝ) (hp : 0 < pS) (t : ℝ × List (Gauss 4)) :
    cvStep pS q tscale t2 t1 (cvStep pS q tscale t1 t0 t) = cvStep pS q tscale t2 t0 t := by
  have hd : (t2 - t0) / tscale = (t1 - t0) / tscale + (t2 - t1) / tscale := by
    rw [← add_div]; congr 1; ring
  unfold cvStep
  simp only [hd]
  generalize (t1 - t0) / tscale = a
  generalize (t2 - t1) / tscale = b
  have hF : cvF b * cvF a = cvF (a + b) := by
    ext i j
    fin_cases i <;> fin_cases j <;> simp [cvF, Matrix.mul_apply, Fin.sum_univ_four]
  have hQ : cvF b * cvQ q a * (cvF b)ᵀ + cvQ q b = cvQ q (a + b) := by
    ext i j
    fin_cases i <;> fin_cases j <;>
      simp [cvF, cvQ, Matrix.mul_apply, Fin.sum_univ_four, Matrix.vecMul, dotProduct] <;> ring
  rw [Prod.mk.injEq]
  constructor
  · rw [Real.rpow_add hp, mul_assoc]
  · rw [List.map_map]
    apply List.map_congr_left
    intro g _
    simp only [Function.comp, linearUpdate]
    rw [mulVec_mulVec, hF, ← hQ, ← hF, transpose_mul]
    congr 1
    simp only [Matrix.mul_add, Matrix.add_mul, Matrix.mul_assoc, add_assoc]

example := C43_predict_psd (cvF 2) (cvQ 1 2) exTgt ((C43_cv_noise 1 2).1 (by norm_num) (by norm_num))
  PosSemidef.one
example : ¬ (cvQ 1 (-1)).PosSemidef := (C43_cv_noise 1 (-1)).2 (by norm_num) (by norm_num)
example := C43_cv_compose (9 / 10) 2 1 0 1 3 (by norm_num) (1 / 2, [exTgt, exTgt])

/-- C43: the density given to a new target is valid. -/
theorem C43_init_psd (pv : Matrix (Fin 2) (Fin 2) ℝ) (hpv : pv.PosSemidef) (z : Report 2)
    (hz : z.P.PosSemidef) : (init1 pv z).P.PosSemidef := by
  have h1 := psd_symm hpv
  have h2 := psd_symm hz
  have a1 : pv 0 1 = pv 1 0 := by have := congrFun (congrFun h1 1) 0; simpa using this
  have a2 : z.P 0 1 = z.P 1 0 := by have := congrFun (congrFun h2 1) 0; simpa using this
  apply PosSemidef.of_dotProduct_mulVec_nonneg
  · unfold IsHermitian init1
    ext i j
    fin_cases i <;> fin_cases j <;> simp [a1, a2]
  · intro x
    have e : star x ⬝ᵥ (init1 pv z).P *ᵥ x = ![x 0, x 1] ⬝ᵥ z.P *ᵥ ![x 0, x 1] +
        ![x 2, x 3] ⬝ᵥ pv *ᵥ ![x 2, x 3] := by
      simp [init1, dotProduct, mulVec, Fin.sum_univ_four, Fin.sum_univ_two]
      ring
    rw [e]
    have p1 := hz.dotProduct_mulVec_nonneg ![x 0, x 1]
    have p2 := hpv.dotProduct_mulVec_nonneg ![x 2, x 3]
    simp only [star_trivial] at p1 p2
    exact add_nonneg p1 p2

example := C43_init_psd 1 PosSemidef.one exRep PosSemidef.one

end Verif.Kalman

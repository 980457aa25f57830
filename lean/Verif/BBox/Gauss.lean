import Verif.BBox.Props
import Mathlib.LinearAlgebra.Matrix.PosDef
import Mathlib.Algebra.Order.Star.Real
import Mathlib.Analysis.SpecialFunctions.Complex.Arg
import Mathlib.Analysis.SpecialFunctions.Trigonometric.Basic
import Mathlib.LinearAlgebra.Matrix.NonsingularInverse
import Mathlib.Tactic.LinearCombination
import Mathlib.Tactic.FinCases

/-! # Property C47: boxes of Gaussians, `bbox.hpp:45-66,158-171` -/

namespace Verif.BBox

open Matrix

/-- `std::atan2`, `bbox.hpp:53`. -/
noncomputable def atan2 (y x : ℝ) : ℝ := Complex.arg ⟨x, y⟩

/-- What `SelfAdjointEigenSolver` returns for `P`, `bbox.hpp:47-49,160-162`: eigenvalues `l` and a
matrix `U` whose columns are orthonormal eigenvectors (the eigenvalues' order plays no role). -/
def EigOk (P U : Matrix (Fin 2) (Fin 2) ℝ) (l : Fin 2 → ℝ) : Prop :=
  Uᵀ * U = 1 ∧ P = U * Matrix.diagonal l * Uᵀ

/-- `AABBox::from_gaussian`, `bbox.hpp:45-66`. -/
noncomputable def AABB.fromGaussian (x : Fin 2 → ℝ) (U : Matrix (Fin 2) (Fin 2) ℝ) (l : Fin 2 → ℝ)
    (nstd : ℝ) : AABB ℝ :=
  let r1 := nstd * Real.sqrt (l 0)
  let r2 := nstd * Real.sqrt (l 1)
  let theta := atan2 (U 1 1) (U 0 1)
  let ux := r1 * Real.cos theta
  let uy := r1 * Real.sin theta
  let vx := r2 * Real.cos (theta + Real.pi / 2)
  let vy := r2 * Real.sin (theta + Real.pi / 2)
  let dx := Real.sqrt (ux * ux + vx * vx)
  let dy := Real.sqrt (uy * uy + vy * vy)
  ⟨x 0 - dx, x 1 - dy, x 0 + dx, x 1 + dy⟩

/-- `BBox::from_gaussian`, `bbox.hpp:158-171`. -/
noncomputable def Box.fromGaussian (x : Fin 2 → ℝ) (U : Matrix (Fin 2) (Fin 2) ℝ) (l : Fin 2 → ℝ)
    (nstd : ℝ) : Box ℝ :=
  let r1 := nstd * Real.sqrt (l 0)
  let r2 := nstd * Real.sqrt (l 1)
  ⟨(x 0 + r1 * U 0 0 + r2 * U 0 1, x 1 + r1 * U 1 0 + r2 * U 1 1),
   (x 0 - r1 * U 0 0 + r2 * U 0 1, x 1 - r1 * U 1 0 + r2 * U 1 1),
   (x 0 - r1 * U 0 0 - r2 * U 0 1, x 1 - r1 * U 1 0 - r2 * U 1 1),
   (x 0 + r1 * U 0 0 - r2 * U 0 1, x 1 + r1 * U 1 0 - r2 * U 1 1)⟩

/-- The points at most `nstd` standard deviations from the mean (squared Mahalanobis distance). -/
def InEllipse (x : Fin 2 → ℝ) (P : Matrix (Fin 2) (Fin 2) ℝ) (nstd : ℝ) (p : Fin 2 → ℝ) : Prop :=
  (p - x) ⬝ᵥ P⁻¹ *ᵥ (p - x) ≤ nstd ^ 2

section
variable {P U : Matrix (Fin 2) (Fin 2) ℝ} {l : Fin 2 → ℝ}

/-- The columns and the rows of `U` are orthonormal. -/
theorem EigOk.rel (h : EigOk P U l) :
    U 0 0 ^ 2 + U 1 0 ^ 2 = 1 ∧ U 0 1 ^ 2 + U 1 1 ^ 2 = 1 ∧ U 0 0 * U 0 1 + U 1 0 * U 1 1 = 0 ∧
    U 0 0 ^ 2 + U 0 1 ^ 2 = 1 ∧ U 1 0 ^ 2 + U 1 1 ^ 2 = 1 ∧ U 0 0 * U 1 0 + U 0 1 * U 1 1 = 0 := by
  have h1 := h.1
  have h2 : U * Uᵀ = 1 := mul_eq_one_comm.1 h1
  have e : ∀ i j, (Uᵀ * U) i j = (1 : Matrix (Fin 2) (Fin 2) ℝ) i j := fun i j => by rw [h1]
  have f : ∀ i j, (U * Uᵀ) i j = (1 : Matrix (Fin 2) (Fin 2) ℝ) i j := fun i j => by rw [h2]
  simp only [Matrix.mul_apply, Fin.sum_univ_two, Matrix.transpose_apply] at e f
  have e00 := e 0 0
  have e11 := e 1 1
  have e01 := e 0 1
  have f00 := f 0 0
  have f11 := f 1 1
  have f01 := f 0 1
  simp at e00 e11 e01 f00 f11 f01
  refine ⟨?_, ?_, ?_, ?_, ?_, ?_⟩ <;> nlinarith

theorem EigOk.entries (h : EigOk P U l) :
    P 0 0 = l 0 * U 0 0 ^ 2 + l 1 * U 0 1 ^ 2 ∧ P 1 1 = l 0 * U 1 0 ^ 2 + l 1 * U 1 1 ^ 2 := by
  rw [h.2]
  simp only [Matrix.mul_apply, Fin.sum_univ_two, Matrix.transpose_apply, Matrix.diagonal_apply]
  simp
  constructor <;> ring

theorem EigOk.pos (h : EigOk P U l) (hP : P.PosDef) (k : Fin 2) : 0 < l k := by
  have hD : Uᵀ * P * U = Matrix.diagonal l := by
    rw [h.2]
    calc Uᵀ * (U * Matrix.diagonal l * Uᵀ) * U = (Uᵀ * U) * Matrix.diagonal l * (Uᵀ * U) := by
          simp only [Matrix.mul_assoc]
      _ = _ := by rw [h.1, Matrix.one_mul, Matrix.mul_one]
  have hne : (fun i => U i k) ≠ 0 := by
    intro h0
    have : (Uᵀ * U) k k = 0 := by
      simp only [Matrix.mul_apply, Matrix.transpose_apply]
      apply Finset.sum_eq_zero
      intro i _
      have : U i k = 0 := congrFun h0 i
      rw [this, zero_mul]
    rw [h.1] at this
    simp at this
  have := hP.dotProduct_mulVec_pos hne
  have hk : (Uᵀ * P * U) k k = l k := by rw [hD]; simp
  rw [← hk]
  have e : star (fun i => U i k) ⬝ᵥ P *ᵥ (fun i => U i k) = (Uᵀ * P * U) k k := by
    simp [Matrix.mul_apply, dotProduct, Matrix.mulVec, Fin.sum_univ_two]
    ring
  rw [e] at this
  exact this

theorem EigOk.inv (h : EigOk P U l) (hl : ∀ k, 0 < l k) (d : Fin 2 → ℝ) :
    d ⬝ᵥ P⁻¹ *ᵥ d =
      (U 0 0 * d 0 + U 1 0 * d 1) ^ 2 / l 0 + (U 0 1 * d 0 + U 1 1 * d 1) ^ 2 / l 1 := by
  have h2 : U * Uᵀ = 1 := mul_eq_one_comm.1 h.1
  have hinv : P⁻¹ = U * Matrix.diagonal (fun k => (l k)⁻¹) * Uᵀ := by
    apply Matrix.inv_eq_right_inv
    rw [h.2]
    calc U * Matrix.diagonal l * Uᵀ * (U * Matrix.diagonal (fun k => (l k)⁻¹) * Uᵀ) =
        U * (Matrix.diagonal l * (Uᵀ * U) * Matrix.diagonal (fun k => (l k)⁻¹)) * Uᵀ := by
          simp only [Matrix.mul_assoc]
      _ = U * 1 * Uᵀ := by
          rw [h.1, Matrix.mul_one, Matrix.diagonal_mul_diagonal]
          congr 2
          rw [← Matrix.diagonal_one]
          congr 1
          funext k
          exact mul_inv_cancel₀ (hl k).ne'
      _ = 1 := by rw [Matrix.mul_one, h2]
  rw [hinv]
  simp only [Matrix.mul_apply, Fin.sum_univ_two, Matrix.transpose_apply, Matrix.diagonal_apply,
    dotProduct, Matrix.mulVec]
  simp
  ring

theorem cos_atan2 {y x : ℝ} (h : x ^ 2 + y ^ 2 = 1) : Real.cos (atan2 y x) = x ∧
    Real.sin (atan2 y x) = y := by
  have hn : ‖(⟨x, y⟩ : ℂ)‖ = 1 := by
    rw [Complex.norm_def, Complex.normSq_mk]
    rw [show x * x + y * y = 1 from by nlinarith]
    exact Real.sqrt_one
  have hne : (⟨x, y⟩ : ℂ) ≠ 0 := by
    intro h0
    rw [h0] at hn
    simp at hn
  unfold atan2
  rw [Complex.cos_arg hne, Complex.sin_arg, hn]
  simp

/-- C47, finding: the half widths of the axis-aligned box are those of the other axis. -/
theorem C47_aabb_widths (h : EigOk P U l) (hP : P.PosDef) (x : Fin 2 → ℝ) (nstd : ℝ)
    (hn : 0 ≤ nstd) :
    AABB.fromGaussian x U l nstd =
      ⟨x 0 - nstd * Real.sqrt (P 1 1), x 1 - nstd * Real.sqrt (P 0 0),
       x 0 + nstd * Real.sqrt (P 1 1), x 1 + nstd * Real.sqrt (P 0 0)⟩ := by
  obtain ⟨r1, r2, r3, r4, r5, r6⟩ := h.rel
  obtain ⟨p0, p1⟩ := h.entries
  have l0 := h.pos hP 0
  have l1 := h.pos hP 1
  obtain ⟨hc, hs⟩ := cos_atan2 (y := U 1 1) (x := U 0 1) r2
  have s0 := Real.mul_self_sqrt l0.le
  have s1 := Real.mul_self_sqrt l1.le
  have hdx : Real.sqrt ((nstd * Real.sqrt (l 0) * U 0 1) * (nstd * Real.sqrt (l 0) * U 0 1) +
      (nstd * Real.sqrt (l 1) * -U 1 1) * (nstd * Real.sqrt (l 1) * -U 1 1)) =
      nstd * Real.sqrt (P 1 1) := by
    rw [show (nstd * Real.sqrt (l 0) * U 0 1) * (nstd * Real.sqrt (l 0) * U 0 1) +
      (nstd * Real.sqrt (l 1) * -U 1 1) * (nstd * Real.sqrt (l 1) * -U 1 1) =
      nstd ^ 2 * ((Real.sqrt (l 0) * Real.sqrt (l 0)) * U 0 1 ^ 2 +
        (Real.sqrt (l 1) * Real.sqrt (l 1)) * U 1 1 ^ 2) from by ring, s0, s1,
      show U 0 1 ^ 2 = U 1 0 ^ 2 from by linarith, ← p1, Real.sqrt_mul (sq_nonneg _),
      Real.sqrt_sq hn]
  have hdy : Real.sqrt ((nstd * Real.sqrt (l 0) * U 1 1) * (nstd * Real.sqrt (l 0) * U 1 1) +
      (nstd * Real.sqrt (l 1) * U 0 1) * (nstd * Real.sqrt (l 1) * U 0 1)) =
      nstd * Real.sqrt (P 0 0) := by
    rw [show (nstd * Real.sqrt (l 0) * U 1 1) * (nstd * Real.sqrt (l 0) * U 1 1) +
      (nstd * Real.sqrt (l 1) * U 0 1) * (nstd * Real.sqrt (l 1) * U 0 1) =
      nstd ^ 2 * ((Real.sqrt (l 0) * Real.sqrt (l 0)) * U 1 1 ^ 2 +
        (Real.sqrt (l 1) * Real.sqrt (l 1)) * U 0 1 ^ 2) from by ring, s0, s1,
      show U 1 1 ^ 2 = U 0 0 ^ 2 from by linarith, ← p0, Real.sqrt_mul (sq_nonneg _),
      Real.sqrt_sq hn]
  unfold AABB.fromGaussian
  simp only
  rw [Real.cos_add_pi_div_two, Real.sin_add_pi_div_two, hc, hs, hdx, hdy]

theorem coord_sq_le (h : EigOk P U l) (hP : P.PosDef) (d : Fin 2 → ℝ) :
    d 0 ^ 2 ≤ P 0 0 * (d ⬝ᵥ P⁻¹ *ᵥ d) ∧ d 1 ^ 2 ≤ P 1 1 * (d ⬝ᵥ P⁻¹ *ᵥ d) := by
  obtain ⟨r1, r2, r3, r4, r5, r6⟩ := h.rel
  obtain ⟨p0, p1⟩ := h.entries
  have l0 := h.pos hP 0
  have l1 := h.pos hP 1
  rw [h.inv (h.pos hP) d, p0, p1]
  have cs : ∀ u v a b : ℝ, (u * a + v * b) ^ 2 ≤
      (l 0 * u ^ 2 + l 1 * v ^ 2) * (a ^ 2 / l 0 + b ^ 2 / l 1) := by
    intro u v a b
    have e : (l 0 * u ^ 2 + l 1 * v ^ 2) * (a ^ 2 / l 0 + b ^ 2 / l 1) - (u * a + v * b) ^ 2 =
        (l 0 * u * b - l 1 * v * a) ^ 2 / (l 0 * l 1) := by
      field_simp
      ring
    have := div_nonneg (sq_nonneg (l 0 * u * b - l 1 * v * a)) (mul_pos l0 l1).le
    linarith
  constructor
  · have := cs (U 0 0) (U 0 1) (U 0 0 * d 0 + U 1 0 * d 1) (U 0 1 * d 0 + U 1 1 * d 1)
    rwa [show U 0 0 * (U 0 0 * d 0 + U 1 0 * d 1) + U 0 1 * (U 0 1 * d 0 + U 1 1 * d 1) = d 0 from by
      linear_combination d 0 * r4 + d 1 * r6] at this
  · have := cs (U 1 0) (U 1 1) (U 0 0 * d 0 + U 1 0 * d 1) (U 0 1 * d 0 + U 1 1 * d 1)
    rwa [show U 1 0 * (U 0 0 * d 0 + U 1 0 * d 1) + U 1 1 * (U 0 1 * d 0 + U 1 1 * d 1) = d 1 from by
      linear_combination d 1 * r5 + d 0 * r6] at this

/-- A point of the ellipse that lies as far out in direction `k` as its box should reach. -/
theorem exists_tangent (hP : P.PosDef) (x : Fin 2 → ℝ) (nstd : ℝ) (k : Fin 2) :
    ∃ p, InEllipse x P nstd p ∧ p k = x k + nstd * Real.sqrt (P k k) := by
  have hkk : 0 < P k k := hP.diag_pos
  have hs := Real.sqrt_pos.2 hkk
  have hu : IsUnit P.det := hP.isUnit.map (Matrix.detMonoidHom (n := Fin 2) (R := ℝ))
  refine ⟨x + (nstd / Real.sqrt (P k k)) • (P *ᵥ Pi.single k 1), ?_, ?_⟩
  · unfold InEllipse
    rw [add_sub_cancel_left, Matrix.mulVec_smul, Matrix.mulVec_mulVec, Matrix.nonsing_inv_mul _ hu,
      Matrix.one_mulVec, smul_dotProduct, dotProduct_smul]
    rw [dotProduct_single, Matrix.mulVec_single_one]
    simp only [smul_eq_mul, mul_one, Matrix.col_apply]
    rw [show nstd / Real.sqrt (P k k) * (nstd / Real.sqrt (P k k) * P k k) =
      nstd ^ 2 * (P k k / (Real.sqrt (P k k) * Real.sqrt (P k k))) from by field_simp,
      Real.mul_self_sqrt hkk.le, div_self hkk.ne', mul_one]
  · rw [Matrix.mulVec_single_one]
    simp only [Pi.add_apply, Pi.smul_apply, smul_eq_mul, Matrix.col_apply]
    congr 1
    have : P k k = Real.sqrt (P k k) * Real.sqrt (P k k) := (Real.mul_self_sqrt hkk.le).symm
    calc nstd / Real.sqrt (P k k) * P k k =
        nstd / Real.sqrt (P k k) * (Real.sqrt (P k k) * Real.sqrt (P k k)) := by rw [← this]
      _ = nstd * Real.sqrt (P k k) := by field_simp

/-- C47: the axis-aligned box contains the ellipse exactly if the two variances are equal. -/
theorem C47_aabb_iff (h : EigOk P U l) (hP : P.PosDef) (x : Fin 2 → ℝ) (nstd : ℝ)
    (hn : 0 < nstd) :
    (∀ p, InEllipse x P nstd p → (AABB.fromGaussian x U l nstd).within (p 0, p 1) = true) ↔
      P 0 0 = P 1 1 := by
  have h0 : 0 < P 0 0 := hP.diag_pos
  have h1 : 0 < P 1 1 := hP.diag_pos
  simp only [C47_aabb_widths h hP x nstd hn.le, AABB.within_iff]
  constructor
  · intro hc
    apply le_antisymm
    · obtain ⟨p, hp, hk⟩ := exists_tangent hP x nstd 0
      have := (hc p hp).2.1
      rw [hk] at this
      have := le_of_mul_le_mul_left (by linarith : nstd * Real.sqrt (P 0 0) ≤
        nstd * Real.sqrt (P 1 1)) hn
      exact (Real.sqrt_le_sqrt_iff h1.le).1 this
    · obtain ⟨p, hp, hk⟩ := exists_tangent hP x nstd 1
      have := (hc p hp).2.2.2
      rw [hk] at this
      have := le_of_mul_le_mul_left (by linarith : nstd * Real.sqrt (P 1 1) ≤
        nstd * Real.sqrt (P 0 0)) hn
      exact (Real.sqrt_le_sqrt_iff h0.le).1 this
  · intro he p hp
    unfold InEllipse at hp
    have hc := coord_sq_le h hP (p - x)
    have b0 : |p 0 - x 0| ≤ nstd * Real.sqrt (P 0 0) := by
      apply abs_le_of_sq_le_sq _ (mul_nonneg hn.le (Real.sqrt_nonneg _))
      rw [mul_pow, Real.sq_sqrt h0.le]
      have := mul_le_mul_of_nonneg_left hp h0.le
      have := hc.1
      simp only [Pi.sub_apply] at this
      linarith
    have b1 : |p 1 - x 1| ≤ nstd * Real.sqrt (P 1 1) := by
      apply abs_le_of_sq_le_sq _ (mul_nonneg hn.le (Real.sqrt_nonneg _))
      rw [mul_pow, Real.sq_sqrt h1.le]
      have := mul_le_mul_of_nonneg_left hp h1.le
      have := hc.2
      simp only [Pi.sub_apply] at this
      linarith
    rw [abs_le] at b0 b1
    rw [← he] at *
    refine ⟨?_, ?_, ?_, ?_⟩
    · linarith [b0.1]
    · linarith [b0.2]
    · linarith [b1.1]
    · linarith [b1.2]

/-- Coordinates of `p` along the eigenvectors, in units of the box' half sides. -/
theorem ellipse_coords (h : EigOk P U l) (hP : P.PosDef) (x p : Fin 2 → ℝ) (nstd : ℝ)
    (hn : 0 < nstd) :
    ∃ s t : ℝ, p 0 = x 0 + s * (nstd * Real.sqrt (l 0) * U 0 0) + t * (nstd * Real.sqrt (l 1) * U 0 1) ∧
      p 1 = x 1 + s * (nstd * Real.sqrt (l 0) * U 1 0) + t * (nstd * Real.sqrt (l 1) * U 1 1) ∧
      nstd ^ 2 * (s ^ 2 + t ^ 2) = (p - x) ⬝ᵥ P⁻¹ *ᵥ (p - x) := by
  obtain ⟨r1, r2, r3, r4, r5, r6⟩ := h.rel
  have l0 := Real.sqrt_pos.2 (h.pos hP 0)
  have l1 := Real.sqrt_pos.2 (h.pos hP 1)
  have cancel : ∀ a b v : ℝ, b ≠ 0 → a / b * (b * v) = a * v := fun a b v hb => by
    rw [← mul_assoc, div_mul_cancel₀ _ hb]
  refine ⟨(U 0 0 * (p 0 - x 0) + U 1 0 * (p 1 - x 1)) / (nstd * Real.sqrt (l 0)),
    (U 0 1 * (p 0 - x 0) + U 1 1 * (p 1 - x 1)) / (nstd * Real.sqrt (l 1)), ?_, ?_, ?_⟩
  · rw [cancel _ _ _ (mul_pos hn l0).ne', cancel _ _ _ (mul_pos hn l1).ne']
    linear_combination -(p 0 - x 0) * r4 - (p 1 - x 1) * r6
  · rw [cancel _ _ _ (mul_pos hn l0).ne', cancel _ _ _ (mul_pos hn l1).ne']
    linear_combination -(p 1 - x 1) * r5 - (p 0 - x 0) * r6
  · rw [h.inv (h.pos hP)]
    simp only [Pi.sub_apply]
    rw [div_pow, div_pow, mul_pow, mul_pow, Real.sq_sqrt (h.pos hP 0).le,
      Real.sq_sqrt (h.pos hP 1).le]
    have := (h.pos hP 0).ne'
    have := (h.pos hP 1).ne'
    field_simp

/-- C47: the oriented box contains the ellipse; points in the ellipse's interior are `within`. -/
theorem C47_oriented (h : EigOk P U l) (hP : P.PosDef) (x : Fin 2 → ℝ) (nstd : ℝ) (hn : 0 < nstd)
    (p : Fin 2 → ℝ) :
    (InEllipse x P nstd p → InHull (Box.fromGaussian x U l nstd) (p 0, p 1)) ∧
    ((p - x) ⬝ᵥ P⁻¹ *ᵥ (p - x) < nstd ^ 2 →
      (Box.fromGaussian x U l nstd).within (p 0, p 1) = true) := by
  obtain ⟨s, t, h0, h1, hm⟩ := ellipse_coords h hP x p nstd hn
  have hn2 : 0 < nstd ^ 2 := by positivity
  constructor
  · intro hp
    unfold InEllipse at hp
    rw [← hm] at hp
    have hst : s ^ 2 + t ^ 2 ≤ 1 := by
      by_contra hc
      have := mul_lt_mul_of_pos_left (not_le.1 hc) hn2
      linarith
    have hs : |s| ≤ 1 := by
      apply abs_le_of_sq_le_sq _ zero_le_one
      nlinarith [sq_nonneg t]
    have ht : |t| ≤ 1 := by
      apply abs_le_of_sq_le_sq _ zero_le_one
      nlinarith [sq_nonneg s]
    rw [abs_le] at hs ht
    refine ⟨(1 + s) * (1 + t) / 4, (1 - s) * (1 + t) / 4, (1 - s) * (1 - t) / 4,
      (1 + s) * (1 - t) / 4, ?_, ?_, ?_, ?_, ?_, ?_, ?_⟩
    · exact div_nonneg (mul_nonneg (by linarith) (by linarith)) (by norm_num)
    · exact div_nonneg (mul_nonneg (by linarith) (by linarith)) (by norm_num)
    · exact div_nonneg (mul_nonneg (by linarith) (by linarith)) (by norm_num)
    · exact div_nonneg (mul_nonneg (by linarith) (by linarith)) (by norm_num)
    · ring
    · simp only [Box.fromGaussian]
      rw [h0]
      ring
    · simp only [Box.fromGaussian]
      rw [h1]
      ring
  · intro hp
    rw [← hm] at hp
    have hst : s ^ 2 + t ^ 2 < 1 := by
      by_contra hc
      have := mul_le_mul_of_nonneg_left (not_lt.1 hc) hn2.le
      linarith
    have hs : |s| < 1 := by
      apply abs_lt_of_sq_lt_sq _ zero_le_one
      nlinarith [sq_nonneg t]
    have ht : |t| < 1 := by
      apply abs_lt_of_sq_lt_sq _ zero_le_one
      nlinarith [sq_nonneg s]
    rw [abs_lt] at hs ht
    apply C45_complete
    have l0 := mul_pos hn (Real.sqrt_pos.2 (h.pos hP 0))
    have l1 := mul_pos hn (Real.sqrt_pos.2 (h.pos hP 1))
    have hr := mul_pos l0 l1
    obtain ⟨r1, r2, r3, r4, r5, r6⟩ := h.rel
    have hD2 : (U 0 0 * U 1 1 - U 0 1 * U 1 0) ^ 2 = 1 := by
      have : (U 0 0 * U 1 1 - U 0 1 * U 1 0) ^ 2 =
          (U 0 0 ^ 2 + U 1 0 ^ 2) * (U 0 1 ^ 2 + U 1 1 ^ 2) -
          (U 0 0 * U 0 1 + U 1 0 * U 1 1) ^ 2 := by ring
      rw [this, r1, r2, r3]
      ring
    have e0 : side (Box.fromGaussian x U l nstd).c3 (Box.fromGaussian x U l nstd).c0 (p 0, p 1) =
        2 * (1 - s) * ((nstd * Real.sqrt (l 0)) * (nstd * Real.sqrt (l 1))) *
          (U 0 0 * U 1 1 - U 0 1 * U 1 0) := by
      simp only [side, Box.fromGaussian]
      rw [h0, h1]
      ring
    have e1 : side (Box.fromGaussian x U l nstd).c0 (Box.fromGaussian x U l nstd).c1 (p 0, p 1) =
        2 * (1 - t) * ((nstd * Real.sqrt (l 0)) * (nstd * Real.sqrt (l 1))) *
          (U 0 0 * U 1 1 - U 0 1 * U 1 0) := by
      simp only [side, Box.fromGaussian]
      rw [h0, h1]
      ring
    have e2 : side (Box.fromGaussian x U l nstd).c1 (Box.fromGaussian x U l nstd).c2 (p 0, p 1) =
        2 * (1 + s) * ((nstd * Real.sqrt (l 0)) * (nstd * Real.sqrt (l 1))) *
          (U 0 0 * U 1 1 - U 0 1 * U 1 0) := by
      simp only [side, Box.fromGaussian]
      rw [h0, h1]
      ring
    have e3 : side (Box.fromGaussian x U l nstd).c2 (Box.fromGaussian x U l nstd).c3 (p 0, p 1) =
        2 * (1 + t) * ((nstd * Real.sqrt (l 0)) * (nstd * Real.sqrt (l 1))) *
          (U 0 0 * U 1 1 - U 0 1 * U 1 0) := by
      simp only [side, Box.fromGaussian]
      rw [h0, h1]
      ring
    rw [e0, e1, e2, e3]
    have g0 := mul_pos (mul_pos two_pos (by linarith : 0 < 1 - s)) hr
    have g1 := mul_pos (mul_pos two_pos (by linarith : 0 < 1 - t)) hr
    have g2 := mul_pos (mul_pos two_pos (by linarith : 0 < 1 + s)) hr
    have g3 := mul_pos (mul_pos two_pos (by linarith : 0 < 1 + t)) hr
    rcases sq_eq_one_iff.1 hD2 with hD | hD
    · left
      rw [hD]
      simp only [mul_one]
      exact ⟨g0, g1, g2, g3⟩
    · right
      rw [hD]
      simp only [mul_neg, mul_one, neg_lt_zero]
      exact ⟨g0, g1, g2, g3⟩

end

/-- Variances 4 and 1. -/
def exCov : Matrix (Fin 2) (Fin 2) ℝ := Matrix.diagonal ![4, 1]
/-- Its eigenvectors, in ascending order of the eigenvalues 1 and 4. -/
def exU : Matrix (Fin 2) (Fin 2) ℝ := !![0, 1; 1, 0]

theorem exCov_pos : exCov.PosDef := by
  apply Matrix.PosDef.diagonal
  intro i
  fin_cases i <;> norm_num

theorem exEig : EigOk exCov exU ![1, 4] := by
  constructor
  · ext i j
    fin_cases i <;> fin_cases j <;> simp [exU, Matrix.mul_apply, Fin.sum_univ_two]
  · ext i j
    fin_cases i <;> fin_cases j <;>
      simp [exCov, exU, Matrix.mul_apply, Matrix.vecMul, dotProduct, Fin.sum_univ_two,
        Matrix.diagonal_apply]

example := C47_aabb_widths exEig exCov_pos ![0, 0] 2 (by norm_num)
example := C47_aabb_iff exEig exCov_pos ![0, 0] 2 (by norm_num)
example := C47_oriented exEig exCov_pos ![0, 0] 2 (by norm_num) ![3, 0]

/-- C47, refuted claim: the box of a Gaussian with variances 4 and 1 does not contain its ellipse. -/
theorem C47_refuted : ¬ ∀ p, InEllipse ![0, 0] exCov 2 p →
    (AABB.fromGaussian ![0, 0] exU ![1, 4] 2).within (p 0, p 1) = true := by
  rw [C47_aabb_iff exEig exCov_pos ![0, 0] 2 (by norm_num)]
  simp [exCov]

end Verif.BBox

import Verif.KalmanF.Mean
import Verif.KalmanF.Predict
import Verif.Kalman.Model

/-!
`post`, `postX` and `pred`, against which the errors of C87, C94 and C117 are measured, are the covariances and
the mean that the exact update and prediction of `Verif/Kalman/Model.lean` give.
-/

namespace Verif.KalmanF

open Matrix

/-- The component with rational mean `x` and covariance `P` (specification). -/
def gaussOf (x : Fin 4 → ℚ) (P : Cov4) (w : ℝ) : Kalman.Gauss 4 := ⟨fun i => x i, Matrix.of fun i j => (P i j : ℝ), w⟩

/-- The report with rational position `z` and covariance `R` (specification). -/
def reportOf (z : Fin 2 → ℚ) (R : Cov2) (kappa : ℝ) : Kalman.Report 2 := ⟨fun l => z l, Matrix.of fun l m => (R l m : ℝ), kappa⟩

/-- The inverse of the innovation covariance. -/
theorem dinv_eq {P : Cov4} {R : Cov2} (hP : IsCov P) (hR : IsCov R) (x : Fin 4 → ℚ)
    (z : Fin 2 → ℚ) (w kappa : ℝ) : Kalman.dinv Kalman.posH (reportOf z R kappa) (gaussOf x P w) =
      ((det P R : ℚ) : ℝ)⁻¹ • !![(s1 P R : ℝ), -sx P R; -sx P R, s0 P R] := by
  have hS : Kalman.posH * (gaussOf x P w).P * Kalman.posHᵀ + (reportOf z R kappa).P =
      !![(s0 P R : ℝ), sx P R; sx P R, s1 P R] := by
    ext a b
    rw [Matrix.add_apply]
    simp only [Matrix.mul_apply, Fin.sum_univ_four, Matrix.transpose_apply]
    fin_cases a <;> fin_cases b <;>
      simp [Kalman.posH, gaussOf, reportOf, s0, s1, sx, hP.1 1 0, hR.1 1 0]
  have hdet : (!![(s0 P R : ℝ), sx P R; sx P R, s1 P R]).det = (det P R : ℚ) := by
    rw [Matrix.det_fin_two_of]
    unfold det
    push_cast
    ring
  unfold Kalman.dinv
  rw [hS, Matrix.inv_def, hdet, Matrix.adjugate_fin_two_of, Ring.inverse_eq_inv']

/-- **C87, C117 (the exact update).**  `post` and `postX` are what `correct` computes in exact arithmetic. -/
theorem exact_update {P : Cov4} {R : Cov2} (hP : IsCov P) (hR : IsCov R) (hd : 0 < det P R) (x : Fin 4 → ℚ)
    (z : Fin 2 → ℚ) (w pD kappa : ℝ) (i j : Fin 4) :
    (Kalman.correct Kalman.posH pD (reportOf z R kappa) (gaussOf x P w)).x i = postX x P z R i ∧
    (Kalman.correct Kalman.posH pD (reportOf z R kappa) (gaussOf x P w)).P i j = post P R i j := by
  have hdr : ((det P R : ℚ) : ℝ) ≠ 0 := by exact_mod_cast hd.ne'
  have hD := dinv_eq hP hR x z w kappa
  have hK : ∀ i, Kalman.gain Kalman.posH (reportOf z R kappa) (gaussOf x P w) i 0 =
        (P i 0 * s1 P R - P i 1 * sx P R) / (det P R : ℚ) ∧
      Kalman.gain Kalman.posH (reportOf z R kappa) (gaussOf x P w) i 1 =
        (P i 1 * s0 P R - P i 0 * sx P R) / (det P R : ℚ) := by
    intro i
    unfold Kalman.gain
    rw [hD]
    constructor <;>
    · simp [Matrix.mul_apply, Fin.sum_univ_four, Fin.sum_univ_two, Kalman.posH, gaussOf]
      field_simp
      ring
  constructor
  · simp only [Kalman.correct, Pi.add_apply, Matrix.mulVec, dotProduct, Fin.sum_univ_two, (hK i).1, (hK i).2]
    simp [Kalman.innov, Kalman.posH, Matrix.mulVec, dotProduct, Fin.sum_univ_four, gaussOf, reportOf, postX,
      shift, innovX]
    field_simp
  · simp only [Kalman.correct, Matrix.sub_apply, Matrix.mul_apply, Fin.sum_univ_two, (hK i).1, (hK i).2]
    simp [Kalman.posH, Fin.sum_univ_four, gaussOf, post, gstar]
    field_simp
    ring

/-- **C94 (the exact prediction).**  `pred` is what `CV` computes in exact arithmetic, and so is `x + T v`. -/
theorem exact_predict (q T : ℚ) (P : Cov4) (x : Fin 4 → ℚ) (w : ℝ) (i j : Fin 4) :
    (Kalman.linearUpdate (Kalman.cvF T) (Kalman.cvQ q T) (gaussOf x P w)).P i j = pred q T P i j ∧
    (Kalman.linearUpdate (Kalman.cvF T) (Kalman.cvQ q T) (gaussOf x P w)).x i =
      match speed i with | some k => (x i + T * x k : ℚ) | none => x i := by
  constructor
  · simp only [Kalman.linearUpdate, Matrix.add_apply, Matrix.mul_apply, Fin.sum_univ_four,
      Matrix.transpose_apply, pred]
    fin_cases i <;> fin_cases j <;>
      simp [Kalman.cvF, Kalman.cvQ, gaussOf, motion, noiseX] <;> ring
  · simp only [Kalman.linearUpdate, Matrix.mulVec, dotProduct, Fin.sum_univ_four]
    fin_cases i <;> simp [Kalman.cvF, gaussOf, speed]

/-! ## Concrete cases -/

/-- A target with correlated coordinates and a report off by five metres. -/
example (i : Fin 4) : ∃ m, (m - postX ![0, 0, 1, 2] (mk 100 50 4 9 50 10) ![3, -4] (mkR 25) i) ^ 2 ≤
      (1 / 2 ^ 45) ^ 2 * mk 100 50 4 9 50 10 i i ∧
    |correctX ![0, 0, 1, 2] (mk 100 50 4 9 50 10) ![3, -4] (mkR 25) i - m| ≤ |m| / 2 ^ 52 := by
  obtain ⟨m, h1, h2⟩ := C117_mean (x := ![0, 0, 1, 2]) (z := ![3, -4]) (mk_cov (a := 100) (b := 50) (c := 4)
    (d := 9) (x := 50) (w := 10) (by norm_num) (by norm_num) (by norm_num) (by norm_num))
    (mkR_cov (r := 25) (by norm_num)) (by decide +kernel) (by decide +kernel) (by decide +kernel)
    (by decide +kernel) i
  refine ⟨m, h1.trans ?_, h2⟩
  have hp : 0 ≤ mk 100 50 4 9 50 10 i i := psd_diag (mk_cov (by norm_num) (by norm_num) (by norm_num)
    (by norm_num)).2 i
  have h3 : (kappa (mk 100 50 4 9 50 10) (mkR 25) / 2 ^ 46) ^ 2 *
      maha ![0, 0, 1, 2] (mk 100 50 4 9 50 10) ![3, -4] (mkR 25) ≤ (1 / 2 ^ 45) ^ 2 := by decide +kernel
  calc _ = (kappa (mk 100 50 4 9 50 10) (mkR 25) / 2 ^ 46) ^ 2 *
      maha ![0, 0, 1, 2] (mk 100 50 4 9 50 10) ![3, -4] (mkR 25) * mk 100 50 4 9 50 10 i i := by ring
    _ ≤ _ := mul_le_mul_of_nonneg_right h3 hp

/-- The exact mean of that case. -/
example : (Kalman.correct Kalman.posH 1 (reportOf ![3, -4] (mkR 25) 1)
    (gaussOf ![0, 0, 1, 2] (mk 100 50 4 9 50 10) 1)).x 0 = (16 / 11 : ℚ) := by
  rw [(exact_update (mk_cov (by norm_num) (by norm_num) (by norm_num) (by norm_num)) (mkR_cov (by norm_num))
    (by decide +kernel) _ _ _ _ _ 0 0).1]
  congr 1
  decide +kernel

example : (Kalman.linearUpdate (Kalman.cvF (1 / 2 : ℚ)) (Kalman.cvQ (1 : ℚ) (1 / 2 : ℚ))
    (gaussOf ![1, 2, 3, 4] exTwist 1)).P 0 0 = (271 / 24 : ℚ) := by
  rw [(exact_predict 1 (1 / 2) exTwist ![1, 2, 3, 4] 1 0 0).1]
  congr 1
  decide +kernel

end Verif.KalmanF

import Verif.KalmanF.Props

/-!
# C94: the prediction of a Gaussian component in `double` arithmetic

`Gaussian_<4>::linear_update` (`include/gaussian.hpp:69-75`) with the matrices of `CV`
(`include/models.hpp:15-38`).  Products with the zeros and ones of `F` are exact; every other operation
is rounded.  Each entry of `F * P` and of `(F * P) * F.transpose()` has at most two terms, so the order
in which Eigen adds them does not matter.
-/

namespace Verif.KalmanF

open Verif.GMF (fl fl_err fl_zero fl_double)

/-- The coordinate of the speed that belongs to a coordinate of the position, `models.hpp:19-22`. -/
def speed : Fin 4 → Option (Fin 4)
  | 0 => some 2
  | 1 => some 3
  | _ => none

/-- `F * P`, `gaussian.hpp:75`, `models.hpp:18-22`. -/
def moveL (dT : ℚ) (P : Cov4) (i j : Fin 4) : ℚ :=
  match speed i with
  | some k => fl (P i j + fl (dT * P k j))
  | none => P i j

/-- The product with `F.transpose()`, `gaussian.hpp:75`, `models.hpp:18-22`. -/
def moveR (dT : ℚ) (A : Cov4) (i j : Fin 4) : ℚ :=
  match speed j with
  | some k => fl (A i j + fl (A i k * dT))
  | none => A i j

/-- `dT * dT / 2`, `models.hpp:32`. -/
def half (dT : ℚ) : ℚ := fl (fl (dT * dT) / 2)

/-- `dT * dT * dT / 3`, `models.hpp:33`. -/
def third (dT : ℚ) : ℚ := fl (fl (fl (dT * dT) * dT) / 3)

/-- `Q` after `Q *= q`, `models.hpp:34-38`. -/
def noise (q dT : ℚ) (i j : Fin 4) : ℚ :=
  if i = j then (if (speed i).isSome then fl (third dT * q) else fl (dT * q))
  else if speed i = some j ∨ speed j = some i then fl (half dT * q) else 0

/-- The covariance after `linear_update(F, Q)`, `gaussian.hpp:75`. -/
def predictP (q dT : ℚ) (P : Cov4) (i j : Fin 4) : ℚ :=
  fl (moveR dT (moveL dT P) i j + noise q dT i j)

/-- The mean after `linear_update(F, Q)`, `gaussian.hpp:74`. -/
def predictX (dT : ℚ) (x : Fin 4 → ℚ) (i : Fin 4) : ℚ :=
  match speed i with
  | some k => fl (x i + fl (dT * x k))
  | none => x i

/-- The covariance after `NM`, whose `F` is the identity, `models.hpp:66-69`, `gaussian.hpp:75`. -/
def predictNM (Q P : Cov4) (i j : Fin 4) : ℚ := fl (P i j + Q i j)

/-! ## The exact prediction -/

/-- The noise of the constant-velocity model. -/
def noiseX (q T : ℚ) : Cov4 := fun i j =>
  (![![q * T ^ 3 / 3, 0, q * T ^ 2 / 2, 0], ![0, q * T ^ 3 / 3, 0, q * T ^ 2 / 2],
    ![q * T ^ 2 / 2, 0, q * T, 0], ![0, q * T ^ 2 / 2, 0, q * T]] : Fin 4 → Fin 4 → ℚ) i j

/-- The motion over the time `T`. -/
def motion (T : ℚ) : Cov4 := fun i j =>
  (![![1, 0, T, 0], ![0, 1, 0, T], ![0, 0, 1, 0], ![0, 0, 0, 1]] : Fin 4 → Fin 4 → ℚ) i j

/-- `F P Fᵀ + Q`. -/
def pred (q T : ℚ) (P : Cov4) (i j : Fin 4) : ℚ :=
  (∑ k, ∑ l, motion T i k * P k l * motion T j l) + noiseX q T i j

/-- The variance of a coordinate of the position plus that of the distance covered; the variance of a
coordinate of the speed. -/
def spread (T : ℚ) (P : Cov4) (i : Fin 4) : ℚ :=
  (![P 0 0 + T ^ 2 * P 2 2, P 1 1 + T ^ 2 * P 3 3, P 2 2, P 3 3] : Fin 4 → ℚ) i

/-- No operation over- or underflows. -/
def SafePred (q T : ℚ) (P : Cov4) : Prop :=
  Safe (T * T) ∧ Safe (fl (T * T) / 2) ∧ Safe (fl (T * T) * T) ∧ Safe (fl (fl (T * T) * T) / 3) ∧
  Safe (third T * q) ∧ Safe (half T * q) ∧ Safe (T * q) ∧
  ∀ i j, (∀ k, speed i = some k → Safe (T * P k j) ∧ Safe (P i j + fl (T * P k j))) ∧
    (∀ k, speed j = some k → Safe (moveL T P i k * T) ∧
      Safe (moveL T P i j + fl (moveL T P i k * T))) ∧
    Safe (moveR T (moveL T P) i j + noise q T i j)

instance (q T : ℚ) (P : Cov4) : Decidable (SafePred q T P) := by
  unfold SafePred; infer_instance

theorem fac5 {f : ℚ} (h : Fac 5 f) : |f - 1| ≤ 1 / 2 ^ 49 := by
  unfold Fac at h
  refine h.trans ?_
  unfold u
  norm_num

/-- A product of two deviations is at most the mean of the variances. -/
theorem term_le {P : Cov4} (hP : IsCov P) (a b : ℚ) (i j : Fin 4) :
    2 * |a * P i j * b| ≤ a ^ 2 * P i i + b ^ 2 * P j j := by
  have h1 := psd_two hP i j a b
  have h2 := psd_two hP i j a (-b)
  have h3 : |2 * (a * P i j * b)| ≤ a ^ 2 * P i i + b ^ 2 * P j j := abs_le.2 ⟨by linarith, by linarith⟩
  rwa [abs_mul, abs_of_pos (by norm_num : (0 : ℚ) < 2)] at h3

/-- The noise, with the roundings of its computation and of the last addition. -/
theorem noise_fac {q T : ℚ} {P : Cov4} (hs : SafePred q T P) (i j : Fin 4) :
    ∃ f, Fac 4 f ∧ noise q T i j = noiseX q T i j * f := by
  obtain ⟨s1, s2, s3, s4, s5, s6, s7, _⟩ := hs
  obtain ⟨f1, h1, e1⟩ := fl_fac s1
  obtain ⟨f2, h2, e2⟩ := fl_fac s2
  obtain ⟨f3, h3, e3⟩ := fl_fac s3
  obtain ⟨f4, h4, e4⟩ := fl_fac s4
  obtain ⟨f5, h5, e5⟩ := fl_fac s5
  obtain ⟨f6, h6, e6⟩ := fl_fac s6
  obtain ⟨f7, h7, e7⟩ := fl_fac s7
  have et : fl (third T * q) = q * T ^ 3 / 3 * (f1 * f3 * f4 * f5) := by
    rw [e5]; unfold third; rw [e4, e3, e1]; ring
  have eh : fl (half T * q) = q * T ^ 2 / 2 * (f1 * f2 * f6) := by
    rw [e6]; unfold half; rw [e2, e1]; ring
  have eT : fl (T * q) = q * T * f7 := by rw [e7]; ring
  have ft : Fac 4 (f1 * f3 * f4 * f5) := fac_mul' (fac_mul (fac_mul h1 h3) h4) h5 (by norm_num)
  have fh : Fac 4 (f1 * f2 * f6) := fac_up (by norm_num) (fac_mul (fac_mul h1 h2) h6)
  have fT : Fac 4 f7 := fac_up (by norm_num) h7
  have f0 : Fac 4 1 := fac_one 4
  fin_cases i <;> fin_cases j <;>
    simp only [noise, noiseX, speed, et, eh, eT] <;>
    first
    | (refine ⟨_, ft, ?_⟩; simp; done)
    | (refine ⟨_, fh, ?_⟩; simp; done)
    | (refine ⟨_, fT, ?_⟩; simp; done)
    | (refine ⟨_, f0, ?_⟩; simp; done)

theorem noiseX_nonneg {q T : ℚ} (hq : 0 ≤ q) (hT : 0 ≤ T) (i j : Fin 4) : 0 ≤ noiseX q T i j := by
  have h1 : 0 ≤ q * T ^ 3 / 3 := by positivity
  have h2 : 0 ≤ q * T ^ 2 / 2 := by positivity
  have h3 : 0 ≤ q * T := by positivity
  fin_cases i <;> fin_cases j <;> simp [noiseX] <;> assumption

/-- The factor and the index of the speed; zero and the index itself if there is none. -/
def cof (T : ℚ) (i : Fin 4) : ℚ × Fin 4 :=
  match speed i with
  | some k => (T, k)
  | none => (0, i)

theorem pred_cof (q T : ℚ) (P : Cov4) (i j : Fin 4) :
    pred q T P i j = P i j + (cof T i).1 * P (cof T i).2 j + P i (cof T j).2 * (cof T j).1 +
      (cof T i).1 * P (cof T i).2 (cof T j).2 * (cof T j).1 + noiseX q T i j := by
  unfold pred
  congr 1
  fin_cases i <;> fin_cases j <;> simp [motion, cof, speed, Fin.sum_univ_four] <;> ring

theorem spread_cof (T : ℚ) (P : Cov4) (i : Fin 4) :
    spread T P i = P i i + (cof T i).1 ^ 2 * P (cof T i).2 (cof T i).2 := by
  fin_cases i <;> simp [spread, cof, speed]

theorem moveL_fac {q T : ℚ} {P : Cov4} (hs : SafePred q T P) (i j : Fin 4) :
    ∃ a b, Fac 2 a ∧ Fac 2 b ∧ moveL T P i j = P i j * a + (cof T i).1 * P (cof T i).2 j * b := by
  have h := (hs.2.2.2.2.2.2.2 i j).1
  unfold moveL cof
  cases hk : speed i with
  | none => exact ⟨1, 1, fac_one 2, fac_one 2, by simp⟩
  | some k =>
    obtain ⟨h1, h2⟩ := h k hk
    obtain ⟨f, hf, ef⟩ := fl_fac h1
    obtain ⟨g, hg, eg⟩ := fl_fac h2
    refine ⟨g, f * g, fac_up (by decide) hg, fac_mul' hf hg (by norm_num), ?_⟩
    simp only
    rw [eg, ef]
    ring

theorem moveR_fac {q T : ℚ} {P : Cov4} (hs : SafePred q T P) (i j : Fin 4) :
    ∃ a b, Fac 2 a ∧ Fac 2 b ∧ moveR T (moveL T P) i j =
      moveL T P i j * a + moveL T P i (cof T j).2 * (cof T j).1 * b := by
  have h := (hs.2.2.2.2.2.2.2 i j).2.1
  unfold moveR cof
  cases hk : speed j with
  | none => exact ⟨1, 1, fac_one 2, fac_one 2, by simp⟩
  | some k =>
    obtain ⟨h1, h2⟩ := h k hk
    obtain ⟨f, hf, ef⟩ := fl_fac h1
    obtain ⟨g, hg, eg⟩ := fl_fac h2
    refine ⟨g, f * g, fac_up (by decide) hg, fac_mul' hf hg (by norm_num), ?_⟩
    simp only
    rw [eg, ef]
    ring

/-- **C94 (error).**  If nothing over- or underflows, every entry of the predicted covariance is within
`2^-49` times the variances involved of `F P Fᵀ + Q`. -/
theorem C94_error {q T : ℚ} {P : Cov4} (hP : IsCov P) (hq : 0 ≤ q) (hT : 0 ≤ T)
    (hs : SafePred q T P) (i j : Fin 4) :
    |predictP q T P i j - pred q T P i j| ≤
      (spread T P i + spread T P j + noiseX q T i j) / 2 ^ 49 := by
  obtain ⟨a1, b1, ha1, hb1, e1⟩ := moveL_fac hs i j
  obtain ⟨a2, b2, ha2, hb2, e2⟩ := moveL_fac hs i (cof T j).2
  obtain ⟨g1, g2, hg1, hg2, e3⟩ := moveR_fac hs i j
  obtain ⟨f, hf, e4⟩ := noise_fac hs i j
  obtain ⟨h, hh, e5⟩ := fl_fac (hs.2.2.2.2.2.2.2 i j).2.2
  have hN := noiseX_nonneg hq hT i j
  rw [pred_cof, spread_cof, spread_cof]
  set c := (cof T i).1
  set k := (cof T i).2
  set d := (cof T j).1
  set l := (cof T j).2
  set N := noiseX q T i j
  have hp : predictP q T P i j = P i j * (a1 * g1 * h) + c * P k j * (b1 * g1 * h) +
      P i l * d * (a2 * g2 * h) + c * P k l * d * (b2 * g2 * h) + N * (f * h) := by
    unfold predictP
    rw [e5, e3, e1, e2, e4]
    ring
  have f1 := fac5 (fac_mul' (fac_mul ha1 hg1) hh (by norm_num))
  have f2 := fac5 (fac_mul' (fac_mul hb1 hg1) hh (by norm_num))
  have f3 := fac5 (fac_mul' (fac_mul ha2 hg2) hh (by norm_num))
  have f4 := fac5 (fac_mul' (fac_mul hb2 hg2) hh (by norm_num))
  have f5 := fac5 (fac_mul' hf hh (by norm_num))
  have t1 := term_le hP 1 1 i j
  have t2 := term_le hP c 1 k j
  have t3 := term_le hP 1 d i l
  have t4 := term_le hP c d k l
  have e : predictP q T P i j - (P i j + c * P k j + P i l * d + c * P k l * d + N) =
      P i j * (a1 * g1 * h - 1) + c * P k j * (b1 * g1 * h - 1) + P i l * d * (a2 * g2 * h - 1) +
      c * P k l * d * (b2 * g2 * h - 1) + N * (f * h - 1) := by
    rw [hp]; ring
  rw [e]
  have key : ∀ x y : ℚ, |y| ≤ 1 / 2 ^ 49 → |x * y| ≤ |x| * (1 / 2 ^ 49) := fun x y h => by
    rw [abs_mul]; exact mul_le_mul_of_nonneg_left h (abs_nonneg _)
  have k1 := key (P i j) _ f1
  have k2 := key (c * P k j) _ f2
  have k3 := key (P i l * d) _ f3
  have k4 := key (c * P k l * d) _ f4
  have k5 := key N _ f5
  rw [abs_of_nonneg hN] at k5
  simp only [one_mul, mul_one, one_pow] at t1 t2 t3 t4
  have h1 := abs_add_le (P i j * (a1 * g1 * h - 1)) (c * P k j * (b1 * g1 * h - 1))
  have h2 := abs_add_le (P i j * (a1 * g1 * h - 1) + c * P k j * (b1 * g1 * h - 1))
    (P i l * d * (a2 * g2 * h - 1))
  have h3 := abs_add_le (P i j * (a1 * g1 * h - 1) + c * P k j * (b1 * g1 * h - 1) +
    P i l * d * (a2 * g2 * h - 1)) (c * P k l * d * (b2 * g2 * h - 1))
  have h4 := abs_add_le (P i j * (a1 * g1 * h - 1) + c * P k j * (b1 * g1 * h - 1) +
    P i l * d * (a2 * g2 * h - 1) + c * P k l * d * (b2 * g2 * h - 1)) (N * (f * h - 1))
  clear_value c k d l N
  clear e hp
  rw [le_div_iff₀ (by positivity)]
  have hpos : (0 : ℚ) < 2 ^ 49 := by positivity
  have hm : |P i j| * (1 / 2 ^ 49) + |c * P k j| * (1 / 2 ^ 49) + |P i l * d| * (1 / 2 ^ 49) +
      |c * P k l * d| * (1 / 2 ^ 49) + N * (1 / 2 ^ 49) =
      (|P i j| + |c * P k j| + |P i l * d| + |c * P k l * d| + N) * (1 / 2 ^ 49) := by ring
  have hle : |P i j * (a1 * g1 * h - 1) + c * P k j * (b1 * g1 * h - 1) +
      P i l * d * (a2 * g2 * h - 1) + c * P k l * d * (b2 * g2 * h - 1) + N * (f * h - 1)| ≤
      (|P i j| + |c * P k j| + |P i l * d| + |c * P k l * d| + N) * (1 / 2 ^ 49) := by
    rw [← hm]; linarith
  calc _ ≤ (|P i j| + |c * P k j| + |P i l * d| + |c * P k l * d| + N) * (1 / 2 ^ 49) * 2 ^ 49 :=
        mul_le_mul_of_nonneg_right hle hpos.le
    _ = |P i j| + |c * P k j| + |P i l * d| + |c * P k l * d| + N := by
        rw [mul_assoc, one_div, inv_mul_cancel₀ hpos.ne', mul_one]
    _ ≤ _ := by linarith

/-- **C94 (mean).**  The predicted mean is within `3 * 2^-52` of `x + T v`, relative to both terms. -/
theorem C94_mean {T : ℚ} (x : Fin 4 → ℚ) (i k : Fin 4) (hk : speed i = some k) (h1 : Safe (T * x k))
    (h2 : Safe (x i + fl (T * x k))) :
    |predictX T x i - (x i + T * x k)| ≤ (|x i| + |T * x k|) * (3 / 2 ^ 52) := by
  obtain ⟨f, hf, ef⟩ := fl_fac h1
  obtain ⟨g, hg, eg⟩ := fl_fac h2
  have e : predictX T x i - (x i + T * x k) = x i * (g - 1) + T * x k * (f * g - 1) := by
    unfold predictX
    simp only [hk]
    rw [eg, ef]
    ring
  have k1 : |g - 1| ≤ 3 / 2 ^ 52 := by
    refine le_trans hg ?_
    unfold u
    norm_num
  have k2 : |f * g - 1| ≤ 3 / 2 ^ 52 := by
    refine le_trans (fac_mul hf hg) ?_
    unfold u
    norm_num
  rw [e, add_mul]
  refine (abs_add_le _ _).trans (add_le_add ?_ ?_) <;> rw [abs_mul]
  · exact mul_le_mul_of_nonneg_left k1 (abs_nonneg _)
  · exact mul_le_mul_of_nonneg_left k2 (abs_nonneg _)

theorem spread_nonneg {T : ℚ} {P : Cov4} (hP : IsCov P) (i : Fin 4) : 0 ≤ spread T P i := by
  rw [spread_cof]
  have h1 := psd_diag hP.2 i
  have h2 := psd_diag hP.2 (cof T i).2
  positivity

/-- The exact variance is at least the noise. -/
theorem pred_ge {q T : ℚ} {P : Cov4} (hP : IsCov P) (i : Fin 4) :
    noiseX q T i i ≤ pred q T P i i := by
  rw [pred_cof]
  have h := psd_two hP i (cof T i).2 1 (cof T i).1
  rw [hP.1 (cof T i).2 i]
  nlinarith

/-- **C94 (variances stay positive).**  If the noise of the step is not tiny beside the variance,
`q T³ / 3 ≥ 2^-47 (P_ii + T² P_kk)` with `k` the speed, the variance of the position is positive.  The
variance of the speed is positive if it was or if there is noise. -/
theorem C94_positive {q T : ℚ} {P : Cov4} (hP : IsCov P) (hq : 0 ≤ q) (hT : 0 ≤ T)
    (hs : SafePred q T P) (i : Fin 4) :
    (0 < q → 0 < T → spread T P i / 2 ^ 47 ≤ noiseX q T i i → 0 < predictP q T P i i) ∧
    ((i = 2 ∨ i = 3) → 0 < P i i + q * T → 0 < predictP q T P i i) := by
  have he := abs_le.1 (C94_error hP hq hT hs i i)
  have hsp := spread_nonneg (T := T) hP i
  have hN := noiseX_nonneg hq hT i i
  constructor
  · intro q0 T0 h
    have hN0 : 0 < noiseX q T i i := by
      have h1 : 0 < q * T ^ 3 / 3 := by positivity
      have h2 : 0 < q * T := by positivity
      have h3 : 0 < q * T ^ 3 := by positivity
      fin_cases i <;> simp [noiseX] <;> assumption
    have hge := pred_ge (q := q) (T := T) hP i
    generalize predictP q T P i i = a at *
    generalize pred q T P i i = b at *
    generalize spread T P i = c at *
    generalize noiseX q T i i = d at *
    rw [div_le_iff₀ (by positivity)] at h
    have h3 := he.1
    have h4 : (c + c + d) / 2 ^ 49 ≤ 3 / 4 * d := by
      rw [div_le_iff₀ (by positivity)]
      norm_num at h ⊢
      linarith
    linarith
  · intro hi h
    have e1 : pred q T P i i = P i i + q * T := by
      rw [pred_cof]
      rcases hi with rfl | rfl <;> simp [cof, speed, noiseX]
    have e2 : spread T P i = P i i := by rcases hi with rfl | rfl <;> simp [spread]
    have e3 : noiseX q T i i = q * T := by rcases hi with rfl | rfl <;> simp [noiseX]
    rw [e1, e2, e3] at he
    have hP0 := psd_diag hP.2 i
    have hqT : 0 ≤ q * T := by positivity
    have h3 := he.1
    have h4 : (P i i + P i i + q * T) / 2 ^ 49 ≤ (P i i + q * T) / 2 := by
      rw [div_le_div_iff₀ (by positivity) (by positivity)]
      norm_num
      linarith
    linarith

/-- **C94 (symmetry).**  All pairs of entries but one stay equal bit by bit: only the covariance of the
two coordinates of the position can differ from its transpose. -/
theorem C94_symmetric {q T : ℚ} {P : Cov4} (hP : ∀ i j, P i j = P j i) (i j : Fin 4)
    (h : ¬ (i = 0 ∧ j = 1)) (h' : ¬ (i = 1 ∧ j = 0)) :
    predictP q T P i j = predictP q T P j i := by
  unfold predictP moveR moveL noise
  fin_cases i <;> fin_cases j <;> simp_all [speed] <;>
    simp only [hP 1 0, hP 2 0, hP 3 0, hP 2 1, hP 3 1, hP 3 2, mul_comm T]

/-- **C94 (`NM`).**  Without noise `NM` leaves the covariance as it is, bit by bit. -/
theorem C94_nm {P : Cov4} (i j : Fin 4) (h : LapF.IsDouble (P i j)) (hb : |P i j| ≤ 2 ^ 1000) :
    predictNM (fun _ _ => 0) P i j = P i j := by
  unfold predictNM
  rw [add_zero, fl_double h hb]

/-! ## Concrete cases -/

/-- **C94 (variances can turn negative, refuted).**  Without noise: a target known to eight metres, its
speed to 1.1 metres per second, and the error of one undone by the error of the other in seven seconds.
The variance computed for its place then is negative. -/
theorem C94_positive_refuted :
    ∃ P : Cov4, IsCov P ∧ SafePred 0 7 P ∧ P 0 0 ≤ 150 ∧ 0 ≤ pred 0 7 P 0 0 ∧
      predictP 0 7 P 0 0 < 0 :=
  ⟨mk (72402660103676530 / 2 ^ 50) 1 (1477605308238295 / 2 ^ 50) 1 0 (-10343237157668070 / 2 ^ 50),
    mk_cov (by norm_num) (by norm_num) (by norm_num) (by norm_num), by decide +kernel,
    by decide +kernel, by decide +kernel, by decide +kernel⟩

/-- Equal variances; the second coordinate of the position is correlated with the first of the speed,
and the speeds with each other. -/
def exTwist : Cov4 := fun i j =>
  (![![9, 0, 0, 0], ![0, 9, -3, 0], ![0, -3, 9, 1], ![0, 0, 1, 9]] : Fin 4 → Fin 4 → ℚ) i j

theorem exTwist_cov : IsCov exTwist := by
  refine ⟨fun i j => by fin_cases i <;> fin_cases j <;> rfl, fun y => ?_⟩
  simp only [Fin.sum_univ_four, exTwist]
  simp
  nlinarith [sq_nonneg (y 1 - y 2), sq_nonneg (y 2 + y 3), sq_nonneg (y 0), sq_nonneg (y 1),
    sq_nonneg (y 2), sq_nonneg (y 3)]

/-- **C94 (the covariance stays symmetric, refuted).**  After a tenth of a second the two computed
covariances of the coordinates differ. -/
theorem C94_symmetric_refuted :
    ∃ (P : Cov4) (T : ℚ), IsCov P ∧ LapF.IsDouble T ∧ SafePred 1 T P ∧
      predictP 1 T P 0 1 < predictP 1 T P 1 0 :=
  ⟨exTwist, 3602879701896397 / 36028797018963968, exTwist_cov,
    ⟨3602879701896397, -55, by norm_num, by norm_num, by norm_num, by norm_num⟩, by decide +kernel, by decide +kernel⟩

example := C94_error exTwist_cov (q := 1) (T := 1 / 2) (by norm_num) (by norm_num) (by decide +kernel) 0 1
example : 0 < predictP 1 (1 / 2) exTwist 0 0 :=
  (C94_positive exTwist_cov (by norm_num) (by norm_num) (by decide +kernel) 0).1 (by norm_num)
    (by norm_num) (by decide +kernel)
example : 0 < predictP 0 (1 / 2) exTwist 2 2 :=
  (C94_positive exTwist_cov (by norm_num) (by norm_num) (by decide +kernel) 2).2 (Or.inl rfl)
    (by decide +kernel)
example := C94_symmetric (q := 1) (T := 1 / 2) exTwist_cov.1 1 2 (by decide) (by decide)
example := C94_mean (T := 1 / 10) ![1, 2, 3, 4] 0 2 rfl (by decide +kernel) (by decide +kernel)
example : predictNM (fun _ _ => 0) exTwist 1 2 = -3 :=
  C94_nm 1 2 ⟨-3, 0, by simp [exTwist], by norm_num, by norm_num, by norm_num⟩
    (by decide +kernel)

end Verif.KalmanF

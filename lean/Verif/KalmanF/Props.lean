import Verif.KalmanF.Err

/-!
# C87: the covariance after a measurement update in `double` arithmetic

The exact posterior covariance is `P - P Hᵀ (H P Hᵀ + R)⁻¹ H P`.  The number that governs the error is
`kappa`: the product of the innovation variances over the determinant of the innovation covariance
(1 if the two coordinates are uncorrelated, `1 / (1 - ρ²)` for correlation `ρ`).
-/

namespace Verif.KalmanF

open Verif.GMF (fl fl_err fl_zero)

/-! ## The exact update -/

/-- The quadratic form of a covariance is not negative. -/
def Psd {n : Nat} (P : Fin n → Fin n → ℚ) : Prop := ∀ y : Fin n → ℚ, 0 ≤ ∑ i, ∑ j, y i * P i j * y j

/-- A covariance: symmetric, not negative. -/
def IsCov {n : Nat} (P : Fin n → Fin n → ℚ) : Prop := (∀ i j, P i j = P j i) ∧ Psd P

/-- The innovation variances and covariance. -/
def s0 (P : Cov4) (R : Cov2) : ℚ := P 0 0 + R 0 0
def s1 (P : Cov4) (R : Cov2) : ℚ := P 1 1 + R 1 1
def sx (P : Cov4) (R : Cov2) : ℚ := P 0 1 + R 0 1

/-- The determinant of the innovation covariance. -/
def det (P : Cov4) (R : Cov2) : ℚ := s0 P R * s1 P R - sx P R ^ 2

/-- The condition of the innovation covariance. -/
def kappa (P : Cov4) (R : Cov2) : ℚ := s0 P R * s1 P R / det P R

/-- Entry `i`, `j` of `P Hᵀ (H P Hᵀ + R)⁻¹ H P`. -/
def gstar (P : Cov4) (R : Cov2) (i j : Fin 4) : ℚ :=
  (s1 P R * P i 0 * P 0 j - sx P R * P i 0 * P 1 j - sx P R * P i 1 * P 0 j +
    s0 P R * P i 1 * P 1 j) / det P R

/-- The exact posterior covariance. -/
def post (P : Cov4) (R : Cov2) (i j : Fin 4) : ℚ := P i j - gstar P R i j

theorem psd_diag {n : Nat} {P : Fin n → Fin n → ℚ} (h : Psd P) (i : Fin n) : 0 ≤ P i i := by
  have := h (Pi.single i 1)
  simpa [Pi.single_apply] using this

/-- The form on a combination of two axes. -/
theorem psd_two {n : Nat} {P : Fin n → Fin n → ℚ} (h : IsCov P) (i j : Fin n) (a b : ℚ) :
    0 ≤ a ^ 2 * P i i + 2 * a * b * P i j + b ^ 2 * P j j := by
  have := h.2 (fun k => a * (if k = i then 1 else 0) + b * (if k = j then 1 else 0))
  simp only [add_mul, mul_add, Finset.sum_add_distrib, mul_ite, ite_mul, mul_one, mul_zero, zero_mul,
    Finset.sum_ite_eq', Finset.mem_univ, if_true] at this
  rw [h.1 j i] at this
  linarith

/-- The form on a combination of three axes. -/
theorem psd_three {n : Nat} {P : Fin n → Fin n → ℚ} (h : IsCov P) (i j k : Fin n) (a b c : ℚ) :
    0 ≤ a ^ 2 * P i i + b ^ 2 * P j j + c ^ 2 * P k k + 2 * a * b * P i j + 2 * a * c * P i k +
      2 * b * c * P j k := by
  have := h.2 (fun l => a * (if l = i then 1 else 0) + b * (if l = j then 1 else 0) +
    c * (if l = k then 1 else 0))
  simp only [add_mul, mul_add, Finset.sum_add_distrib, mul_ite, ite_mul, mul_one, mul_zero, zero_mul,
    Finset.sum_ite_eq', Finset.mem_univ, if_true] at this
  rw [h.1 j i, h.1 k i, h.1 k j] at this
  linarith

theorem cov_cs {n : Nat} {P : Fin n → Fin n → ℚ} (h : IsCov P) (i j : Fin n) :
    P i j ^ 2 ≤ P i i * P j j := by
  have hi := psd_diag h.2 i
  have hj := psd_diag h.2 j
  rcases hj.eq_or_lt with h0 | h0
  · have hz : P i j = 0 := by
      by_contra hne
      have h1 := psd_two h i j (-P i j) (P i i * P i j ^ 2 + 1)
      rw [← h0] at h1
      have h2 := psd_two h i j (P i j) (-(P i i + 1))
      rw [← h0] at h2
      have h3 : 0 < P i j ^ 2 := by positivity
      have h4 : 0 ≤ P i i * P i j ^ 2 := by positivity
      linarith
    rw [hz, ← h0]
    simp
  · have h1 := psd_two h i j (P j j) (-P i j)
    have h2 : 0 ≤ P j j * (P i i * P j j - P i j ^ 2) := by linarith
    have h3 := nonneg_of_mul_nonneg_right h2 h0
    linarith

variable {P : Cov4} {R : Cov2}

theorem s0_ge (hR : IsCov R) : P 0 0 ≤ s0 P R := by
  have := psd_diag hR.2 0
  unfold s0
  linarith

theorem s1_ge (hR : IsCov R) : P 1 1 ≤ s1 P R := by
  have := psd_diag hR.2 1
  unfold s1
  linarith

/-- The innovation variances are positive where the determinant is. -/
theorem s_pos (hP : IsCov P) (hR : IsCov R) (hd : 0 < det P R) : 0 < s0 P R ∧ 0 < s1 P R := by
  have h0 : 0 ≤ s0 P R := (psd_diag hP.2 0).trans (s0_ge hR)
  have h1 : 0 ≤ s1 P R := (psd_diag hP.2 1).trans (s1_ge hR)
  have h2 : 0 < s0 P R * s1 P R := by
    have := sq_nonneg (sx P R)
    unfold det at hd
    linarith
  exact ⟨pos_of_mul_pos_left h2 h1, pos_of_mul_pos_right h2 h0⟩

/-- The variance removed by the update is at most the variance. -/
theorem gstar_diag (hP : IsCov P) (hR : IsCov R) (hd : 0 < det P R) (i : Fin 4) :
    0 ≤ gstar P R i i ∧ gstar P R i i ≤ P i i := by
  obtain ⟨p0, p1⟩ := s_pos hP hR hd
  have e0 : P 0 i = P i 0 := hP.1 0 i
  have e1 : P 1 i = P i 1 := hP.1 1 i
  unfold gstar
  rw [e0, e1]
  have hdet : det P R = s0 P R * s1 P R - sx P R ^ 2 := rfl
  set Q := s1 P R * P i 0 * P i 0 - sx P R * P i 0 * P i 1 - sx P R * P i 1 * P i 0 +
    s0 P R * P i 1 * P i 1 with hQ
  constructor
  · apply div_nonneg _ hd.le
    have h1 : 0 ≤ s0 P R * Q := by
      have : s0 P R * Q = (s0 P R * P i 1 - sx P R * P i 0) ^ 2 + det P R * P i 0 ^ 2 := by
        rw [hQ, hdet]; ring
      rw [this]
      exact add_nonneg (sq_nonneg _) (mul_nonneg hd.le (sq_nonneg _))
    exact nonneg_of_mul_nonneg_right h1 p0
  · rw [div_le_iff₀ hd]
    set c0 := -(s1 P R * P i 0 - sx P R * P i 1) with hc0
    set c1 := -(s0 P R * P i 1 - sx P R * P i 0) with hc1
    have h1 := psd_three hP 0 1 i c0 c1 (det P R)
    have h2 := psd_two hR 0 1 c0 c1
    rw [e0, e1] at h1
    have h3 : c0 ^ 2 * s0 P R + 2 * c0 * c1 * sx P R + c1 ^ 2 * s1 P R = det P R * Q := by
      rw [hc0, hc1, hQ, hdet]; ring
    have h4 : c0 * P i 0 + c1 * P i 1 = -Q := by rw [hc0, hc1, hQ]; ring
    have h5 : 0 ≤ det P R * Q + 2 * det P R * (-Q) + det P R ^ 2 * P i i := by
      rw [← h3, ← h4]
      have g0 : s0 P R = P 0 0 + R 0 0 := rfl
      have g1 : s1 P R = P 1 1 + R 1 1 := rfl
      have gx : sx P R = P 0 1 + R 0 1 := rfl
      rw [g0, g1, gx]
      linarith
    have h6 : 0 ≤ det P R * (P i i * det P R - Q) := by linarith
    have := nonneg_of_mul_nonneg_right h6 hd
    linarith

/-- The entries of what the update removes. -/
theorem gstar_bd (hP : IsCov P) (hR : IsCov R) (hd : 0 < det P R) (i j : Fin 4) :
    Bd (P i i * P j j) 1 (gstar P R i j) := by
  refine ⟨zero_le_one, ?_⟩
  rw [one_pow, one_mul]
  obtain ⟨i0, i1⟩ := gstar_diag hP hR hd i
  obtain ⟨j0, j1⟩ := gstar_diag hP hR hd j
  refine le_trans ?_ (mul_le_mul i1 j1 j0 (psd_diag hP.2 i))
  obtain ⟨p0, p1⟩ := s_pos hP hR hd
  have e0 : P 0 i = P i 0 := hP.1 0 i
  have e1 : P 1 i = P i 1 := hP.1 1 i
  have f0 : P j 0 = P 0 j := hP.1 j 0
  have f1 : P j 1 = P 1 j := hP.1 j 1
  unfold gstar
  rw [e0, e1, f0, f1, div_mul_div_comm, div_pow, sq (det P R)]
  apply div_le_div_of_nonneg_right _ (mul_nonneg hd.le hd.le)
  have hdet : det P R = s0 P R * s1 P R - sx P R ^ 2 := rfl
  have key : 0 ≤ det P R * (P i 0 * P 1 j - P i 1 * P 0 j) ^ 2 :=
    mul_nonneg hd.le (sq_nonneg _)
  rw [hdet] at key
  linarith

/-- The terms of what the update removes. -/
theorem term_bd (hP : IsCov P) {s t D k : ℚ} {l m : Fin 4} (hs : P l l ≤ s) (ht : P m m ≤ t)
    (hk : 0 ≤ k) (hD : D ^ 2 * (s * t) ≤ k ^ 2) (i j : Fin 4) :
    Bd (P i i * P j j) k (P i l * D * P m j) := by
  refine ⟨hk, ?_⟩
  have hi := psd_diag hP.2 i
  have hj := psd_diag hP.2 j
  have h1 : P i l ^ 2 ≤ P i i * s := (cov_cs hP i l).trans (mul_le_mul_of_nonneg_left hs hi)
  have h2 : P m j ^ 2 ≤ t * P j j := (cov_cs hP m j).trans (mul_le_mul_of_nonneg_right ht hj)
  have h3 : P i l ^ 2 * P m j ^ 2 ≤ P i i * s * (t * P j j) :=
    mul_le_mul h1 h2 (sq_nonneg _) ((sq_nonneg _).trans h1)
  calc (P i l * D * P m j) ^ 2 = D ^ 2 * (P i l ^ 2 * P m j ^ 2) := by ring
    _ ≤ D ^ 2 * (P i i * s * (t * P j j)) := mul_le_mul_of_nonneg_left h3 (sq_nonneg _)
    _ = D ^ 2 * (s * t) * (P i i * P j j) := by ring
    _ ≤ k ^ 2 * (P i i * P j j) := mul_le_mul_of_nonneg_right hD (mul_nonneg hi hj)

/-! ## The rounded update -/

/-- No operation of the update overflows or underflows. -/
def SafeUpdate (P : Cov4) (R : Cov2) : Prop :=
  let S := innov P R
  let D := inv2 S
  let K := gain P D
  Safe (s0 P R) ∧ Safe (s1 P R) ∧ Safe (sx P R) ∧ Safe (S 0 0 * S 1 1) ∧ Safe (S 1 0 * S 0 1) ∧
  Safe (fl (S 0 0 * S 1 1) - fl (S 1 0 * S 0 1)) ∧ Safe (1 / det2 S) ∧
  Safe (S 1 1 * fl (1 / det2 S)) ∧ Safe (-S 0 1 * fl (1 / det2 S)) ∧
  Safe (-S 1 0 * fl (1 / det2 S)) ∧ Safe (S 0 0 * fl (1 / det2 S)) ∧
  (∀ i l, Safe (P i 0 * D 0 l) ∧ Safe (P i 1 * D 1 l) ∧
    Safe (fl (P i 0 * D 0 l) + fl (P i 1 * D 1 l))) ∧
  (∀ i j, Safe (K i 0 * P 0 j) ∧ Safe (K i 1 * P 1 j) ∧
    Safe (fl (K i 0 * P 0 j) + fl (K i 1 * P 1 j)) ∧ Safe (P i j - khp P K i j))

instance (P : Cov4) (R : Cov2) : Decidable (SafeUpdate P R) := by
  unfold SafeUpdate; infer_instance

/-- The determinant is computed up to a multiple of the product of the variances. -/
theorem det_err {a b c f0 f1 fx fy g1 g2 g3 : ℚ} (hab : 0 ≤ a * b) (hc : c ^ 2 ≤ a * b)
    (h0 : Fac 1 f0) (h1 : Fac 1 f1) (hx : Fac 1 fx) (hy : Fac 1 fy) (k1 : Fac 1 g1) (k2 : Fac 1 g2)
    (k3 : Fac 1 g3) :
    |(a * f0 * (b * f1) * g1 - c * fy * (c * fx) * g2) * g3 - (a * b - c ^ 2)| ≤ 9 * u * (a * b) := by
  have e1 : Fac 4 (f0 * f1 * g1 * g3) := fac_mul' (fac_mul (fac_mul h0 h1) k1) k3 (by norm_num)
  have e2 : Fac 4 (fy * fx * g2 * g3) := fac_mul' (fac_mul (fac_mul hy hx) k2) k3 (by norm_num)
  have e3 : (a * f0 * (b * f1) * g1 - c * fy * (c * fx) * g2) * g3 - (a * b - c ^ 2) =
      a * b * (f0 * f1 * g1 * g3 - 1) - c ^ 2 * (fy * fx * g2 * g3 - 1) := by ring
  rw [e3]
  have hu : (1 + u) ^ 4 - 1 ≤ 9 / 2 * u := by unfold u; norm_num
  have b1 : |a * b * (f0 * f1 * g1 * g3 - 1)| ≤ a * b * (9 / 2 * u) := by
    rw [abs_mul, abs_of_nonneg hab]
    exact mul_le_mul_of_nonneg_left (e1.trans hu) hab
  have b2 : |c ^ 2 * (fy * fx * g2 * g3 - 1)| ≤ a * b * (9 / 2 * u) := by
    rw [abs_mul, abs_of_nonneg (sq_nonneg c)]
    exact mul_le_mul hc (e2.trans hu) (abs_nonneg _) hab
  have := abs_sub (a * b * (f0 * f1 * g1 * g3 - 1)) (c ^ 2 * (fy * fx * g2 * g3 - 1))
  linarith

/-- The reciprocal of the determinant: a factor common to all entries of the inverse. -/
theorem recip_err {d dt k g : ℚ} (hd : 0 < d) (hk : 1 ≤ k) (hk2 : k * u ≤ 1 / 2 ^ 10)
    (hdt : |dt - d| ≤ 9 * u * (k * d)) (hg : Fac 1 g) :
    dt ≠ 0 ∧ |1 / dt * g * d - 1| ≤ 11 * (k * u) := by
  have hku : 0 ≤ k * u := mul_nonneg (by linarith) u_pos.le
  obtain ⟨h1, h2⟩ := abs_le.1 hdt
  have h3 : d * (1 - 9 * (k * u)) ≤ dt := by linarith
  have h4 : (0.99 : ℚ) ≤ 1 - 9 * (k * u) := by
    have : 9 * (k * u) ≤ 9 * (1 / 2 ^ 10) := by linarith
    norm_num at this ⊢
    linarith
  have h5 : 0.99 * d ≤ dt := by
    have := mul_le_mul_of_nonneg_left h4 hd.le
    linarith
  have hpos : 0 < dt := lt_of_lt_of_le (by positivity) h5
  refine ⟨hpos.ne', ?_⟩
  have h6 : |d / dt - 1| ≤ 9.1 * (k * u) := by
    have : d / dt - 1 = -((dt - d) / dt) := by field_simp; ring
    rw [this, abs_neg, abs_div, abs_of_pos hpos, div_le_iff₀ hpos]
    refine hdt.trans ?_
    have := mul_le_mul_of_nonneg_left h5 (mul_nonneg (by norm_num : (0:ℚ) ≤ 9.1) hku)
    have h7 : 0 ≤ k * u * d := mul_nonneg hku hd.le
    linarith
  have hg' : |g - 1| ≤ u := by
    have := hg
    unfold Fac at this
    rw [pow_one] at this
    linarith
  have h8 : 1 / dt * g * d - 1 = d / dt * (g - 1) + (d / dt - 1) := by field_simp; ring
  rw [h8]
  refine (abs_add_le _ _).trans ?_
  rw [abs_mul]
  have h9 : |d / dt| ≤ 1.1 := by
    rw [abs_of_pos (div_pos hd hpos), div_le_iff₀ hpos]
    linarith
  have h10 : |d / dt| * |g - 1| ≤ 1.1 * u := mul_le_mul h9 hg' (abs_nonneg _) (by norm_num)
  have h11 : u ≤ k * u := le_mul_of_one_le_left u_pos.le hk
  linarith

/-- A sum of four terms with a common factor and rounding errors. -/
theorem sum_err {M k q G t1 t2 t3 t4 f1 f2 f3 f4 p g : ℚ} (hM : 0 ≤ M) (hk : 1 ≤ k)
    (hk2 : k * u ≤ 1 / 2 ^ 10) (hq : |q - 1| ≤ 11 * (k * u)) (hG : G = t1 + t2 + t3 + t4)
    (hGb : Bd M 1 G) (b1 : Bd M k t1) (b2 : Bd M k t2) (b3 : Bd M k t3) (b4 : Bd M k t4)
    (k1 : Fac 6 f1) (k2 : Fac 6 f2) (k3 : Fac 6 f3) (k4 : Fac 6 f4) (hp : Bd M 1 p) (hg : Fac 1 g) :
    Bd M (64 * (k * u)) ((p - q * (t1 * f1 + t2 * f2 + t3 * f3 + t4 * f4)) * g - (p - G)) := by
  have hku : 0 ≤ k * u := mul_nonneg (by linarith) u_pos.le
  have h6 : (1 + u) ^ 6 - 1 ≤ 7 * u := by unfold u; norm_num
  have c1 := b1.mul hM (k1.trans h6)
  have c2 := b2.mul hM (k2.trans h6)
  have c3 := b3.mul hM (k3.trans h6)
  have c4 := b4.mul hM (k4.trans h6)
  have cs := ((c1.add hM c2).add hM c3).add hM c4
  have hq' : |q| ≤ 1.1 := by
    have : q = (q - 1) + 1 := by ring
    rw [this]
    refine (abs_add_le _ _).trans ?_
    rw [abs_one]
    have : 11 * (k * u) ≤ 11 * (1 / 2 ^ 10) := by linarith
    norm_num at this ⊢
    linarith
  have e1 := cs.mul hM hq'
  have e2 := hGb.mul hM hq
  have e := (e1.add hM e2).up (b := 43 * (k * u)) hM (by
    have : k * (7 * u) = 7 * (k * u) := by ring
    rw [this]
    linarith)
  -- the error before the last operation
  have he : q * (t1 * f1 + t2 * f2 + t3 * f3 + t4 * f4) - G =
      (t1 * (f1 - 1) + t2 * (f2 - 1) + t3 * (f3 - 1) + t4 * (f4 - 1)) * q + G * (q - 1) := by
    rw [hG]; ring
  rw [← he] at e
  have hg' : |g - 1| ≤ u := by
    have := hg
    unfold Fac at this
    rw [pow_one] at this
    linarith
  have d1 := (hp.add hM hGb.neg).add hM e.neg
  have d2 := (d1.mul hM hg').add hM e.neg
  have hring : (p - q * (t1 * f1 + t2 * f2 + t3 * f3 + t4 * f4)) * g - (p - G) =
      (p + -G + -(q * (t1 * f1 + t2 * f2 + t3 * f3 + t4 * f4) - G)) * (g - 1) +
      -(q * (t1 * f1 + t2 * f2 + t3 * f3 + t4 * f4) - G) := by ring
  rw [hring]
  refine d2.up hM ?_
  · have h11 : u ≤ k * u := le_mul_of_one_le_left u_pos.le hk
    have h12 : 43 * (k * u) * u ≤ 1 * u := by
      apply mul_le_mul_of_nonneg_right _ u_pos.le
      have : 43 * (k * u) ≤ 43 * (1 / 2 ^ 10) := by linarith
      norm_num at this ⊢
      linarith
    have : (1 + 1 + 43 * (k * u)) * u = 2 * u + 43 * (k * u) * u := by ring
    rw [this]
    linarith

/-- **C87 (what rounding does to the covariance).**  Where no operation over- or underflows and the
condition of the innovation covariance is at most `2^40`, every entry of the computed covariance
differs from the exact one by at most `kappa / 2^46` times the prior standard deviations of its row and
column. -/
theorem C87_error (hP : IsCov P) (hR : IsCov R) (hd : 0 < det P R) (hk : kappa P R ≤ 2 ^ 40)
    (hs : SafeUpdate P R) (i j : Fin 4) :
    (correctP P R i j - post P R i j) ^ 2 ≤ (kappa P R / 2 ^ 46) ^ 2 * (P i i * P j j) := by
  obtain ⟨p0, p1⟩ := s_pos hP hR hd
  have hdet : det P R = s0 P R * s1 P R - sx P R ^ 2 := rfl
  have hkd : kappa P R * det P R = s0 P R * s1 P R := by unfold kappa; field_simp
  have hk1 : 1 ≤ kappa P R := by
    unfold kappa
    rw [one_le_div hd, hdet]
    have := sq_nonneg (sx P R)
    linarith
  have hk2 : kappa P R * u ≤ 1 / 2 ^ 10 := by
    refine (mul_le_mul_of_nonneg_right hk u_pos.le).trans ?_
    unfold u; norm_num
  have hab : 0 ≤ s0 P R * s1 P R := (mul_pos p0 p1).le
  have hc : sx P R ^ 2 ≤ s0 P R * s1 P R := by linarith
  obtain ⟨q0, q1, qx, q2, q3, q4, q5, q6, q7, q8, q9, q10, q11⟩ := hs
  -- the innovation covariance
  obtain ⟨f0, h0, e0⟩ := fl_fac q0
  obtain ⟨f1, h1, e1⟩ := fl_fac q1
  obtain ⟨fx, hx, ex⟩ := fl_fac qx
  have i00 : innov P R 0 0 = s0 P R * f0 := e0
  have i11 : innov P R 1 1 = s1 P R * f1 := e1
  have i01 : innov P R 0 1 = sx P R * fx := ex
  have i10 : innov P R 1 0 = sx P R * fx := by
    rw [← i01]
    show fl (P 1 0 + R 1 0) = fl (P 0 1 + R 0 1)
    rw [hP.1 1 0, hR.1 1 0]
  -- the determinant
  obtain ⟨g1, k1, d1⟩ := fl_fac q2
  obtain ⟨g2, k2, d2⟩ := fl_fac q3
  obtain ⟨g3, k3, d3⟩ := fl_fac q4
  have hdt : det2 (innov P R) =
      (s0 P R * f0 * (s1 P R * f1) * g1 - sx P R * fx * (sx P R * fx) * g2) * g3 := by
    unfold det2
    rw [d3, d1, d2, i00, i11, i01, i10]
  have hde := det_err hab hc h0 h1 hx hx k1 k2 k3
  rw [← hdt, ← hdet, ← hkd] at hde
  obtain ⟨g4, k4, d4⟩ := fl_fac q5
  obtain ⟨-, hq⟩ := recip_err hd hk1 hk2 hde k4
  rw [← d4] at hq
  set v := fl (1 / det2 (innov P R)) with hv
  -- the inverse
  obtain ⟨w0, x0, y0⟩ := fl_fac q6
  obtain ⟨w1, x1, y1⟩ := fl_fac q7
  obtain ⟨w2, x2, y2⟩ := fl_fac q8
  obtain ⟨w3, x3, y3⟩ := fl_fac q9
  have D00 : inv2 (innov P R) 0 0 = s1 P R * v * (f1 * w0) := by
    show fl (innov P R 1 1 * v) = _
    rw [y0, i11]; ring
  have D01 : inv2 (innov P R) 0 1 = -sx P R * v * (fx * w1) := by
    show fl (-innov P R 0 1 * v) = _
    rw [y1, i01]; ring
  have D10 : inv2 (innov P R) 1 0 = -sx P R * v * (fx * w2) := by
    show fl (-innov P R 1 0 * v) = _
    rw [y2, i10]; ring
  have D11 : inv2 (innov P R) 1 1 = s0 P R * v * (f0 * w3) := by
    show fl (innov P R 0 0 * v) = _
    rw [y3, i00]; ring
  -- the gain
  obtain ⟨a0, r0, z0⟩ := fl_fac (q10 i 0).1
  obtain ⟨a1, r1, z1⟩ := fl_fac (q10 i 0).2.1
  obtain ⟨a2, r2, z2⟩ := fl_fac (q10 i 0).2.2
  obtain ⟨a3, r3, z3⟩ := fl_fac (q10 i 1).1
  obtain ⟨a4, r4, z4⟩ := fl_fac (q10 i 1).2.1
  obtain ⟨a5, r5, z5⟩ := fl_fac (q10 i 1).2.2
  have K0 : gain P (inv2 (innov P R)) i 0 = (P i 0 * (s1 P R * v * (f1 * w0)) * a0 +
      P i 1 * (-sx P R * v * (fx * w2)) * a1) * a2 := by
    unfold gain
    rw [z2, z0, z1, D00, D10]
  have K1 : gain P (inv2 (innov P R)) i 1 = (P i 0 * (-sx P R * v * (fx * w1)) * a3 +
      P i 1 * (s0 P R * v * (f0 * w3)) * a4) * a5 := by
    unfold gain
    rw [z5, z3, z4, D01, D11]
  -- the product
  obtain ⟨b0, t0, c0⟩ := fl_fac (q11 i j).1
  obtain ⟨b1, t1, c1⟩ := fl_fac (q11 i j).2.1
  obtain ⟨b2, t2, c2⟩ := fl_fac (q11 i j).2.2.1
  obtain ⟨b3, t3, c3⟩ := fl_fac (q11 i j).2.2.2
  have hpost : correctP P R i j = (P i j - v * det P R *
      (P i 0 * (s1 P R / det P R) * P 0 j * (f1 * w0 * a0 * a2 * b0 * b2) +
       P i 1 * (-sx P R / det P R) * P 0 j * (fx * w2 * a1 * a2 * b0 * b2) +
       P i 0 * (-sx P R / det P R) * P 1 j * (fx * w1 * a3 * a5 * b1 * b2) +
       P i 1 * (s0 P R / det P R) * P 1 j * (f0 * w3 * a4 * a5 * b1 * b2))) * b3 := by
    unfold correctP
    rw [c3]
    unfold khp
    rw [c2, c0, c1, K0, K1]
    congr 2
    have hne := hd.ne'
    generalize det P R = d at hne
    field_simp
    ring
  have F : ∀ {z1 z2 z3 z4 z5 z6 : ℚ}, Fac 1 z1 → Fac 1 z2 → Fac 1 z3 → Fac 1 z4 → Fac 1 z5 → Fac 1 z6 →
      Fac 6 (z1 * z2 * z3 * z4 * z5 * z6) := fun o1 o2 o3 o4 o5 o6 =>
    fac_mul' (fac_mul (fac_mul (fac_mul (fac_mul o1 o2) o3) o4) o5) o6 (by norm_num)
  have hM : 0 ≤ P i i * P j j := mul_nonneg (psd_diag hP.2 i) (psd_diag hP.2 j)
  have hk0 : 0 ≤ kappa P R := zero_le_one.trans hk1
  have hkk : ∀ {D X : ℚ}, D ^ 2 * X = s0 P R * s1 P R * (s0 P R * s1 P R) / det P R ^ 2 →
      D ^ 2 * X ≤ kappa P R ^ 2 := by
    intro D X h
    rw [h]
    unfold kappa
    rw [div_pow, sq (s0 P R * s1 P R)]
  have T0 := term_bd hP (l := 0) (m := 0) (D := s1 P R / det P R) (s0_ge hR) (s0_ge hR) hk0
    (hkk (by rw [div_pow]; ring)) i j
  have T3 := term_bd hP (l := 1) (m := 1) (D := s0 P R / det P R) (s1_ge hR) (s1_ge hR) hk0
    (hkk (by rw [div_pow]; ring)) i j
  have hx2 : (-sx P R / det P R) ^ 2 * (s0 P R * s1 P R) ≤ kappa P R ^ 2 := by
    unfold kappa
    rw [div_pow, div_pow, div_mul_eq_mul_div, neg_sq]
    apply div_le_div_of_nonneg_right _ (sq_nonneg _)
    rw [sq (s0 P R * s1 P R)]
    exact mul_le_mul_of_nonneg_right hc hab
  have T1 := term_bd hP (l := 1) (m := 0) (D := -sx P R / det P R) (s1_ge hR) (s0_ge hR) hk0
    (by rw [mul_comm (s1 P R)]; exact hx2) i j
  have T2 := term_bd hP (l := 0) (m := 1) (D := -sx P R / det P R) (s0_ge hR) (s1_ge hR) hk0 hx2 i j
  have hG : gstar P R i j = P i 0 * (s1 P R / det P R) * P 0 j +
       P i 1 * (-sx P R / det P R) * P 0 j + P i 0 * (-sx P R / det P R) * P 1 j +
       P i 1 * (s0 P R / det P R) * P 1 j := by
    unfold gstar; ring
  have hp : Bd (P i i * P j j) 1 (P i j) := ⟨zero_le_one, by
    rw [one_pow, one_mul]; exact cov_cs hP i j⟩
  have := sum_err hM hk1 hk2 hq hG (gstar_bd hP hR hd i j) T0 T1 T2 T3 (F h1 x0 r0 r2 t0 t2)
    (F hx x2 r1 r2 t0 t2) (F hx x1 r3 r5 t1 t2) (F h0 x3 r4 r5 t1 t2) hp t3
  rw [← hpost] at this
  have hfin : kappa P R / 2 ^ 46 = 64 * (kappa P R * u) := by unfold u; ring
  rw [hfin]
  exact this.2

/-- **C87 (when variances stay positive).**  A variance whose exact posterior value is more than
`kappa / 2^46` of its prior value stays positive. -/
theorem C87_variance (hP : IsCov P) (hR : IsCov R) (hd : 0 < det P R) (hk : kappa P R ≤ 2 ^ 40)
    (hs : SafeUpdate P R) (i : Fin 4) (h : kappa P R / 2 ^ 46 * P i i < post P R i i) :
    0 < correctP P R i i := by
  have h1 := C87_error hP hR hd hk hs i i
  have h2 := psd_diag hP.2 i
  have h3 : 0 ≤ kappa P R / 2 ^ 46 := by
    obtain ⟨p0, p1⟩ := s_pos hP hR hd
    have : 0 < kappa P R := div_pos (mul_pos p0 p1) hd
    positivity
  have h4 : (correctP P R i i - post P R i i) ^ 2 ≤ (kappa P R / 2 ^ 46 * P i i) ^ 2 := by
    refine h1.trans (le_of_eq ?_)
    ring
  have h5 := abs_le_of_sq_le_sq h4 (mul_nonneg h3 h2)
  have := neg_le_of_abs_le h5
  linarith

/-- If the report is no better than `r` in any direction and the position variances add up to at most
`T`, the update leaves at least `r / (r + T)` of every variance. -/
theorem post_ge (hP : IsCov P) (hR : IsCov R) (hd : 0 < det P R) {r T : ℚ} (hr : 0 < r) (hT : 0 < T)
    (hPT : P 0 0 + P 1 1 ≤ T)
    (hRr : ∀ a b, r * (a ^ 2 + b ^ 2) ≤ a ^ 2 * R 0 0 + 2 * a * b * R 0 1 + b ^ 2 * R 1 1) (i : Fin 4) :
    r / (r + T) * P i i ≤ post P R i i := by
  have e0 : P 0 i = P i 0 := hP.1 0 i
  have e1 : P 1 i = P i 1 := hP.1 1 i
  have hdet : det P R = s0 P R * s1 P R - sx P R ^ 2 := rfl
  unfold post gstar
  rw [e0, e1]
  set Q := s1 P R * P i 0 * P i 0 - sx P R * P i 0 * P i 1 - sx P R * P i 1 * P i 0 +
    s0 P R * P i 1 * P i 1 with hQ
  set c0 := -(s1 P R * P i 0 - sx P R * P i 1) with hc0
  set c1 := -(s0 P R * P i 1 - sx P R * P i 0) with hc1
  have h3 : c0 ^ 2 * s0 P R + 2 * c0 * c1 * sx P R + c1 ^ 2 * s1 P R = det P R * Q := by
    rw [hc0, hc1, hQ, hdet]; ring
  have h4 : c0 * P i 0 + c1 * P i 1 = -Q := by rw [hc0, hc1, hQ]; ring
  have h1 := psd_three hP 0 1 i ((r + T) * c0) ((r + T) * c1) (T * det P R)
  rw [e0, e1] at h1
  -- the form of the prior is at most `T / (r + T)` of that of the innovation
  set A := c0 ^ 2 * P 0 0 + 2 * c0 * c1 * P 0 1 + c1 ^ 2 * P 1 1 with hA
  set B := c0 ^ 2 * R 0 0 + 2 * c0 * c1 * R 0 1 + c1 ^ 2 * R 1 1 with hB
  have hAB : A + B = det P R * Q := by
    rw [← h3]
    unfold s0 s1 sx
    rw [hA, hB]; ring
  have hAT : A ≤ T * (c0 ^ 2 + c1 ^ 2) := by
    have h5 := psd_two hP 0 1 c1 (-c0)
    have h6 := mul_le_mul_of_nonneg_right hPT (add_nonneg (sq_nonneg c0) (sq_nonneg c1))
    rw [hA]
    linarith
  have hBr : r * (c0 ^ 2 + c1 ^ 2) ≤ B := hRr c0 c1
  have h7 : (r + T) * A ≤ T * (det P R * Q) := by
    have := mul_le_mul_of_nonneg_left hAT hr.le
    have := mul_le_mul_of_nonneg_left hBr hT.le
    rw [← hAB]
    linarith
  have h8 : 0 ≤ (r + T) ^ 2 * A + 2 * (r + T) * T * det P R * (-Q) + T ^ 2 * det P R ^ 2 * P i i := by
    rw [← h4, hA]
    linarith
  have h9 := mul_le_mul_of_nonneg_left h7 (add_pos hr hT).le
  have h10 : 0 ≤ T * det P R * (T * det P R * P i i - (r + T) * Q) := by linarith
  have h11 := nonneg_of_mul_nonneg_right h10 (mul_pos hT hd)
  have hrT : 0 < r + T := add_pos hr hT
  have h12 : Q / det P R ≤ T / (r + T) * P i i := by
    rw [div_le_iff₀ hd, div_mul_eq_mul_div, div_mul_eq_mul_div, le_div_iff₀ hrT]
    linarith
  have h13 : r / (r + T) * P i i + T / (r + T) * P i i = P i i := by
    field_simp
  linarith

/-- **C87 (variances stay positive).**  If the report has the variance `r` in both coordinates and the
position variances add up to at most eight million times `r`, no positive variance turns zero or
negative, and no zero variance changes. -/
theorem C87_positive (hP : IsCov P) {r : ℚ} (hr : 0 < r) (hR : R = fun l m => if l = m then r else 0)
    (hT : P 0 0 + P 1 1 ≤ 8000000 * r) (hs : SafeUpdate P R) (i : Fin 4) :
    (0 < P i i → 0 < correctP P R i i) ∧ (P i i = 0 → correctP P R i i = 0) := by
  have hRc : IsCov R := by
    subst hR
    refine ⟨fun i j => by by_cases h : i = j <;> simp [h, eq_comm], fun y => ?_⟩
    simp only [Fin.sum_univ_two]
    simp
    nlinarith [mul_nonneg hr.le (mul_self_nonneg (y 0)), mul_nonneg hr.le (mul_self_nonneg (y 1))]
  have r00 : R 0 0 = r := by rw [hR]; rfl
  have r11 : R 1 1 = r := by rw [hR]; rfl
  have r01 : R 0 1 = 0 := by rw [hR]; rfl
  have a0 := psd_diag hP.2 0
  have a1 := psd_diag hP.2 1
  have ax := cov_cs hP 0 1
  have hdet : r * (P 0 0 + P 1 1 + r) ≤ det P R := by
    unfold det s0 s1 sx
    rw [r00, r11, r01]
    linarith
  have hsum : 0 < P 0 0 + P 1 1 + r := by linarith
  have hd : 0 < det P R := lt_of_lt_of_le (mul_pos hr hsum) hdet
  have hk : kappa P R ≤ 8000001 := by
    unfold kappa
    rw [div_le_iff₀ hd]
    have h1 : s0 P R * s1 P R ≤ (P 0 0 + P 1 1 + r) * (P 0 0 + P 1 1 + r) := by
      unfold s0 s1
      rw [r00, r11]
      exact mul_le_mul (by linarith) (by linarith) (by linarith) hsum.le
    have h2 : (P 0 0 + P 1 1 + r) * (P 0 0 + P 1 1 + r) ≤ 8000001 * r * (P 0 0 + P 1 1 + r) :=
      mul_le_mul_of_nonneg_right (by linarith) hsum.le
    linarith
  have hk40 : kappa P R ≤ 2 ^ 40 := hk.trans (by norm_num)
  constructor
  · intro hi
    refine C87_variance hP hRc hd hk40 hs i ?_
    have := post_ge hP hRc hd hr (T := 8000000 * r) (by positivity) hT
      (fun a b => by rw [r00, r11, r01]; apply le_of_eq; ring) i
    refine lt_of_lt_of_le ?_ this
    apply mul_lt_mul_of_pos_right _ hi
    have e : r / (r + 8000000 * r) = 1 / 8000001 := by field_simp; norm_num
    rw [e]
    have : kappa P R / 2 ^ 46 ≤ 8000001 / 2 ^ 46 := div_le_div_of_nonneg_right hk (by positivity)
    refine lt_of_le_of_lt this ?_
    norm_num
  · intro hi
    have h1 := C87_error hP hRc hd hk40 hs i i
    have h2 := gstar_diag hP hRc hd i
    have h3 : post P R i i = 0 := by
      unfold post
      linarith
    rw [h3, hi, zero_mul, mul_zero, sub_zero] at h1
    exact pow_eq_zero_iff (two_ne_zero) |>.1 (le_antisymm h1 (sq_nonneg _))

/-! ## Concrete cases -/

/-- A covariance with variances `a`, `b`, `c`, `d`, covariance `x` between the two position coordinates
and `w` between the first position coordinate and its speed. -/
def mk (a b c d x w : ℚ) : Cov4 := fun i j =>
  if i = j then (if i = 0 then a else if i = 1 then b else if i = 2 then c else d)
  else if (i = 0 ∧ j = 1) ∨ (i = 1 ∧ j = 0) then x
  else if (i = 0 ∧ j = 2) ∨ (i = 2 ∧ j = 0) then w else 0

/-- A report with variance `r` on both coordinates. -/
def mkR (r : ℚ) : Cov2 := fun i j => if i = j then r else 0

theorem mkR_cov {r : ℚ} (h : 0 ≤ r) : IsCov (mkR r) := by
  refine ⟨fun i j => by unfold mkR; by_cases h : i = j <;> simp [h, eq_comm], fun y => ?_⟩
  simp only [Fin.sum_univ_two, mkR]
  simp
  nlinarith [mul_nonneg h (mul_self_nonneg (y 0)), mul_nonneg h (mul_self_nonneg (y 1))]

theorem mk_cov {a b c d x w : ℚ} (hb : 0 < b) (hc : 0 < c) (hd : 0 ≤ d)
    (h : x ^ 2 / b + w ^ 2 / c ≤ a) : IsCov (mk a b c d x w) := by
  refine ⟨?_, fun y => ?_⟩
  · intro i j
    fin_cases i <;> fin_cases j <;> rfl
  · have e : ∑ i, ∑ j, y i * mk a b c d x w i j * y j =
        (a - (x ^ 2 / b + w ^ 2 / c)) * y 0 ^ 2 + b * (y 1 + x / b * y 0) ^ 2 +
        c * (y 2 + w / c * y 0) ^ 2 + d * y 3 ^ 2 := by
      simp only [Fin.sum_univ_four, mk]
      simp
      field_simp
      ring
    rw [e]
    have : 0 ≤ a - (x ^ 2 / b + w ^ 2 / c) := by linarith
    positivity

/-- **C87 (variances can turn negative, refuted).**  A target known to a metre across a line at 45
degrees and to eleven kilometres along it, and a report with a standard deviation of half a metre: the
variance computed for the first coordinate is negative (the exact one is above 0.2).  Nothing over- or
underflows. -/
theorem C87_positive_refuted :
    ∃ (P : Cov4) (R : Cov2), IsCov P ∧ IsCov R ∧ 0 < det P R ∧ SafeUpdate P R ∧
      1 / 5 < post P R 0 0 ∧ correctP P R 0 0 < - 1 / 3 ∧ correctP P R 1 1 < - 1 / 3 :=
  ⟨mk 64000000 64000000 1 1 63999999 0, mkR (1 / 4),
    mk_cov (by norm_num) (by norm_num) (by norm_num) (by norm_num), mkR_cov (by norm_num),
    by decide +kernel, by decide +kernel, by decide +kernel, by decide +kernel, by decide +kernel⟩

/-- **C87 (the covariance stays symmetric, refuted).**  Uncorrelated coordinates, position and speed
correlated: the two computed covariances of position and speed differ. -/
theorem C87_symmetric_refuted :
    ∃ (P : Cov4) (R : Cov2), IsCov P ∧ IsCov R ∧ 0 < det P R ∧ SafeUpdate P R ∧ kappa P R = 1 ∧
      correctP P R 2 0 = 2 ∧ correctP P R 0 2 < 2 :=
  ⟨mk 3 1 9 1 0 5, mkR 2,
    mk_cov (by norm_num) (by norm_num) (by norm_num) (by norm_num), mkR_cov (by norm_num),
    by decide +kernel, by decide +kernel, by decide +kernel, by decide +kernel, by decide +kernel⟩

/-- A target with correlated coordinates meets the hypotheses of `C87_error` and `C87_variance`. -/
example : ∀ i j, (correctP (mk 100 50 4 9 50 10) (mkR 25) i j -
      post (mk 100 50 4 9 50 10) (mkR 25) i j) ^ 2 ≤
    (kappa (mk 100 50 4 9 50 10) (mkR 25) / 2 ^ 46) ^ 2 *
      (mk 100 50 4 9 50 10 i i * mk 100 50 4 9 50 10 j j) :=
  C87_error (mk_cov (by norm_num) (by norm_num) (by norm_num) (by norm_num)) (mkR_cov (by norm_num))
    (by decide +kernel) (by decide +kernel) (by decide +kernel)

example : 0 < correctP (mk 100 50 4 9 50 10) (mkR 25) 2 2 :=
  C87_variance (mk_cov (by norm_num) (by norm_num) (by norm_num) (by norm_num)) (mkR_cov (by norm_num))
    (by decide +kernel) (by decide +kernel) (by decide +kernel) 2 (by decide +kernel)

/-- A standard deviation of a kilometre and a report with one of half a metre. -/
example : 0 < correctP (mk 1000000 1000000 4 9 999999 1 ) (mkR (1 / 4)) 0 0 :=
  (C87_positive (R := mkR (1 / 4)) (r := 1 / 4)
    (mk_cov (by norm_num) (by norm_num) (by norm_num) (by norm_num)) (by norm_num) rfl
    (by decide +kernel) (by decide +kernel) 0).1 (by decide +kernel)

end Verif.KalmanF

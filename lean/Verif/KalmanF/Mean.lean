import Verif.KalmanF.Props

/-!
# C117: the mean after a measurement update in `double` arithmetic

The exact posterior mean is `x + P Hᵀ (H P Hᵀ + R)⁻¹ (z - H x)`.  The error is measured against the
standard deviation of the coordinate and the Mahalanobis distance of the report, whose square is `maha`:
how many standard deviations of the innovation the report is off.
-/

namespace Verif.KalmanF

open Verif.GMF (fl fl_err fl_zero)

/-! ## The exact update -/

/-- The exact innovation of coordinate `l` (specification; `gaussian.hpp:32`). -/
def innovX (x : Fin 4 → ℚ) (z : Fin 2 → ℚ) (l : Fin 2) : ℚ := z l - x (l.castLE (by decide))

/-- What the exact update adds to coordinate `i` of the mean (specification; `gaussian.hpp:38`). -/
def shift (x : Fin 4 → ℚ) (P : Cov4) (z : Fin 2 → ℚ) (R : Cov2) (i : Fin 4) : ℚ :=
  ((s1 P R * P i 0 - sx P R * P i 1) * innovX x z 0 +
    (s0 P R * P i 1 - sx P R * P i 0) * innovX x z 1) / det P R

/-- The exact posterior mean (specification). -/
def postX (x : Fin 4 → ℚ) (P : Cov4) (z : Fin 2 → ℚ) (R : Cov2) (i : Fin 4) : ℚ := x i + shift x P z R i

/-- The square of the Mahalanobis distance of the report (specification; the exponent of
`report.hpp:36-38`). -/
def maha (x : Fin 4 → ℚ) (P : Cov4) (z : Fin 2 → ℚ) (R : Cov2) : ℚ :=
  (s1 P R * innovX x z 0 ^ 2 - 2 * sx P R * innovX x z 0 * innovX x z 1 + s0 P R * innovX x z 1 ^ 2) /
    det P R

variable {P : Cov4} {R : Cov2} {x : Fin 4 → ℚ} {z : Fin 2 → ℚ}

/-- An innovation is at most its standard deviation times the Mahalanobis distance. -/
theorem innov_le (hP : IsCov P) (hR : IsCov R) (hd : 0 < det P R) :
    innovX x z 0 ^ 2 ≤ s0 P R * maha x P z R ∧ innovX x z 1 ^ 2 ≤ s1 P R * maha x P z R := by
  have hdet : det P R = s0 P R * s1 P R - sx P R ^ 2 := rfl
  unfold maha
  constructor
  · rw [mul_div_assoc', le_div_iff₀ hd, hdet]
    have := sq_nonneg (s0 P R * innovX x z 1 - sx P R * innovX x z 0)
    linarith
  · rw [mul_div_assoc', le_div_iff₀ hd, hdet]
    have := sq_nonneg (s1 P R * innovX x z 0 - sx P R * innovX x z 1)
    linarith

theorem maha_nonneg (hP : IsCov P) (hR : IsCov R) (hd : 0 < det P R) : 0 ≤ maha x P z R := by
  have h := (innov_le (x := x) (z := z) hP hR hd).1
  exact nonneg_of_mul_nonneg_right ((sq_nonneg _).trans h) (s_pos hP hR hd).1

/-- The exact update moves a coordinate by at most its standard deviation times the Mahalanobis
distance. -/
theorem shift_bd (hP : IsCov P) (hR : IsCov R) (hd : 0 < det P R) (i : Fin 4) :
    Bd (P i i * maha x P z R) 1 (shift x P z R i) := by
  refine ⟨zero_le_one, ?_⟩
  rw [one_pow, one_mul]
  obtain ⟨i0, i1⟩ := gstar_diag hP hR hd i
  refine le_trans ?_ (mul_le_mul_of_nonneg_right i1 (maha_nonneg hP hR hd))
  have e0 : P 0 i = P i 0 := hP.1 0 i
  have e1 : P 1 i = P i 1 := hP.1 1 i
  unfold gstar maha shift
  rw [e0, e1, div_mul_div_comm, div_pow, sq (det P R)]
  apply div_le_div_of_nonneg_right _ (mul_nonneg hd.le hd.le)
  have hdet : det P R = s0 P R * s1 P R - sx P R ^ 2 := rfl
  have key : 0 ≤ det P R * (P i 0 * innovX x z 1 - P i 1 * innovX x z 0) ^ 2 :=
    mul_nonneg hd.le (sq_nonneg _)
  rw [hdet] at key
  linarith

/-- The terms of the shift. -/
theorem shift_term (hP : IsCov P) {s t D k y m : ℚ} {l : Fin 4} (hs : P l l ≤ s) (hm : 0 ≤ m)
    (hy : y ^ 2 ≤ t * m) (hk : 0 ≤ k) (hD : D ^ 2 * (s * t) ≤ k ^ 2) (i : Fin 4) :
    Bd (P i i * m) k (P i l * D * y) := by
  refine ⟨hk, ?_⟩
  have hi := psd_diag hP.2 i
  have h1 : P i l ^ 2 ≤ P i i * s := (cov_cs hP i l).trans (mul_le_mul_of_nonneg_left hs hi)
  have h3 : P i l ^ 2 * y ^ 2 ≤ P i i * s * (t * m) :=
    mul_le_mul h1 hy (sq_nonneg _) ((sq_nonneg _).trans h1)
  calc (P i l * D * y) ^ 2 = D ^ 2 * (P i l ^ 2 * y ^ 2) := by ring
    _ ≤ D ^ 2 * (P i i * s * (t * m)) := mul_le_mul_of_nonneg_left h3 (sq_nonneg _)
    _ = D ^ 2 * (s * t) * (P i i * m) := by ring
    _ ≤ k ^ 2 * (P i i * m) := mul_le_mul_of_nonneg_right hD (mul_nonneg hi hm)

/-! ## The rounded update -/

/-- No operation on the mean overflows or underflows. -/
def SafeMean (x : Fin 4 → ℚ) (P : Cov4) (z : Fin 2 → ℚ) (R : Cov2) : Prop :=
  let K := gain P (inv2 (innov P R))
  (∀ l, Safe (innovX x z l)) ∧
  ∀ i, Safe (K i 0 * fl (innovX x z 0)) ∧ Safe (K i 1 * fl (innovX x z 1)) ∧
    Safe (fl (K i 0 * fl (innovX x z 0)) + fl (K i 1 * fl (innovX x z 1))) ∧
    Safe (x i + fl (fl (K i 0 * fl (innovX x z 0)) + fl (K i 1 * fl (innovX x z 1))))

instance (x : Fin 4 → ℚ) (P : Cov4) (z : Fin 2 → ℚ) (R : Cov2) : Decidable (SafeMean x P z R) := by
  unfold SafeMean; infer_instance

/-- The computed inverse: a common factor near the reciprocal of the determinant, and two roundings in
each entry. -/
theorem inv_fac (hP : IsCov P) (hR : IsCov R) (hd : 0 < det P R) (hk : kappa P R ≤ 2 ^ 40)
    (hs : SafeUpdate P R) : ∃ v, |v * det P R - 1| ≤ 11 * (kappa P R * u) ∧ ∃ f0 f1 f2 f3,
      Fac 2 f0 ∧ Fac 2 f1 ∧ Fac 2 f2 ∧ Fac 2 f3 ∧
      inv2 (innov P R) 0 0 = s1 P R * v * f0 ∧ inv2 (innov P R) 0 1 = -sx P R * v * f1 ∧
      inv2 (innov P R) 1 0 = -sx P R * v * f2 ∧ inv2 (innov P R) 1 1 = s0 P R * v * f3 := by
  obtain ⟨p0, p1⟩ := s_pos hP hR hd
  have hdet : det P R = s0 P R * s1 P R - sx P R ^ 2 := rfl
  have hkd : kappa P R * det P R = s0 P R * s1 P R := by unfold kappa; field_simp
  have hk1 : 1 ≤ kappa P R := by
    unfold kappa
    rw [one_le_div hd, hdet]
    have := sq_nonneg (sx P R)
    linarith
  have hk2 : kappa P R * u ≤ 1 / 2 ^ 10 := by
    refine (mul_le_mul_of_nonneg_right hk u_pos.le).trans ?_
    unfold u; norm_num
  have hab : 0 ≤ s0 P R * s1 P R := (mul_pos p0 p1).le
  have hc : sx P R ^ 2 ≤ s0 P R * s1 P R := by linarith
  obtain ⟨q0, q1, qx, q2, q3, q4, q5, q6, q7, q8, q9, -, -⟩ := hs
  obtain ⟨f0, h0, e0⟩ := fl_fac q0
  obtain ⟨f1, h1, e1⟩ := fl_fac q1
  obtain ⟨fx, hx, ex⟩ := fl_fac qx
  have i00 : innov P R 0 0 = s0 P R * f0 := e0
  have i11 : innov P R 1 1 = s1 P R * f1 := e1
  have i01 : innov P R 0 1 = sx P R * fx := ex
  have i10 : innov P R 1 0 = sx P R * fx := by
    rw [← i01]
    show fl (P 1 0 + R 1 0) = fl (P 0 1 + R 0 1)
    rw [hP.1 1 0, hR.1 1 0]
  obtain ⟨g1, k1, d1⟩ := fl_fac q2
  obtain ⟨g2, k2, d2⟩ := fl_fac q3
  obtain ⟨g3, k3, d3⟩ := fl_fac q4
  have hdt : det2 (innov P R) =
      (s0 P R * f0 * (s1 P R * f1) * g1 - sx P R * fx * (sx P R * fx) * g2) * g3 := by
    unfold det2
    rw [d3, d1, d2, i00, i11, i01, i10]
  have hde := det_err hab hc h0 h1 hx hx k1 k2 k3
  rw [← hdt, ← hdet, ← hkd] at hde
  obtain ⟨g4, k4, d4⟩ := fl_fac q5
  obtain ⟨-, hq⟩ := recip_err hd hk1 hk2 hde k4
  rw [← d4] at hq
  set v := fl (1 / det2 (innov P R)) with hv
  obtain ⟨w0, x0, y0⟩ := fl_fac q6
  obtain ⟨w1, x1, y1⟩ := fl_fac q7
  obtain ⟨w2, x2, y2⟩ := fl_fac q8
  obtain ⟨w3, x3, y3⟩ := fl_fac q9
  have D00 : inv2 (innov P R) 0 0 = s1 P R * v * (f1 * w0) := by
    show fl (innov P R 1 1 * v) = _
    rw [y0, i11]; ring
  have D01 : inv2 (innov P R) 0 1 = -sx P R * v * (fx * w1) := by
    show fl (-innov P R 0 1 * v) = _
    rw [y1, i01]; ring
  have D10 : inv2 (innov P R) 1 0 = -sx P R * v * (fx * w2) := by
    show fl (-innov P R 1 0 * v) = _
    rw [y2, i10]; ring
  have D11 : inv2 (innov P R) 1 1 = s0 P R * v * (f0 * w3) := by
    show fl (innov P R 0 0 * v) = _
    rw [y3, i00]; ring
  have F : ∀ {z1 z2 : ℚ}, Fac 1 z1 → Fac 1 z2 → Fac 2 (z1 * z2) := fun o1 o2 => fac_mul' o1 o2 (by norm_num)
  exact ⟨v, hq, f1 * w0, fx * w1, fx * w2, f0 * w3, F h1 x0, F hx x1, F hx x2, F h0 x3, D00, D01, D10, D11⟩

/-- The computed gain: a common factor near the reciprocal of the determinant, and four roundings in
each term. -/
theorem gain_fac (hP : IsCov P) (hR : IsCov R) (hd : 0 < det P R) (hk : kappa P R ≤ 2 ^ 40)
    (hs : SafeUpdate P R) : ∃ v, |v * det P R - 1| ≤ 11 * (kappa P R * u) ∧ ∀ i, ∃ f0 f1 f2 f3,
      Fac 4 f0 ∧ Fac 4 f1 ∧ Fac 4 f2 ∧ Fac 4 f3 ∧
      gain P (inv2 (innov P R)) i 0 = v * (P i 0 * s1 P R * f0 + P i 1 * -sx P R * f1) ∧
      gain P (inv2 (innov P R)) i 1 = v * (P i 0 * -sx P R * f2 + P i 1 * s0 P R * f3) := by
  obtain ⟨v, hq, f0, f1, f2, f3, h0, h1, h2, h3, D00, D01, D10, D11⟩ := inv_fac hP hR hd hk hs
  obtain ⟨-, -, -, -, -, -, -, -, -, -, -, q10, -⟩ := hs
  have F : ∀ {w z1 z2 : ℚ}, Fac 2 w → Fac 1 z1 → Fac 1 z2 → Fac 4 (w * z1 * z2) := fun o o1 o2 =>
    fac_mul' (fac_mul o o1) o2 (by norm_num)
  refine ⟨v, hq, fun i => ?_⟩
  obtain ⟨a0, r0, z0⟩ := fl_fac (q10 i 0).1
  obtain ⟨a1, r1, z1⟩ := fl_fac (q10 i 0).2.1
  obtain ⟨a2, r2, z2⟩ := fl_fac (q10 i 0).2.2
  obtain ⟨a3, r3, z3⟩ := fl_fac (q10 i 1).1
  obtain ⟨a4, r4, z4⟩ := fl_fac (q10 i 1).2.1
  obtain ⟨a5, r5, z5⟩ := fl_fac (q10 i 1).2.2
  refine ⟨f0 * a0 * a2, f2 * a1 * a2, f1 * a3 * a5, f3 * a4 * a5, F h0 r0 r2, F h2 r1 r2, F h1 r3 r5,
    F h3 r4 r5, ?_, ?_⟩
  · unfold gain
    rw [z2, z0, z1, D00, D10]
    ring
  · unfold gain
    rw [z5, z3, z4, D01, D11]
    ring

/-- A sum of four terms with a common factor and rounding errors. -/
theorem sum_err4 {M k q G t1 t2 t3 t4 f1 f2 f3 f4 : ℚ} (hM : 0 ≤ M) (hk : 1 ≤ k)
    (hk2 : k * u ≤ 1 / 2 ^ 10) (hq : |q - 1| ≤ 11 * (k * u)) (hG : G = t1 + t2 + t3 + t4)
    (hGb : Bd M 1 G) (b1 : Bd M k t1) (b2 : Bd M k t2) (b3 : Bd M k t3) (b4 : Bd M k t4)
    (k1 : Fac 8 f1) (k2 : Fac 8 f2) (k3 : Fac 8 f3) (k4 : Fac 8 f4) :
    Bd M (64 * (k * u)) (q * (t1 * f1 + t2 * f2 + t3 * f3 + t4 * f4) - G) := by
  have hku : 0 ≤ k * u := mul_nonneg (by linarith) u_pos.le
  have h6 : (1 + u) ^ 8 - 1 ≤ 9 * u := by unfold u; norm_num
  have c1 := b1.mul hM (k1.trans h6)
  have c2 := b2.mul hM (k2.trans h6)
  have c3 := b3.mul hM (k3.trans h6)
  have c4 := b4.mul hM (k4.trans h6)
  have cs := ((c1.add hM c2).add hM c3).add hM c4
  have hq' : |q| ≤ 1.1 := by
    have : q = (q - 1) + 1 := by ring
    rw [this]
    refine (abs_add_le _ _).trans ?_
    rw [abs_one]
    have : 11 * (k * u) ≤ 11 * (1 / 2 ^ 10) := by linarith
    norm_num at this ⊢
    linarith
  have e := ((cs.mul hM hq').add hM (hGb.mul hM hq)).up (b := 64 * (k * u)) hM (by
    have : k * (9 * u) = 9 * (k * u) := by ring
    rw [this]
    linarith)
  have he : q * (t1 * f1 + t2 * f2 + t3 * f3 + t4 * f4) - G =
      (t1 * (f1 - 1) + t2 * (f2 - 1) + t3 * (f3 - 1) + t4 * (f4 - 1)) * q + G * (q - 1) := by
    rw [hG]; ring
  rw [he]
  exact e

/-- **C117 (what rounding does to the mean).**  Where no operation over- or underflows and the condition of
the innovation covariance is at most `2^40`, every coordinate of the computed mean is, up to one last
rounding, within `kappa / 2^46` times its prior standard deviation times the Mahalanobis distance of the
report from the exact mean. -/
theorem C117_mean (hP : IsCov P) (hR : IsCov R) (hd : 0 < det P R) (hk : kappa P R ≤ 2 ^ 40)
    (hs : SafeUpdate P R) (hm : SafeMean x P z R) (i : Fin 4) :
    ∃ m, (m - postX x P z R i) ^ 2 ≤ (kappa P R / 2 ^ 46) ^ 2 * (P i i * maha x P z R) ∧
      |correctX x P z R i - m| ≤ |m| / 2 ^ 52 := by
  obtain ⟨p0, p1⟩ := s_pos hP hR hd
  have hdet : det P R = s0 P R * s1 P R - sx P R ^ 2 := rfl
  have hk1 : 1 ≤ kappa P R := by
    unfold kappa
    rw [one_le_div hd, hdet]
    have := sq_nonneg (sx P R)
    linarith
  have hk2 : kappa P R * u ≤ 1 / 2 ^ 10 := by
    refine (mul_le_mul_of_nonneg_right hk u_pos.le).trans ?_
    unfold u; norm_num
  have hab : 0 ≤ s0 P R * s1 P R := (mul_pos p0 p1).le
  have hc : sx P R ^ 2 ≤ s0 P R * s1 P R := by linarith
  obtain ⟨v, hq, hg⟩ := gain_fac hP hR hd hk hs
  obtain ⟨f0, f1, f2, f3, o0, o1, o2, o3, K0, K1⟩ := hg i
  obtain ⟨m1, m2⟩ := hm
  obtain ⟨b0, t0, c0⟩ := fl_fac (m1 0)
  obtain ⟨b1, t1, c1⟩ := fl_fac (m1 1)
  obtain ⟨n0, n1, n2, n3⟩ := m2 i
  obtain ⟨a0, r0, z0⟩ := fl_fac n0
  obtain ⟨a1, r1, z1⟩ := fl_fac n1
  obtain ⟨a2, r2, z2⟩ := fl_fac n2
  obtain ⟨a3, r3, z3⟩ := fl_fac n3
  have hM : 0 ≤ P i i * maha x P z R := mul_nonneg (psd_diag hP.2 i) (maha_nonneg hP hR hd)
  have hk0 : 0 ≤ kappa P R := zero_le_one.trans hk1
  have hkk : ∀ {D X : ℚ}, D ^ 2 * X = s0 P R * s1 P R * (s0 P R * s1 P R) / det P R ^ 2 →
      D ^ 2 * X ≤ kappa P R ^ 2 := by
    intro D X h
    rw [h]
    unfold kappa
    rw [div_pow, sq (s0 P R * s1 P R)]
  have hx2 : (-sx P R / det P R) ^ 2 * (s0 P R * s1 P R) ≤ kappa P R ^ 2 := by
    unfold kappa
    rw [div_pow, div_pow, div_mul_eq_mul_div, neg_sq]
    apply div_le_div_of_nonneg_right _ (sq_nonneg _)
    rw [sq (s0 P R * s1 P R)]
    exact mul_le_mul_of_nonneg_right hc hab
  obtain ⟨y0, y1⟩ := innov_le (x := x) (z := z) hP hR hd
  have hmn := maha_nonneg (x := x) (z := z) hP hR hd
  have T0 := shift_term hP (l := 0) (D := s1 P R / det P R) (s0_ge hR) hmn y0 hk0
    (hkk (by rw [div_pow]; ring)) i
  have T1 := shift_term hP (l := 1) (D := -sx P R / det P R) (s1_ge hR) hmn y0 hk0
    (by rw [mul_comm (s1 P R)]; exact hx2) i
  have T2 := shift_term hP (l := 0) (D := -sx P R / det P R) (s0_ge hR) hmn y1 hk0 hx2 i
  have T3 := shift_term hP (l := 1) (D := s0 P R / det P R) (s1_ge hR) hmn y1 hk0
    (hkk (by rw [div_pow]; ring)) i
  have F : ∀ {w z1 z2 z3 : ℚ}, Fac 4 w → Fac 1 z1 → Fac 1 z2 → Fac 1 z3 →
      Fac 8 (w * z1 * z2 * z3) := fun o o1 o2 o3 =>
    fac_up (by norm_num) (fac_mul (fac_mul (fac_mul o o1) o2) o3)
  have hG : shift x P z R i = P i 0 * (s1 P R / det P R) * innovX x z 0 +
      P i 1 * (-sx P R / det P R) * innovX x z 0 + P i 0 * (-sx P R / det P R) * innovX x z 1 +
      P i 1 * (s0 P R / det P R) * innovX x z 1 := by
    unfold shift; ring
  have hsum := sum_err4 hM hk1 hk2 hq hG (shift_bd hP hR hd i) T0 T1 T2 T3 (F o0 t0 r0 r2)
    (F o1 t0 r0 r2) (F o2 t1 r1 r2) (F o3 t1 r1 r2)
  set E := v * det P R * (P i 0 * (s1 P R / det P R) * innovX x z 0 * (f0 * b0 * a0 * a2) +
      P i 1 * (-sx P R / det P R) * innovX x z 0 * (f1 * b0 * a0 * a2) +
      P i 0 * (-sx P R / det P R) * innovX x z 1 * (f2 * b1 * a1 * a2) +
      P i 1 * (s0 P R / det P R) * innovX x z 1 * (f3 * b1 * a1 * a2)) with hE
  have hcor : fl (fl (gain P (inv2 (innov P R)) i 0 * fl (innovX x z 0)) +
      fl (gain P (inv2 (innov P R)) i 1 * fl (innovX x z 1))) = E := by
    rw [z2, z0, z1, c0, c1, K0, K1, hE]
    have hne := hd.ne'
    generalize det P R = d at hne
    field_simp
    ring
  have hcx : correctX x P z R i = (x i + E) * a3 := by
    rw [← hcor, ← z3]
    rfl
  refine ⟨x i + E, ?_, ?_⟩
  · have hfin : kappa P R / 2 ^ 46 = 64 * (kappa P R * u) := by unfold u; ring
    have he : x i + E - postX x P z R i = E - shift x P z R i := by unfold postX; ring
    rw [hfin, he]
    exact hsum.2
  · have he : (x i + E) * a3 - (x i + E) = (x i + E) * (a3 - 1) := by ring
    rw [hcx, he, abs_mul, div_eq_mul_one_div]
    apply mul_le_mul_of_nonneg_left _ (abs_nonneg _)
    have := r3
    unfold Fac at this
    rw [pow_one, add_sub_cancel_left] at this
    exact this

end Verif.KalmanF

import Verif.KalmanF.Exact
import Mathlib.Analysis.SpecialFunctions.Log.Basic

/-!
# C118: the weight of a component after a measurement update in `double` arithmetic

`w *= s.pD(*this, origin) * z.likelihood(dz, Dinv) / z.kappa` (`include/gaussian.hpp:37`,
`include/report.hpp:33-37`).  Every operation is rounded (`fl`).  Of the library functions `exp` and `sqrt`, and of
the constant `pow(2 * M_PI, 2)`, it is assumed that they are right up to a few units in the last place.
-/

namespace Verif.KalmanF

open Verif.GMF (fl fl_err fl_zero)
open Matrix

/-! ## The model -/

/-- `dz.transpose() * Dinv * dz`, `report.hpp:35`. -/
def quad (dz : Fin 2 → ℚ) (D : Cov2) : ℚ :=
  let r : Fin 2 → ℚ := fun l => fl (fl (dz 0 * D 0 l) + fl (dz 1 * D 1 l))
  fl (fl (r 0 * dz 0) + fl (r 1 * dz 1))

/-- `likelihood`, `report.hpp:33-37`; `ex` is `std::exp`, `sq` is `std::sqrt`, `c` is the value of
`std::pow(2 * M_PI, dz.size())`. -/
def likeF (ex sq : ℚ → ℚ) (c : ℚ) (dz : Fin 2 → ℚ) (D : Cov2) : ℚ :=
  fl (ex (fl (-quad dz D * (1 / 2))) * sq (fl (det2 D / c)))

/-- The innovation as computed, `gaussian.hpp:32`. -/
def dzF (x : Fin 4 → ℚ) (z : Fin 2 → ℚ) (l : Fin 2) : ℚ := fl (z l - x (l.castLE (by decide)))

/-- The weight after `correct`, `gaussian.hpp:37`; `pD` is the value of `s.pD(*this, origin)`, `kz` that of
`z.kappa`. -/
def correctW (ex sq : ℚ → ℚ) (c w pD kz : ℚ) (x : Fin 4 → ℚ) (P : Cov4) (z : Fin 2 → ℚ) (R : Cov2) : ℚ :=
  fl (w * fl (fl (pD * likeF ex sq c (dzF x z) (inv2 (innov P R))) / kz))

/-! ## The library -/

/-- What is assumed of `exp` (`report.hpp:35`): one unit in the last place where nothing underflows. -/
def ExpUlp (ex : ℚ → ℚ) : Prop :=
  ∀ q : ℚ, -700 ≤ q → q ≤ 0 → |(ex q : ℝ) - Real.exp q| ≤ Real.exp q / 2 ^ 52

/-- What is assumed of `sqrt` (`report.hpp:36`): one unit in the last place. -/
def SqrtUlp (sq : ℚ → ℚ) : Prop := ∀ q : ℚ, 0 ≤ q → |(sq q : ℝ) - Real.sqrt q| ≤ Real.sqrt q / 2 ^ 52

/-- What is assumed of `pow(2 * M_PI, 2)` (`report.hpp:36`): four units in the last place. -/
def PowUlp (c : ℚ) : Prop := |(c : ℝ) - (2 * Real.pi) ^ 2| ≤ (2 * Real.pi) ^ 2 / 2 ^ 50

theorem approx_exists (y : ℝ) (hy : 0 ≤ y) : ∃ q : ℚ, |(q : ℝ) - y| ≤ y / 2 ^ 52 := by
  rcases hy.eq_or_lt with rfl | h
  · exact ⟨0, by simp⟩
  · obtain ⟨q, h1, h2⟩ := exists_rat_btwn (show y - y / 2 ^ 52 < y by
      have : 0 < y / 2 ^ 52 := by positivity
      linarith)
    refine ⟨q, abs_le.2 ⟨by linarith, ?_⟩⟩
    have : 0 < y / 2 ^ 52 := by positivity
    linarith

/-- There are such functions, and the `double` nearest to the constant is one such number. -/
theorem ulp_exists : (∃ ex, ExpUlp ex) ∧ (∃ sq, SqrtUlp sq) ∧ PowUlp (39.47841760435743) := by
  refine ⟨?_, ?_, ?_⟩
  · choose f hf using fun q : ℚ => approx_exists (Real.exp q) (Real.exp_pos _).le
    exact ⟨f, fun q _ _ => hf q⟩
  · choose f hf using fun q : ℚ => approx_exists (Real.sqrt q) (Real.sqrt_nonneg _)
    exact ⟨f, fun q _ => hf q⟩
  · have h1 := Real.pi_gt_d20
    have h2 := Real.pi_lt_d20
    unfold PowUlp
    push_cast
    have h0 := Real.pi_pos
    have e1 : (3.14159265358979323846 : ℝ) ^ 2 ≤ Real.pi ^ 2 := pow_le_pow_left₀ (by norm_num) h1.le 2
    have e2 : Real.pi ^ 2 ≤ (3.14159265358979323847 : ℝ) ^ 2 := pow_le_pow_left₀ h0.le h2.le 2
    rw [mul_pow, abs_le]
    norm_num at e1 e2 ⊢
    constructor <;> linarith

/-! ## Relative errors as exponents -/

/-- `a` is `b` up to a factor between `exp (-e)` and `exp e` (specification). -/
def Near (e a b : ℝ) : Prop := ∃ d, |d| ≤ e ∧ a = b * Real.exp d

theorem Near.up {e e' a b : ℝ} (h : Near e a b) (he : e ≤ e') : Near e' a b := by
  obtain ⟨d, h1, h2⟩ := h
  exact ⟨d, h1.trans he, h2⟩

theorem Near.mul {e e' a a' b b' : ℝ} (h : Near e a b) (h' : Near e' a' b') : Near (e + e') (a * a') (b * b') := by
  obtain ⟨d, h1, rfl⟩ := h
  obtain ⟨d', h1', rfl⟩ := h'
  refine ⟨d + d', (abs_add_le _ _).trans (add_le_add h1 h1'), ?_⟩
  rw [Real.exp_add]
  ring

theorem Near.div {e e' a a' b b' : ℝ} (h : Near e a b) (h' : Near e' a' b') : Near (e + e') (a / a') (b / b') := by
  obtain ⟨d, h1, rfl⟩ := h
  obtain ⟨d', h1', rfl⟩ := h'
  refine ⟨d - d', (abs_sub _ _).trans (add_le_add h1 h1'), ?_⟩
  rw [Real.exp_sub, mul_div_mul_comm]

theorem Near.trans {e e' a b c : ℝ} (h : Near e a b) (h' : Near e' b c) : Near (e + e') a c := by
  obtain ⟨d, h1, rfl⟩ := h
  obtain ⟨d', h1', rfl⟩ := h'
  refine ⟨d' + d, (abs_add_le _ _).trans (by linarith), ?_⟩
  rw [Real.exp_add]
  ring

theorem Near.refl (a : ℝ) : Near 0 a a := ⟨0, by simp, by simp⟩

theorem Near.sqrt {e a b : ℝ} (h : Near e a b) : Near (e / 2) (Real.sqrt a) (Real.sqrt b) := by
  obtain ⟨d, h1, rfl⟩ := h
  refine ⟨d / 2, ?_, ?_⟩
  · rw [abs_div, abs_two]
    linarith
  · rw [mul_comm, Real.sqrt_mul (Real.exp_pos d).le, Real.exp_half, mul_comm]

/-- A small relative error as an exponent. -/
theorem near_of_rel {e a b : ℝ} (h0 : 0 ≤ e) (he : e ≤ 1 / 2) (h : |a - b| ≤ |b| * e) : Near (2 * e) a b := by
  by_cases hb : b = 0
  · subst hb
    rw [abs_zero, zero_mul] at h
    have : a = 0 := by simpa using h
    subst this
    exact ⟨0, by simpa using h0, by simp⟩
  · have hb' := abs_pos.2 hb
    have hf : |a / b - 1| ≤ e := by
      have : a / b - 1 = (a - b) / b := by field_simp
      rw [this, abs_div, div_le_iff₀ hb', mul_comm]
      exact h
    obtain ⟨f1, f2⟩ := abs_le.1 hf
    set f := a / b with hfd
    have hpos : 0 < f := by linarith
    refine ⟨Real.log f, ?_, ?_⟩
    · rw [abs_le]
      constructor
      · have h1 := Real.one_sub_inv_le_log_of_pos hpos
        have h2 : f⁻¹ ≤ 1 + 2 * e := by
          rw [inv_le_comm₀ hpos (by linarith)]
          rw [inv_le_iff_one_le_mul₀ (by linarith)]
          nlinarith
        linarith
      · have := Real.log_le_sub_one_of_pos hpos
        linarith
    · rw [Real.exp_log hpos, hfd]
      field_simp

theorem near_fac {n : Nat} {f x : ℚ} (h : Fac n f) (hn : (1 + u) ^ n - 1 ≤ 1 / 2) :
    Near (2 * (((1 + u) ^ n - 1 : ℚ) : ℝ)) ((x * f : ℚ) : ℝ) x := by
  have h0 : (0 : ℚ) ≤ (1 + u) ^ n - 1 := by
    have := one_le_fac n
    linarith
  apply near_of_rel (Rat.cast_nonneg.2 h0) ((Rat.cast_le.2 hn).trans_eq (by norm_num))
  rw [← Rat.cast_sub, ← Rat.cast_abs, ← Rat.cast_abs, ← Rat.cast_mul, Rat.cast_le]
  have : x * f - x = x * (f - 1) := by ring
  rw [this, abs_mul]
  exact mul_le_mul_of_nonneg_left h (abs_nonneg _)

/-- One operation. -/
theorem fl_near {x : ℚ} (h : Safe x) : Near (2 * u) (fl x) x := by
  obtain ⟨f, hf, e⟩ := fl_fac h
  rw [e]
  refine (near_fac hf (by unfold u; norm_num)).up ?_
  rw [pow_one, add_sub_cancel_left]

/-! ## The exponent and the determinant -/

variable {P : Cov4} {R : Cov2} {x : Fin 4 → ℚ} {z : Fin 2 → ℚ}

/-- No operation on the weight over- or underflows. -/
def SafeWeight (ex sq : ℚ → ℚ) (c w pD kz : ℚ) (x : Fin 4 → ℚ) (P : Cov4) (z : Fin 2 → ℚ) (R : Cov2) : Prop :=
  let D := inv2 (innov P R)
  let dz := dzF x z
  let r : Fin 2 → ℚ := fun l => fl (fl (dz 0 * D 0 l) + fl (dz 1 * D 1 l))
  (∀ l, Safe (innovX x z l)) ∧
  (∀ l, Safe (dz 0 * D 0 l) ∧ Safe (dz 1 * D 1 l) ∧ Safe (fl (dz 0 * D 0 l) + fl (dz 1 * D 1 l))) ∧
  (Safe (r 0 * dz 0) ∧ Safe (r 1 * dz 1) ∧ Safe (fl (r 0 * dz 0) + fl (r 1 * dz 1)) ∧
    Safe (-quad dz D * (1 / 2))) ∧
  (Safe (D 0 0 * D 1 1) ∧ Safe (D 1 0 * D 0 1) ∧ Safe (fl (D 0 0 * D 1 1) - fl (D 1 0 * D 0 1)) ∧
    Safe (det2 D / c)) ∧
  Safe (ex (fl (-quad dz D * (1 / 2))) * sq (fl (det2 D / c))) ∧
  Safe (pD * likeF ex sq c dz D) ∧ Safe (fl (pD * likeF ex sq c dz D) / kz) ∧
  Safe (w * fl (fl (pD * likeF ex sq c dz D) / kz))

instance (ex sq : ℚ → ℚ) (c w pD kz : ℚ) (x : Fin 4 → ℚ) (P : Cov4) (z : Fin 2 → ℚ) (R : Cov2) :
    Decidable (SafeWeight ex sq c w pD kz x P z R) := by
  unfold SafeWeight; infer_instance

theorem quad_term {s t D k y y' m : ℚ} (hm : 0 ≤ m) (hy : y ^ 2 ≤ s * m) (hy' : y' ^ 2 ≤ t * m)
    (hk : 0 ≤ k) (hD : D ^ 2 * (s * t) ≤ k ^ 2) : Bd (m ^ 2) k (y * D * y') := by
  refine ⟨hk, ?_⟩
  have h3 : y ^ 2 * y' ^ 2 ≤ s * m * (t * m) := mul_le_mul hy hy' (sq_nonneg _) ((sq_nonneg _).trans hy)
  calc (y * D * y') ^ 2 = D ^ 2 * (y ^ 2 * y' ^ 2) := by ring
    _ ≤ D ^ 2 * (s * m * (t * m)) := mul_le_mul_of_nonneg_left h3 (sq_nonneg _)
    _ = D ^ 2 * (s * t) * m ^ 2 := by ring
    _ ≤ k ^ 2 * m ^ 2 := mul_le_mul_of_nonneg_right hD (sq_nonneg _)

theorem kappa_ge (hd : 0 < det P R) : 1 ≤ kappa P R := by
  unfold kappa
  have hdet : det P R = s0 P R * s1 P R - sx P R ^ 2 := rfl
  rw [one_le_div hd, hdet]
  have := sq_nonneg (sx P R)
  linarith

/-- The exponent is computed up to a relative error of `64 kappa u`. -/
theorem quad_err (hP : IsCov P) (hR : IsCov R) (hd : 0 < det P R) (hk : kappa P R ≤ 2 ^ 40)
    (hs : SafeUpdate P R) {ex sq : ℚ → ℚ} {c w pD kz : ℚ} (hw : SafeWeight ex sq c w pD kz x P z R) :
    |quad (dzF x z) (inv2 (innov P R)) - maha x P z R| ≤ 64 * (kappa P R * u) * maha x P z R := by
  obtain ⟨p0, p1⟩ := s_pos hP hR hd
  have hdet : det P R = s0 P R * s1 P R - sx P R ^ 2 := rfl
  have hk1 := kappa_ge hd
  have hk2 : kappa P R * u ≤ 1 / 2 ^ 10 := by
    refine (mul_le_mul_of_nonneg_right hk u_pos.le).trans ?_
    unfold u; norm_num
  have hab : 0 ≤ s0 P R * s1 P R := (mul_pos p0 p1).le
  have hc : sx P R ^ 2 ≤ s0 P R * s1 P R := by linarith
  have hk0 : 0 ≤ kappa P R := zero_le_one.trans hk1
  have hkk : ∀ {D X : ℚ}, D ^ 2 * X = s0 P R * s1 P R * (s0 P R * s1 P R) / det P R ^ 2 →
      D ^ 2 * X ≤ kappa P R ^ 2 := by
    intro D X h
    rw [h]
    unfold kappa
    rw [div_pow, _root_.sq (s0 P R * s1 P R)]
  have hx2 : (-sx P R / det P R) ^ 2 * (s0 P R * s1 P R) ≤ kappa P R ^ 2 := by
    unfold kappa
    rw [div_pow, div_pow, div_mul_eq_mul_div, neg_sq]
    apply div_le_div_of_nonneg_right _ (sq_nonneg _)
    rw [_root_.sq (s0 P R * s1 P R)]
    exact mul_le_mul_of_nonneg_right hc hab
  obtain ⟨v, hq, f0, f1, f2, f3, o0, o1, o2, o3, D00, D01, D10, D11⟩ := inv_fac hP hR hd hk hs
  obtain ⟨m1, m2, ⟨n0, n1, n2, -⟩, -⟩ := hw
  obtain ⟨b0, t0, c0⟩ := fl_fac (m1 0)
  obtain ⟨b1, t1, c1⟩ := fl_fac (m1 1)
  have d0 : dzF x z 0 = innovX x z 0 * b0 := c0
  have d1 : dzF x z 1 = innovX x z 1 * b1 := c1
  obtain ⟨a0, r0, z0⟩ := fl_fac (m2 0).1
  obtain ⟨a1, r1, z1⟩ := fl_fac (m2 0).2.1
  obtain ⟨a2, r2, z2⟩ := fl_fac (m2 0).2.2
  obtain ⟨a3, r3, z3⟩ := fl_fac (m2 1).1
  obtain ⟨a4, r4, z4⟩ := fl_fac (m2 1).2.1
  obtain ⟨a5, r5, z5⟩ := fl_fac (m2 1).2.2
  obtain ⟨g0, k0, e0⟩ := fl_fac n0
  obtain ⟨g1, k1, e1⟩ := fl_fac n1
  obtain ⟨g2, k2, e2⟩ := fl_fac n2
  obtain ⟨y0, y1⟩ := innov_le (x := x) (z := z) hP hR hd
  have hmn := maha_nonneg (x := x) (z := z) hP hR hd
  have T0 := quad_term (D := s1 P R / det P R) hmn y0 y0 hk0 (hkk (by rw [div_pow]; ring))
  have T1 := quad_term (D := -sx P R / det P R) hmn y1 y0 hk0 (by rw [mul_comm (s1 P R)]; exact hx2)
  have T2 := quad_term (D := -sx P R / det P R) hmn y0 y1 hk0 hx2
  have T3 := quad_term (D := s0 P R / det P R) hmn y1 y1 hk0 (hkk (by rw [div_pow]; ring))
  have F : ∀ {w z1 z2 z3 z4 z5 z6 : ℚ}, Fac 2 w → Fac 1 z1 → Fac 1 z2 → Fac 1 z3 → Fac 1 z4 → Fac 1 z5 →
      Fac 1 z6 → Fac 8 (w * z1 * z2 * z3 * z4 * z5 * z6) := fun o o1 o2 o3 o4 o5 o6 =>
    fac_mul' (fac_mul (fac_mul (fac_mul (fac_mul (fac_mul o o1) o2) o3) o4) o5) o6 (by norm_num)
  have hG : maha x P z R = innovX x z 0 * (s1 P R / det P R) * innovX x z 0 +
      innovX x z 1 * (-sx P R / det P R) * innovX x z 0 + innovX x z 0 * (-sx P R / det P R) * innovX x z 1 +
      innovX x z 1 * (s0 P R / det P R) * innovX x z 1 := by
    unfold maha; ring
  have hGb : Bd (maha x P z R ^ 2) 1 (maha x P z R) := ⟨zero_le_one, by rw [one_pow, one_mul]⟩
  have hsum := sum_err4 (sq_nonneg _) hk1 hk2 hq hG hGb T0 T1 T2 T3 (F o0 t0 r0 r2 t0 k0 k2)
    (F o2 t1 r1 r2 t0 k0 k2) (F o1 t0 r3 r5 t1 k1 k2) (F o3 t1 r4 r5 t1 k1 k2)
  have hE : quad (dzF x z) (inv2 (innov P R)) = v * det P R *
      (innovX x z 0 * (s1 P R / det P R) * innovX x z 0 * (f0 * b0 * a0 * a2 * b0 * g0 * g2) +
      innovX x z 1 * (-sx P R / det P R) * innovX x z 0 * (f2 * b1 * a1 * a2 * b0 * g0 * g2) +
      innovX x z 0 * (-sx P R / det P R) * innovX x z 1 * (f1 * b0 * a3 * a5 * b1 * g1 * g2) +
      innovX x z 1 * (s0 P R / det P R) * innovX x z 1 * (f3 * b1 * a4 * a5 * b1 * g1 * g2)) := by
    show fl (fl (fl (fl (dzF x z 0 * inv2 (innov P R) 0 0) + fl (dzF x z 1 * inv2 (innov P R) 1 0)) * dzF x z 0) +
      fl (fl (fl (dzF x z 0 * inv2 (innov P R) 0 1) + fl (dzF x z 1 * inv2 (innov P R) 1 1)) * dzF x z 1)) = _
    rw [e2, e0, e1]
    beta_reduce
    rw [z2, z0, z1, z5, z3, z4, D00, D01, D10, D11, d0, d1]
    have hne := hd.ne'
    generalize det P R = d at hne
    field_simp
    ring
  rw [← hE] at hsum
  have h1 := hsum.2
  rw [← mul_pow] at h1
  exact abs_le_of_sq_le_sq h1 (mul_nonneg hsum.1 hmn)

/-- The determinant of the computed inverse. -/
theorem det_near (hP : IsCov P) (hR : IsCov R) (hd : 0 < det P R) (hk : kappa P R ≤ 2 ^ 40)
    (hs : SafeUpdate P R) {ex sq : ℚ → ℚ} {c w pD kz : ℚ} (hw : SafeWeight ex sq c w pD kz x P z R) :
    Near (72 * (kappa P R * u : ℚ)) (det2 (inv2 (innov P R)) : ℚ) ((1 / det P R : ℚ) : ℝ) := by
  have hdet : det P R = s0 P R * s1 P R - sx P R ^ 2 := rfl
  obtain ⟨p0, p1⟩ := s_pos hP hR hd
  have hk1 := kappa_ge hd
  have hk2 : kappa P R * u ≤ 1 / 2 ^ 12 := by
    refine (mul_le_mul_of_nonneg_right hk u_pos.le).trans ?_
    unfold u; norm_num
  have hku : 0 ≤ kappa P R * u := mul_nonneg (by linarith) u_pos.le
  have hkd : kappa P R * det P R = s0 P R * s1 P R := by unfold kappa; field_simp
  have hab : 0 ≤ s0 P R * s1 P R := (mul_pos p0 p1).le
  have hc : sx P R ^ 2 ≤ s0 P R * s1 P R := by linarith
  obtain ⟨v, hq, f0, f1, f2, f3, o0, o1, o2, o3, D00, D01, D10, D11⟩ := inv_fac hP hR hd hk hs
  obtain ⟨-, -, -, ⟨n0, n1, n2, -⟩, -⟩ := hw
  obtain ⟨g0, k0, e0⟩ := fl_fac n0
  obtain ⟨g1, k1, e1⟩ := fl_fac n1
  obtain ⟨g2, k2, e2⟩ := fl_fac n2
  have A : Fac 6 (f0 * f3 * g0 * g2) := fac_mul' (fac_mul (fac_mul o0 o3) k0) k2 (by norm_num)
  have B : Fac 6 (f2 * f1 * g1 * g2) := fac_mul' (fac_mul (fac_mul o2 o1) k1) k2 (by norm_num)
  have h6 : (1 + u) ^ 6 - 1 ≤ 7 * u := by unfold u; norm_num
  set W := s0 P R * s1 P R * (f0 * f3 * g0 * g2) - sx P R ^ 2 * (f2 * f1 * g1 * g2) with hW
  have hE : det2 (inv2 (innov P R)) = v ^ 2 * W := by
    unfold det2
    rw [e2, e0, e1, D00, D01, D10, D11, hW]
    ring
  have hWe : |W - det P R| ≤ |det P R| * (14 * (kappa P R * u)) := by
    have e : W - det P R = s0 P R * s1 P R * (f0 * f3 * g0 * g2 - 1) -
        sx P R ^ 2 * (f2 * f1 * g1 * g2 - 1) := by rw [hW, hdet]; ring
    rw [e]
    refine (abs_sub _ _).trans ?_
    rw [abs_mul (s0 P R * s1 P R), abs_mul (sx P R ^ 2), abs_of_nonneg hab, abs_of_nonneg (sq_nonneg (sx P R)),
      abs_of_pos hd]
    have b1 := mul_le_mul_of_nonneg_left (A.trans h6) hab
    have b2 : sx P R ^ 2 * |f2 * f1 * g1 * g2 - 1| ≤ s0 P R * s1 P R * (7 * u) :=
      mul_le_mul hc (B.trans h6) (abs_nonneg _) hab
    have e3 : det P R * (14 * (kappa P R * u)) = s0 P R * s1 P R * (7 * u) + s0 P R * s1 P R * (7 * u) := by
      rw [← hkd]; ring
    rw [e3]
    exact add_le_add b1 b2
  have c1 : Near (28 * (kappa P R * u : ℚ)) (W : ℚ) (det P R : ℚ) := by
    refine (near_of_rel (e := ((14 * (kappa P R * u) : ℚ) : ℝ)) (Rat.cast_nonneg.2 (by linarith)) ?_ ?_).up ?_
    · refine (Rat.cast_le.2 (show 14 * (kappa P R * u) ≤ 1 / 2 by linarith)).trans_eq (by norm_num)
    · exact_mod_cast hWe
    · push_cast; linarith
  have c2 : Near (22 * (kappa P R * u : ℚ)) ((v * det P R : ℚ) : ℝ) 1 := by
    refine (near_of_rel (e := ((11 * (kappa P R * u) : ℚ) : ℝ)) (Rat.cast_nonneg.2 (by linarith)) ?_ ?_).up ?_
    · refine (Rat.cast_le.2 (show 11 * (kappa P R * u) ≤ 1 / 2 by linarith)).trans_eq (by norm_num)
    · rw [abs_one, one_mul]
      exact_mod_cast hq
    · push_cast; linarith
  have c3 := (c2.mul c2).mul c1
  have hdr : ((det P R : ℚ) : ℝ) ≠ 0 := by exact_mod_cast hd.ne'
  have c4 := c3.div (Near.refl (((det P R : ℚ) : ℝ) ^ 2))
  have e1 : ((v * det P R : ℚ) : ℝ) * ((v * det P R : ℚ) : ℝ) * (W : ℚ) / ((det P R : ℚ) : ℝ) ^ 2 =
      ((v ^ 2 * W : ℚ) : ℝ) := by
    push_cast
    field_simp
  have e2 : (1 : ℝ) * 1 * (det P R : ℚ) / ((det P R : ℚ) : ℝ) ^ 2 = ((1 / det P R : ℚ) : ℝ) := by
    push_cast
    field_simp
  rw [e1, e2, ← hE] at c4
  exact c4.up (by linarith)

/-! ## The weight -/

/-- The exact likelihood. -/
theorem exact_like (hP : IsCov P) (hR : IsCov R) (hd : 0 < det P R) (x : Fin 4 → ℚ) (z : Fin 2 → ℚ) (w kz : ℝ) :
    Kalman.likelihood (Kalman.innov Kalman.posH (reportOf z R kz) (gaussOf x P w))
      (Kalman.dinv Kalman.posH (reportOf z R kz) (gaussOf x P w)) =
    Real.exp (-((maha x P z R : ℚ) : ℝ) / 2) *
      Real.sqrt (((1 / det P R : ℚ) : ℝ) / (2 * Real.pi) ^ 2) := by
  have hdr : ((det P R : ℚ) : ℝ) ≠ 0 := by exact_mod_cast hd.ne'
  have hdet : ((det P R : ℚ) : ℝ) = s0 P R * s1 P R - sx P R ^ 2 := by unfold det; push_cast; ring
  unfold Kalman.likelihood
  rw [dinv_eq hP hR]
  congr 2
  · have h : (Kalman.innov Kalman.posH (reportOf z R kz) (gaussOf x P w)) =
        ![((innovX x z 0 : ℚ) : ℝ), ((innovX x z 1 : ℚ) : ℝ)] := by
      ext l
      fin_cases l <;>
        simp [Kalman.innov, Kalman.posH, Matrix.mulVec, dotProduct, Fin.sum_univ_four, gaussOf, reportOf, innovX]
    rw [h]
    simp [Matrix.mulVec, dotProduct, Fin.sum_univ_two, maha]
    field_simp
    ring
  · rw [Matrix.det_smul, Matrix.det_fin_two_of, Fintype.card_fin]
    congr 1
    push_cast
    have : (s1 P R : ℝ) * s0 P R - -sx P R * -sx P R = (det P R : ℚ) := by rw [hdet]; ring
    rw [this]
    field_simp

/-- **C118 (what rounding does to the weight).**  Where no operation over- or underflows, the report is within
`√1000` standard deviations, the condition of the innovation covariance is at most `2^40` and the library functions
are right up to a few units in the last place, the computed weight is the exact one up to a factor whose
logarithm is at most `(33 maha + 53) kappa / 2^52`. -/
theorem C118_weight (hP : IsCov P) (hR : IsCov R) (hd : 0 < det P R) (hk : kappa P R ≤ 2 ^ 40)
    (hs : SafeUpdate P R) {ex sq : ℚ → ℚ} (hex : ExpUlp ex) (hsq : SqrtUlp sq) {c : ℚ} (hc : PowUlp c)
    (hm : maha x P z R ≤ 1000) {w pD kz : ℚ} (hw : SafeWeight ex sq c w pD kz x P z R) :
    Near (((33 * maha x P z R + 53) * kappa P R / 2 ^ 52 : ℚ) : ℝ) (correctW ex sq c w pD kz x P z R : ℚ)
      (Kalman.correct Kalman.posH pD (reportOf z R kz) (gaussOf x P w)).w := by
  have hk1 := kappa_ge hd
  have hk2 : kappa P R * u ≤ 1 / 2 ^ 12 := by
    refine (mul_le_mul_of_nonneg_right hk u_pos.le).trans ?_
    unfold u; norm_num
  have hku : u ≤ kappa P R * u := le_mul_of_one_le_left u_pos.le hk1
  have hu0 := u_pos
  have hmn := maha_nonneg (x := x) (z := z) hP hR hd
  have hquad := quad_err hP hR hd hk hs hw
  have hdetn := det_near hP hR hd hk hs hw
  obtain ⟨-, -, ⟨-, -, -, n1⟩, ⟨-, -, -, n2⟩, n3, n4, n5, n6⟩ := hw
  set D := inv2 (innov P R) with hD
  set dz := dzF x z with hdz
  set q := quad dz D with hq
  set m := maha x P z R with hmd
  set k := kappa P R with hkd
  -- the exponent
  obtain ⟨f, hf, ef⟩ := fl_fac n1
  have hf' : |f - 1| ≤ u := by
    have := hf
    unfold Fac at this
    rw [pow_one] at this
    linarith
  have hqa : |q| ≤ 11 / 10 * m := by
    have h1 : |q| ≤ |q - m| + |m| := by
      have := abs_add_le (q - m) m
      rwa [sub_add_cancel] at this
    rw [abs_of_nonneg hmn] at h1
    have h2 : 64 * (k * u) * m ≤ 64 * (1 / 2 ^ 12) * m :=
      mul_le_mul_of_nonneg_right (by linarith) hmn
    linarith
  have hE : |fl (-q * (1 / 2)) + m / 2| ≤ 33 * (k * u) * m := by
    have e : fl (-q * (1 / 2)) + m / 2 = -(q * (f - 1)) / 2 - (q - m) / 2 := by rw [ef]; ring
    rw [e]
    refine (abs_sub _ _).trans ?_
    rw [abs_div, abs_div, abs_neg, abs_mul, abs_two]
    have h1 : |q| * |f - 1| ≤ 11 / 10 * m * u := mul_le_mul hqa hf' (abs_nonneg _) (by positivity)
    have h2 : m * u ≤ k * u * m := by
      rw [mul_comm]
      exact mul_le_mul_of_nonneg_right hku hmn
    have h3 : 0 ≤ k * u * m := mul_nonneg (hu0.le.trans hku) hmn
    linarith
  have hEr := abs_le.1 hE
  have hkm : 33 * (k * u) * m ≤ 33 * (1 / 2 ^ 12) * m := mul_le_mul_of_nonneg_right (by linarith) hmn
  have x1 := hex (fl (-q * (1 / 2))) (by linarith) (by linarith)
  have a1 : Near (33 * (k * u : ℚ) * (m : ℚ)) (Real.exp (fl (-q * (1 / 2)) : ℚ)) (Real.exp (-(m : ℝ) / 2)) := by
    refine ⟨((fl (-q * (1 / 2)) + m / 2 : ℚ) : ℝ), ?_, ?_⟩
    · rw [← Rat.cast_abs]
      exact_mod_cast hE
    · rw [← Real.exp_add]
      congr 1
      push_cast
      ring
  have hu52 : ((u : ℚ) : ℝ) = 1 / 2 ^ 52 := by unfold u; norm_num
  have a2 : Near (2 * (u : ℚ)) (ex (fl (-q * (1 / 2))) : ℚ) (Real.exp (fl (-q * (1 / 2)) : ℚ)) := by
    refine near_of_rel (by rw [hu52]; positivity) (by rw [hu52]; norm_num) ?_
    rw [abs_of_pos (Real.exp_pos _), hu52]
    exact x1.trans_eq (by ring)
  have a3 := a2.trans a1
  -- the determinant
  have hpi : 0 < (2 * Real.pi) ^ 2 := by have := Real.pi_pos; positivity
  have b1 : Near (8 * (u : ℚ)) (c : ℚ) ((2 * Real.pi) ^ 2) := by
    refine (near_of_rel (e := 4 * (u : ℚ)) (by rw [hu52]; positivity) (by rw [hu52]; norm_num) ?_).up (by linarith)
    rw [abs_of_pos hpi, hu52]
    refine hc.trans_eq ?_
    ring
  have b2 := (fl_near n2).trans ((show Near _ ((det2 D / c : ℚ) : ℝ) _ by
    rw [Rat.cast_div]; exact hdetn.div b1))
  have hpos : 0 < ((fl (det2 D / c) : ℚ) : ℝ) := by
    obtain ⟨d, _, e⟩ := b2
    rw [e]
    refine mul_pos (div_pos ?_ hpi) (Real.exp_pos _)
    exact_mod_cast one_div_pos.2 hd
  have x2 := hsq (fl (det2 D / c)) (by exact_mod_cast hpos.le)
  have b3 : Near (2 * (u : ℚ)) (sq (fl (det2 D / c)) : ℚ) (Real.sqrt (fl (det2 D / c) : ℚ)) := by
    refine near_of_rel (by rw [hu52]; positivity) (by rw [hu52]; norm_num) ?_
    rw [abs_of_nonneg (Real.sqrt_nonneg _), hu52]
    exact x2.trans_eq (by ring)
  have b4 := b3.trans b2.sqrt
  -- the products
  have c1 : Near _ ((likeF ex sq c dz D : ℚ) : ℝ) _ := (fl_near n3).trans (by
    rw [Rat.cast_mul]; exact a3.mul b4)
  rw [← exact_like hP hR hd x z w kz] at c1
  have c2 := (fl_near n4).trans (by rw [Rat.cast_mul]; exact (Near.refl (pD : ℝ)).mul c1)
  have c3 := (fl_near n5).trans (by rw [Rat.cast_div]; exact c2.div (Near.refl (kz : ℝ)))
  have c4 := (fl_near n6).trans (by rw [Rat.cast_mul]; exact (Near.refl (w : ℝ)).mul c3)
  refine Near.up c4 ?_
  have hkuR : ((u : ℚ) : ℝ) ≤ ((k * u : ℚ) : ℝ) := Rat.cast_le.2 hku
  have e : (((33 * m + 53) * k / 2 ^ 52 : ℚ) : ℝ) = 33 * ((k * u : ℚ) : ℝ) * (m : ℝ) + 53 * ((k * u : ℚ) : ℝ) := by
    push_cast
    rw [hu52]
    ring
  rw [e]
  linarith

/-! ## A concrete case -/

theorem safe_pos {x : ℚ} (h1 : 1 / 2 ^ 100 ≤ x) (h2 : x ≤ 2 ^ 100) : Safe x ∧ x / 2 ≤ fl x ∧ fl x ≤ 2 * x := by
  have h0 : 0 < x := lt_of_lt_of_le (by positivity) h1
  have hs : Safe x := .inr (by
    rw [abs_of_pos h0]
    exact ⟨(one_div_le_one_div_of_le (by positivity) (pow_le_pow_right₀ (by norm_num) (by norm_num))).trans h1,
      h2.trans (pow_le_pow_right₀ (by norm_num) (by norm_num))⟩)
  refine ⟨hs, ?_⟩
  obtain ⟨f, hf, e⟩ := fl_fac hs
  have hf' : |f - 1| ≤ 1 / 2 := by
    refine hf.trans ?_
    unfold u
    norm_num
  obtain ⟨f1, f2⟩ := abs_le.1 hf'
  rw [e]
  constructor
  · nlinarith
  · nlinarith

/-- The case of `C117`: correlated coordinates, a report off by five metres, clutter of density 1/1000.  Whatever
the library functions, the weight is right up to a factor whose logarithm is at most `1 / 2^45`. -/
example {ex sq : ℚ → ℚ} (hex : ExpUlp ex) (hsq : SqrtUlp sq) :
    Near (1 / 2 ^ 45) (correctW ex sq 39.47841760435743 (1 / 2) (9 / 10) (1 / 1000) ![0, 0, 1, 2]
        (mk 100 50 4 9 50 10) ![3, -4] (mkR 25) : ℚ)
      (Kalman.correct Kalman.posH (9 / 10 : ℚ) (reportOf ![3, -4] (mkR 25) (1 / 1000 : ℚ))
        (gaussOf ![0, 0, 1, 2] (mk 100 50 4 9 50 10) (1 / 2 : ℚ))).w := by
  set q := fl (-quad (dzF ![0, 0, 1, 2] ![3, -4]) (inv2 (innov (mk 100 50 4 9 50 10) (mkR 25))) * (1 / 2)) with hq
  set v := fl (det2 (inv2 (innov (mk 100 50 4 9 50 10) (mkR 25))) / 39.47841760435743) with hv
  have q1 : -(1 / 2) ≤ q := by decide +kernel
  have q2 : q ≤ 0 := by decide +kernel
  have v1 : (1 / 2 ^ 10) ^ 2 ≤ v := by decide +kernel
  have v2 : v ≤ 1 := by decide +kernel
  have e1 : 1 / 2 ≤ Real.exp q := by
    have := Real.add_one_le_exp (q : ℝ)
    have h : ((-(1 / 2) : ℚ) : ℝ) ≤ q := Rat.cast_le.2 q1
    push_cast at h
    linarith
  have e2 : Real.exp q ≤ 1 := Real.exp_le_one_iff.2 (Rat.cast_nonpos.2 q2)
  have s1 : 1 / 2 ^ 10 ≤ Real.sqrt v := Real.le_sqrt_of_sq_le (by
    have : (((1 / 2 ^ 10) ^ 2 : ℚ) : ℝ) ≤ v := Rat.cast_le.2 v1
    push_cast at this
    exact this)
  have s2 : Real.sqrt v ≤ 1 := Real.sqrt_le_one.2 (by exact_mod_cast v2)
  have x1 := abs_le.1 (hex q (by linarith) q2)
  have x2 := abs_le.1 (hsq v ((sq_nonneg _).trans v1))
  have a1 : 1 / 4 ≤ ex q := by
    have : ((1 / 4 : ℚ) : ℝ) ≤ ex q := by push_cast; linarith [x1.1]
    exact_mod_cast this
  have a2 : ex q ≤ 2 := by
    have : (ex q : ℝ) ≤ ((2 : ℚ) : ℝ) := by push_cast; linarith [x1.2]
    exact_mod_cast this
  have b1 : 1 / 2 ^ 11 ≤ sq v := by
    have : ((1 / 2 ^ 11 : ℚ) : ℝ) ≤ sq v := by push_cast; linarith [x2.1]
    exact_mod_cast this
  have b2 : sq v ≤ 2 := by
    have : (sq v : ℝ) ≤ ((2 : ℚ) : ℝ) := by push_cast; linarith [x2.2]
    exact_mod_cast this
  have p1 : 1 / 2 ^ 13 ≤ ex q * sq v := by
    have := mul_le_mul a1 b1 (by norm_num) (by linarith)
    linarith
  have p2 : ex q * sq v ≤ 4 := by
    have := mul_le_mul a2 b2 (by linarith) (by norm_num)
    linarith
  obtain ⟨c1, c2, c3⟩ := safe_pos (x := ex q * sq v) (by linarith) (by linarith)
  set l := fl (ex q * sq v) with hl
  obtain ⟨d1, d2, d3⟩ := safe_pos (x := 9 / 10 * l) (by linarith) (by linarith)
  obtain ⟨g1, g2, g3⟩ := safe_pos (x := fl (9 / 10 * l) / (1 / 1000)) (by linarith) (by linarith)
  obtain ⟨h1, -, -⟩ := safe_pos (x := 1 / 2 * fl (fl (9 / 10 * l) / (1 / 1000))) (by linarith) (by linarith)
  refine (C118_weight (x := ![0, 0, 1, 2]) (z := ![3, -4]) (w := 1 / 2) (pD := 9 / 10) (kz := 1 / 1000)
    (mk_cov (a := 100) (b := 50) (c := 4) (d := 9) (x := 50) (w := 10) (by norm_num) (by norm_num) (by norm_num)
    (by norm_num)) (mkR_cov (r := 25) (by norm_num)) (by decide +kernel) (by decide +kernel) (by decide +kernel)
    hex hsq ulp_exists.2.2 (by decide +kernel)
    ⟨by decide +kernel, by decide +kernel, by decide +kernel, by decide +kernel, c1, d1, g1, h1⟩).up ?_
  have : (33 * maha ![0, 0, 1, 2] (mk 100 50 4 9 50 10) ![3, -4] (mkR 25) + 53) *
      kappa (mk 100 50 4 9 50 10) (mkR 25) / 2 ^ 52 ≤ 1 / 2 ^ 45 := by decide +kernel
  refine (Rat.cast_le.2 this).trans_eq ?_
  norm_num

end Verif.KalmanF

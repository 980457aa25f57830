import Mathlib.Analysis.SpecialFunctions.Trigonometric.Bounds
import Mathlib.Analysis.Real.Pi.Bounds
import Verif.CF.Olson
import Verif.CF.Props

/-!
# Property C64: latitudes come back

`ecef2ll (ll2ecef ·)` returns every latitude within `10⁻¹¹` degrees, about a micrometre on the ground.
-/

namespace Verif.CF

/-- The Newton step of `ecef2ll` takes an approximation `φ₀` of the latitude `φ` of a point on the
ellipsoid to one with the square of its error. -/
theorem newton {φ φ₀ N M : ℝ} (hN : 0 < N) (hNe : N ^ 2 * (1 - e2 * Real.sin φ ^ 2) = 1)
    (hM : 0 < M) (hMe : M ^ 2 * (1 - e2 * Real.sin φ₀ ^ 2) = 1) (hd : |φ - φ₀| ≤ 1 / 10 ^ 5) :
    |φ₀ + (Real.cos φ₀ * (N * (1 - e2) * Real.sin φ - k6 * M * Real.sin φ₀) -
        Real.sin φ₀ * (N * Real.cos φ - M * Real.cos φ₀)) /
      (k6 * M / (1 - e2 * Real.sin φ₀ ^ 2) + (Real.cos φ₀ * (N * Real.cos φ - M * Real.cos φ₀) +
        Real.sin φ₀ * (N * (1 - e2) * Real.sin φ - k6 * M * Real.sin φ₀))) - φ| ≤
      25 / 10 ^ 3 * (φ - φ₀) ^ 2 + 1 / 10 ^ 17 ∧
    |Real.cos φ₀ * (N * Real.cos φ - M * Real.cos φ₀) +
        Real.sin φ₀ * (N * (1 - e2) * Real.sin φ - k6 * M * Real.sin φ₀)| ≤ 2 / 10 ^ 6 := by
  have hS : Real.sin φ = Real.sin φ₀ * Real.cos (φ - φ₀) + Real.cos φ₀ * Real.sin (φ - φ₀) := by
    rw [← Real.sin_add, add_sub_cancel]
  have hC : Real.cos φ = Real.cos φ₀ * Real.cos (φ - φ₀) - Real.sin φ₀ * Real.sin (φ - φ₀) := by
    rw [← Real.cos_add, add_sub_cancel]
  have hsc := Real.sin_sq_add_cos_sq φ₀
  have hσ : |Real.sin (φ - φ₀)| ≤ |φ - φ₀| := by
    simpa using Real.abs_sin_sub_sin_le (φ - φ₀) 0
  have hσd : |Real.sin (φ - φ₀) - (φ - φ₀)| ≤ |φ - φ₀| ^ 3 / 4 := by
    rcases lt_trichotomy (φ - φ₀) 0 with h | h | h
    · have h1 := Real.sin_gt_sub_cube (neg_pos.2 h)
      have h2 := Real.sin_lt (neg_pos.2 h)
      rw [Real.sin_neg] at h1 h2
      rw [abs_of_neg h, abs_of_nonneg (by linarith)]
      have := pow_pos (neg_pos.2 h) 3
      linarith
    · rw [h]; simp
    · have h1 := Real.sin_gt_sub_cube h
      have h2 := Real.sin_lt h
      rw [abs_of_pos h, abs_of_nonpos (by linarith)]
      have := pow_pos h 3
      linarith
  have hκ0 : 0 ≤ 1 - Real.cos (φ - φ₀) := by linarith [Real.cos_le_one (φ - φ₀)]
  have hκ : 1 - Real.cos (φ - φ₀) ≤ (φ - φ₀) ^ 2 / 2 := by
    linarith [Real.one_sub_sq_div_two_le_cos (x := φ - φ₀)]
  obtain ⟨b1, b2, b3⟩ := newton_alg hsc hS (Real.abs_sin_le_one φ) hN hNe hM hMe hd hσ hσd hκ0 hκ
    (Real.abs_sin_sub_sin_le φ φ₀)
  obtain ⟨m1, m2⟩ := radius_bounds hM (Real.abs_sin_le_one φ₀) hMe
  obtain ⟨μ, hμ⟩ : ∃ μ, μ = 1 - e2 - k6 := ⟨_, rfl⟩
  have hμ0 : 0 ≤ μ ∧ μ ≤ 1 / 10 ^ 18 := by
    rw [hμ]; unfold e2 k6; constructor <;> norm_num
  have hk6 : k6 = 1 - e2 - μ := by linarith
  have hg0 : 1 - e2 * Real.sin φ₀ ^ 2 ≠ 0 := by
    intro h
    rw [h, mul_zero] at hMe
    exact zero_ne_one hMe
  have hdiv : k6 * M / (1 - e2 * Real.sin φ₀ ^ 2) = k6 * M ^ 3 := by
    rw [div_eq_iff hg0]
    linear_combination (-k6 * M) * hMe
  rw [hdiv]
  have hs1 := Real.abs_sin_le_one φ₀
  have hc1 := Real.abs_cos_le_one φ₀
  have hσκ := Real.sin_sq_add_cos_sq (φ - φ₀)
  generalize Real.sin φ₀ = s at *
  generalize Real.cos φ₀ = c at *
  generalize Real.sin (φ - φ₀) = σ at *
  generalize Real.cos (φ - φ₀) = κ at *
  generalize Real.sin φ = S at *
  generalize Real.cos φ = C at *
  obtain ⟨d, hde⟩ : ∃ d, d = φ - φ₀ := ⟨_, rfl⟩
  have hφ : φ = φ₀ + d := by linarith
  rw [← hde] at hd b1 ⊢
  have hm : c * (N * (1 - e2) * S - k6 * M * s) - s * (N * C - M * c) =
      (N * σ - e2 * c * (N * S - M * s)) + μ * (c * s * M) := by
    rw [hk6, hS, hC]
    linear_combination (N * σ) * hsc
  have hf : c * (N * C - M * c) + s * (N * (1 - e2) * S - k6 * M * s) =
      (N * κ - e2 * N * S * s - M * (1 - e2 * s ^ 2)) + μ * (M * s ^ 2) := by
    rw [hk6, hS, hC]
    linear_combination (N * κ - M) * hsc
  rw [hm, hf]
  generalize N * σ - e2 * c * (N * S - M * s) = m at *
  generalize N * κ - e2 * N * S * s - M * (1 - e2 * s ^ 2) = f at *
  clear hm hf hS hC hNe hN hσd hσ hκ hκ0 hσκ hdiv
  obtain ⟨hμ0, hμ1⟩ := hμ0
  have hM3 : M ^ 3 ≤ 102 / 100 := by
    have : M ^ 3 ≤ (1004 / 1000) ^ 3 := pow_le_pow_left₀ hM.le m2 3
    linarith
  have hM31 : 1 ≤ M ^ 3 := one_le_pow₀ m1
  have hs2 : 0 ≤ s ^ 2 ∧ s ^ 2 ≤ 1 := by
    constructor
    · positivity
    · linarith [sq_nonneg c]
  have hcs : |c * s * M| ≤ 2 := by
    rw [abs_mul, abs_mul, abs_of_pos hM]
    have h1 : |c| * |s| ≤ 1 * 1 := mul_le_mul hc1 hs1 (abs_nonneg s) zero_le_one
    have h2 := mul_le_mul h1 m2 hM.le (by norm_num)
    linarith
  have hMs : 0 ≤ M * s ^ 2 ∧ M * s ^ 2 ≤ 2 := by
    refine ⟨mul_nonneg hM.le hs2.1, ?_⟩
    have := mul_le_mul m2 hs2.2 hs2.1 (by norm_num)
    linarith
  have hw1 : |μ * (c * s * M)| ≤ 2 / 10 ^ 18 := by
    rw [abs_mul, abs_of_nonneg hμ0]
    have := mul_le_mul hμ1 hcs (abs_nonneg _) (by norm_num)
    linarith
  have hw2 : 0 ≤ μ * (M * s ^ 2) ∧ μ * (M * s ^ 2) ≤ 2 / 10 ^ 18 := by
    refine ⟨mul_nonneg hμ0 hMs.1, ?_⟩
    have := mul_le_mul hμ1 hMs.2 hMs.1 (by norm_num)
    linarith
  have hw3 : 0 ≤ μ * M ^ 3 ∧ μ * M ^ 3 ≤ 2 / 10 ^ 18 := by
    refine ⟨mul_nonneg hμ0 (by linarith), ?_⟩
    have := mul_le_mul hμ1 hM3 (by linarith) (by norm_num)
    linarith
  obtain ⟨b2a, b2b⟩ := abs_le.1 b2
  have he : 0 < e2 ∧ e2 ≤ 67 / 10 ^ 4 := by unfold e2; constructor <;> norm_num
  have hle : (1 - 67 / 10 ^ 4) * 1 ≤ (1 - e2) * M ^ 3 :=
    mul_le_mul (by linarith) hM31 zero_le_one (by linarith)
  have hden : 99 / 100 ≤ k6 * M ^ 3 + (f + μ * (M * s ^ 2)) := by
    rw [hk6]
    linarith
  constructor
  · have hpos : 0 < k6 * M ^ 3 + (f + μ * (M * s ^ 2)) := by linarith
    rw [hφ, show φ₀ + (m + μ * (c * s * M)) / (k6 * M ^ 3 + (f + μ * (M * s ^ 2))) - (φ₀ + d) =
      ((m + μ * (c * s * M)) - d * (k6 * M ^ 3 + (f + μ * (M * s ^ 2)))) /
        (k6 * M ^ 3 + (f + μ * (M * s ^ 2))) from by
        rw [sub_div, mul_div_cancel_right₀ _ hpos.ne']; ring]
    rw [abs_div, abs_of_pos hpos, div_le_iff₀ hpos]
    have h1 : |m + μ * (c * s * M) - d * (k6 * M ^ 3 + (f + μ * (M * s ^ 2)))| ≤
        245 / 10 ^ 4 * d ^ 2 + 6 / 10 ^ 18 := by
      rw [hk6, show m + μ * (c * s * M) - d * ((1 - e2 - μ) * M ^ 3 + (f + μ * (M * s ^ 2))) =
        (m - d * ((1 - e2) * M ^ 3 + f)) + μ * (c * s * M) + d * (μ * M ^ 3 - μ * (M * s ^ 2)) from
          by ring]
      have h2 : |d * (μ * M ^ 3 - μ * (M * s ^ 2))| ≤ 1 / 10 ^ 5 * (4 / 10 ^ 18) := by
        rw [abs_mul]
        exact mul_le_mul hd (abs_le.2 ⟨by linarith, by linarith⟩) (abs_nonneg _) (by norm_num)
      refine (abs_add_le _ _).trans ((add_le_add (abs_add_le _ _) le_rfl).trans ?_)
      linarith
    have h3 : (25 / 10 ^ 3 * d ^ 2 + 1 / 10 ^ 17) * (99 / 100) ≤
        (25 / 10 ^ 3 * d ^ 2 + 1 / 10 ^ 17) * (k6 * M ^ 3 + (f + μ * (M * s ^ 2))) :=
      mul_le_mul_of_nonneg_left hden (by positivity)
    have := sq_nonneg d
    linarith
  · refine (abs_add_le _ _).trans ?_
    rw [abs_of_nonneg hw2.1]
    linarith

/-- A small angle is not much larger than its sine. -/
theorem angle_le {d : ℝ} (h1 : |d| ≤ Real.pi / 2) (h2 : |Real.sin d| ≤ 235 / 10 ^ 8) :
    |d| ≤ 236 / 10 ^ 8 := by
  have key : ∀ t : ℝ, 0 ≤ t → t ≤ Real.pi / 2 → Real.sin t ≤ 235 / 10 ^ 8 → t ≤ 236 / 10 ^ 8 := by
    intro t h0 h1 h2
    rcases h0.lt_or_eq with h0 | h0
    · have h3 := Real.mul_le_sin h0.le h1
      have hpi := Real.pi_le_four
      have hpi0 := Real.pi_pos
      have h4 : 2 / 4 * t ≤ 2 / Real.pi * t :=
        mul_le_mul_of_nonneg_right (div_le_div_of_nonneg_left (by norm_num) hpi0 hpi) h0.le
      have h5 : t ≤ 5 / 10 ^ 6 := by linarith
      have h6 := Real.sin_gt_sub_cube h0
      have h7 : t ^ 3 ≤ (5 / 10 ^ 6) ^ 3 := pow_le_pow_left₀ h0.le h5 3
      linarith
    · rw [← h0]; norm_num
  rcases abs_cases d with ⟨h, h0⟩ | ⟨h, h0⟩
  · rw [h] at h1 ⊢
    exact key d h0 h1 ((le_abs_self _).trans h2)
  · rw [h] at h1 ⊢
    refine key (-d) (by linarith) h1 ?_
    rw [Real.sin_neg]
    exact (neg_le_abs _).trans h2

/-- The end of `ecef2ll`, from a good first approximation. -/
theorem tail_bound {φ φ₀ N s c ss : ℝ} (hN : 0 < N) (hNe : N ^ 2 * (1 - e2 * Real.sin φ ^ 2) = 1)
    (hs : Real.sin φ₀ = s) (hc : Real.cos φ₀ = c) (hss : ss = s ^ 2) (h1 : |φ - φ₀| ≤ Real.pi / 2)
    (h2 : |Real.sin (φ - φ₀)| ≤ 235 / 10 ^ 8) :
    |φ₀ + (c * (ea * (N * (1 - e2) * Real.sin φ) - k6 * (ea / Real.sqrt (1 - e2 * ss)) * s) -
        s * (ea * (N * Real.cos φ) - ea / Real.sqrt (1 - e2 * ss) * c)) /
      (k6 * (ea / Real.sqrt (1 - e2 * ss)) / (1 - e2 * ss) +
        (c * (ea * (N * Real.cos φ) - ea / Real.sqrt (1 - e2 * ss) * c) +
        s * (ea * (N * (1 - e2) * Real.sin φ) - k6 * (ea / Real.sqrt (1 - e2 * ss)) * s))) - φ| ≤
      15 / 10 ^ 14 := by
  have hd := angle_le h1 h2
  have he : 0 < e2 ∧ e2 ≤ 67 / 10 ^ 4 := by unfold e2; constructor <;> norm_num
  have hs1 : s ^ 2 ≤ 1 := by rw [← hs]; exact Real.sin_sq_le_one φ₀
  have hg : 0 < 1 - e2 * ss := by
    rw [hss]
    have := mul_le_mul he.2 hs1 (sq_nonneg s) (by norm_num)
    linarith
  have hsq := Real.sq_sqrt hg.le
  have hsp := Real.sqrt_pos.2 hg
  generalize Real.sqrt (1 - e2 * ss) = G at *
  have hMe : (1 / G) ^ 2 * (1 - e2 * Real.sin φ₀ ^ 2) = 1 := by
    rw [hs, ← hss, ← hsq]
    field_simp
  have h := (newton hN hNe (one_div_pos.2 hsp) hMe (hd.trans (by norm_num))).1
  rw [hs, hc, ← hss] at h
  have hea : (ea : ℝ) ≠ 0 := by unfold ea; norm_num
  have hd2 : (φ - φ₀) ^ 2 ≤ (236 / 10 ^ 8) ^ 2 := by
    rw [← sq_abs]
    exact pow_le_pow_left₀ (abs_nonneg _) hd 2
  have e : (c * (ea * (N * (1 - e2) * Real.sin φ) - k6 * (ea / G) * s) -
        s * (ea * (N * Real.cos φ) - ea / G * c)) /
      (k6 * (ea / G) / (1 - e2 * ss) +
        (c * (ea * (N * Real.cos φ) - ea / G * c) +
        s * (ea * (N * (1 - e2) * Real.sin φ) - k6 * (ea / G) * s))) =
      (c * (N * (1 - e2) * Real.sin φ - k6 * (1 / G) * s) - s * (N * Real.cos φ - 1 / G * c)) /
      (k6 * (1 / G) / (1 - e2 * ss) + (c * (N * Real.cos φ - 1 / G * c) +
        s * (N * (1 - e2) * Real.sin φ - k6 * (1 / G) * s))) := by
    rw [← mul_div_mul_left (c * (N * (1 - e2) * Real.sin φ - k6 * (1 / G) * s) -
      s * (N * Real.cos φ - 1 / G * c)) _ hea]
    congr 1 <;> ring
  rw [e]
  refine h.trans ?_
  linarith

set_option maxHeartbeats 1000000 in
/-- The latitude computed from a point on the northern half of the ellipsoid. -/
theorem latAbs_surface {φ N w2 zp z2 : ℝ} (h0 : 0 ≤ φ) (h1 : φ ≤ Real.pi / 2) (hN : 0 < N)
    (hNe : N ^ 2 * (1 - e2 * Real.sin φ ^ 2) = 1) (hw2 : w2 = (ea * (N * Real.cos φ)) ^ 2)
    (hzp : zp = ea * (N * (1 - e2) * Real.sin φ)) (hz2 : z2 = zp ^ 2) :
    |latAbs w2 zp z2 - φ| ≤ 15 / 10 ^ 14 := by
  have hS0 : 0 ≤ Real.sin φ := Real.sin_nonneg_of_nonneg_of_le_pi h0 (by linarith [Real.pi_pos])
  have hC0 : 0 ≤ Real.cos φ := Real.cos_nonneg_of_mem_Icc ⟨by linarith [Real.pi_pos], h1⟩
  have hSC := Real.sin_sq_add_cos_sq φ
  have hea : (0 : ℝ) < ea := by unfold ea; norm_num
  have he : 0 < e2 ∧ e2 ≤ 67 / 10 ^ 4 := by unfold e2; constructor <;> norm_num
  obtain ⟨X, hX⟩ : ∃ X, X = Real.sin φ ^ 2 := ⟨_, rfl⟩
  have hX0 : 0 ≤ X := hX ▸ sq_nonneg _
  have hX1 : X ≤ 1 := by rw [hX]; exact Real.sin_sq_le_one φ
  have hCX : Real.cos φ ^ 2 = 1 - X := by linarith
  have hq : 0 < 1 - X * e2 * (2 - e2) := by
    have h1 : e2 * (2 - e2) ≤ 67 / 10 ^ 4 * 2 := mul_le_mul he.2 (by linarith) (by linarith) (by norm_num)
    have h2 : X * (e2 * (2 - e2)) ≤ 1 * (67 / 10 ^ 4 * 2) :=
      mul_le_mul hX1 h1 (mul_nonneg he.1.le (by linarith)) (by norm_num)
    linarith
  obtain ⟨σ, hσ, hσq⟩ : ∃ σ : ℝ, 0 < σ ∧ σ ^ 2 * (1 - X * e2 * (2 - e2)) = 1 := by
    refine ⟨1 / Real.sqrt (1 - X * e2 * (2 - e2)), one_div_pos.2 (Real.sqrt_pos.2 hq), ?_⟩
    rw [div_pow, Real.sq_sqrt hq.le]
    field_simp
  obtain ⟨γ, hγ⟩ : ∃ γ, γ * N = 1 := ⟨1 / N, by field_simp⟩
  have hγ0 : 0 < γ := by
    by_contra h
    have := mul_nonneg (neg_nonneg.2 (not_lt.1 h)) hN.le
    linarith
  have hγg : γ ^ 2 = 1 - e2 * X := by
    rw [hX]
    linear_combination (-γ ^ 2) * hNe + (γ * N + 1) * (1 - e2 * Real.sin φ ^ 2) * hγ
  have hw : Real.sqrt w2 = ea * (N * Real.cos φ) := by
    rw [hw2, Real.sqrt_sq (by positivity)]
  have hr2 : w2 + z2 = (ea * N / σ) ^ 2 := by
    rw [hw2, hz2, hzp, div_pow, eq_div_iff (by positivity)]
    linear_combination (ea * N) ^ 2 * σ ^ 2 * hSC + (ea * N) ^ 2 * hσq +
      ((ea * N * σ) ^ 2 * e2 * (2 - e2)) * hX
  have hr : Real.sqrt (w2 + z2) = ea * N / σ := by rw [hr2, Real.sqrt_sq (by positivity)]
  have hdiv : ∀ y : ℝ, y / (ea * N / σ) = y / ea * (γ * σ) := by
    intro y
    have : N ≠ 0 := hN.ne'
    rw [show γ = 1 / N from by field_simp; linarith]
    field_simp
  have hdz : zp / (ea * N / σ) = (1 - e2) * σ * Real.sin φ := by
    rw [hdiv, hzp]
    field_simp
    linear_combination ((1 - e2) * Real.sin φ) * hγ
  have hdw : ea * (N * Real.cos φ) / (ea * N / σ) = σ * Real.cos φ := by
    field_simp
  have hs2 : z2 / (w2 + z2) = (1 - e2) ^ 2 * X * σ ^ 2 := by
    rw [hr2, hz2, ← div_pow, hdz, hX]; ring
  have hc2 : w2 / (w2 + z2) = (1 - X) * σ ^ 2 := by
    rw [hr2, hw2, ← div_pow, hdw, ← hCX]; ring
  have f1 := first_sin hX0 hX1 hσ hσq hγ0.le hγg
  have f2 := first_cos hX0 hX1 hσ hσq hγ0.le hγg
  have hσ1 : 1 ≤ σ ∧ σ ≤ 1007 / 1000 := by
    have := sigma_bounds hX0 hX1 hσ hσq
    have hx2 : X ^ 2 ≤ 1 := pow_le_one₀ hX0 hX1
    constructor
    · by_contra h
      have h1 : σ ^ 2 < 1 := pow_lt_one₀ hσ.le (not_le.1 h) two_ne_zero
      have h2 : 0 ≤ σ ^ 2 * (X * e2 * (2 - e2)) := by
        have : 0 ≤ 2 - e2 := by linarith
        have := he.1.le
        positivity
      linarith
    · have h2 := this.2
      unfold e2 at h2
      linarith
  unfold latAbs
  simp only [hw, hr, hs2, hc2, hdz, hdw, hdiv]
  by_cases hb : 0.3 < (1 - X) * σ ^ 2
  · simp only [if_pos hb]
    obtain ⟨η, hη, hη1⟩ : ∃ η, (1 - e2) * σ * Real.sin φ * (1 + (1 - X) * σ ^ 2 * (k1 +
        k2 / ea * (γ * σ) + (1 - e2) ^ 2 * X * σ ^ 2 * (k3 - k4 / ea * (γ * σ))) / ea * (γ * σ)) =
        Real.sin φ * (1 + η) ∧ |η| ≤ 3 / 2 / 10 ^ 6 := ⟨_, by ring_nf, f1⟩
    rw [hη]
    obtain ⟨η1, η2⟩ := abs_le.1 hη1
    have hσ2 : σ ^ 2 ≤ (1007 / 1000) ^ 2 := pow_le_pow_left₀ hσ.le hσ1.2 2
    have hX7 : X ≤ 7042 / 10000 := by
      by_contra h
      have h3 : (1 - X) * σ ^ 2 ≤ (1 - 7042 / 10000) * (1007 / 1000) ^ 2 :=
        mul_le_mul (by linarith) hσ2 (sq_nonneg _) (by norm_num)
      norm_num at h3 hb
      linarith
    have hS8 : Real.sin φ ≤ 8392 / 10000 := by
      by_contra h
      have : (8392 / 10000 : ℝ) ^ 2 < Real.sin φ ^ 2 := pow_lt_pow_left₀ (not_le.1 h) (by norm_num) two_ne_zero
      norm_num at this
      linarith
    have hC5 : 5438 / 10000 ≤ Real.cos φ := by
      by_contra h
      have : Real.cos φ ^ 2 < (5438 / 10000 : ℝ) ^ 2 := pow_lt_pow_left₀ (not_le.1 h) hC0 two_ne_zero
      norm_num at this
      linarith
    obtain ⟨s, hs⟩ : ∃ s, s = Real.sin φ * (1 + η) := ⟨_, rfl⟩
    rw [← hs]
    have hs0 : 0 ≤ s := hs ▸ mul_nonneg hS0 (by linarith)
    have hs8 : s ≤ 83921 / 100000 := by
      rw [hs]
      have := mul_le_mul hS8 (by linarith : 1 + η ≤ 1 + 3 / 2 / 10 ^ 6) (by linarith) (by norm_num)
      linarith
    have hsin := Real.sin_arcsin (by linarith) (by linarith : s ≤ 1)
    have hcos := Real.cos_arcsin s
    rw [sq] at hcos
    have hs2m := mul_le_mul hs8 hs8 hs0 (by norm_num)
    have hss : 0 ≤ 1 - s * s := by linarith
    have hcq := Real.sq_sqrt hss
    have hcp := Real.sqrt_nonneg (1 - s * s)
    generalize Real.sqrt (1 - s * s) = c at *
    have hc5 : 5437 / 10000 ≤ c := by
      by_contra h
      have : c ^ 2 < (5437 / 10000 : ℝ) ^ 2 := pow_lt_pow_left₀ (not_le.1 h) hcp two_ne_zero
      norm_num at this
      linarith
    have hd1 : |φ - Real.arcsin s| ≤ Real.pi / 2 := by
      have h3 := Real.arcsin_nonneg.2 hs0
      have h4 := Real.arcsin_le_pi_div_two s
      rw [abs_le]
      constructor <;> linarith
    have hd2 : |Real.sin (φ - Real.arcsin s)| ≤ 235 / 10 ^ 8 := by
      rw [Real.sin_sub, hsin, hcos]
      have hden : 10874 / 10000 ≤ c + Real.cos φ * (1 + η) := by
        have := mul_le_mul hC5 (by linarith : 1 - 3 / 2 / 10 ^ 6 ≤ 1 + η) (by norm_num) hC0
        linarith
      have hnum : (Real.sin φ * c - Real.cos φ * s) * (c + Real.cos φ * (1 + η)) =
          -(Real.sin φ * (η * (2 + η))) := by
        rw [hs] at hcq ⊢
        linear_combination Real.sin φ * hcq - Real.sin φ * (1 + η) ^ 2 * hSC
      have habs : |Real.sin φ * c - Real.cos φ * s| * (c + Real.cos φ * (1 + η)) ≤
          8392 / 10000 * (3 / 2 / 10 ^ 6 * (2 + 3 / 2 / 10 ^ 6)) := by
        rw [← abs_of_pos (by linarith : 0 < c + Real.cos φ * (1 + η)), ← abs_mul, hnum, abs_neg,
          abs_mul, abs_mul, abs_of_nonneg hS0]
        refine mul_le_mul hS8 (mul_le_mul hη1 ?_ (abs_nonneg _) (by norm_num)) (by positivity)
          (by norm_num)
        rw [abs_of_pos (by linarith)]
        linarith
      have := mul_le_mul_of_nonneg_left hden (abs_nonneg (Real.sin φ * c - Real.cos φ * s))
      linarith
    rw [hzp]
    exact tail_bound hN hNe hsin hcos (by ring) hd1 hd2
  · simp only [if_neg hb]
    obtain ⟨η, hη, hη1⟩ : ∃ η, σ * Real.cos φ * (1 - (1 - e2) ^ 2 * X * σ ^ 2 * (k5 -
        k2 / ea * (γ * σ) - (1 - X) * σ ^ 2 * (k3 - k4 / ea * (γ * σ))) / ea * (γ * σ)) =
        Real.cos φ * (1 + η) ∧ |η| ≤ 3 / 2 / 10 ^ 6 := ⟨_, by ring_nf, f2⟩
    rw [hη]
    obtain ⟨η1, η2⟩ := abs_le.1 hη1
    have hX7 : 7 / 10 ≤ X := by
      by_contra h
      have h3 : (1 - 7 / 10) * 1 ≤ (1 - X) * σ ^ 2 :=
        mul_le_mul (by linarith) (one_le_pow₀ hσ1.1) zero_le_one (by linarith)
      norm_num at h3 hb
      have h4 : (1 - X) * 1 ≤ (1 - X) * σ ^ 2 :=
        mul_le_mul_of_nonneg_left (one_le_pow₀ hσ1.1) (by linarith)
      linarith
    have hC5 : Real.cos φ ≤ 548 / 1000 := by
      by_contra h
      have : (548 / 1000 : ℝ) ^ 2 < Real.cos φ ^ 2 := pow_lt_pow_left₀ (not_le.1 h) (by norm_num) two_ne_zero
      norm_num at this
      linarith
    have hS8 : 836 / 1000 ≤ Real.sin φ := by
      by_contra h
      have : Real.sin φ ^ 2 < (836 / 1000 : ℝ) ^ 2 := pow_lt_pow_left₀ (not_le.1 h) hS0 two_ne_zero
      norm_num at this
      linarith
    obtain ⟨c, hc⟩ : ∃ c, c = Real.cos φ * (1 + η) := ⟨_, rfl⟩
    rw [← hc]
    have hc0 : 0 ≤ c := hc ▸ mul_nonneg hC0 (by linarith)
    have hc5 : c ≤ 549 / 1000 := by
      rw [hc]
      have := mul_le_mul hC5 (by linarith : 1 + η ≤ 1 + 3 / 2 / 10 ^ 6) (by linarith) (by norm_num)
      linarith
    have hcos := Real.cos_arccos (by linarith) (by linarith : c ≤ 1)
    have hsin := Real.sin_arccos c
    rw [sq] at hsin
    have hc2m := mul_le_mul hc5 hc5 hc0 (by norm_num)
    have hss : 0 ≤ 1 - c * c := by linarith
    have hsq := Real.sq_sqrt hss
    have hsp := Real.sqrt_nonneg (1 - c * c)
    generalize Real.sqrt (1 - c * c) = s at *
    have hd1 : |φ - Real.arccos c| ≤ Real.pi / 2 := by
      have h3 := Real.arccos_nonneg c
      have h4 := Real.arccos_le_pi_div_two.2 hc0
      rw [abs_le]
      constructor <;> linarith
    have hd2 : |Real.sin (φ - Real.arccos c)| ≤ 235 / 10 ^ 8 := by
      rw [Real.sin_sub, hsin, hcos]
      have hden : 8 / 10 ≤ Real.sin φ * (1 + η) + s := by
        have := mul_le_mul hS8 (by linarith : 1 - 3 / 2 / 10 ^ 6 ≤ 1 + η) (by norm_num) hS0
        linarith
      have hnum : (Real.sin φ * c - Real.cos φ * s) * (Real.sin φ * (1 + η) + s) =
          Real.cos φ * (η * (2 + η)) := by
        rw [hc] at hsq ⊢
        linear_combination -Real.cos φ * hsq + Real.cos φ * (1 + η) ^ 2 * hSC
      have habs : |Real.sin φ * c - Real.cos φ * s| * (Real.sin φ * (1 + η) + s) ≤
          548 / 1000 * (3 / 2 / 10 ^ 6 * (2 + 3 / 2 / 10 ^ 6)) := by
        rw [← abs_of_pos (by linarith : 0 < Real.sin φ * (1 + η) + s), ← abs_mul, hnum,
          abs_mul, abs_mul, abs_of_nonneg hC0]
        refine mul_le_mul hC5 (mul_le_mul hη1 ?_ (abs_nonneg _) (by norm_num)) (by positivity)
          (by norm_num)
        rw [abs_of_pos (by linarith)]
        linarith
      have := mul_le_mul_of_nonneg_left hden (abs_nonneg (Real.sin φ * c - Real.cos φ * s))
      linarith
    rw [hzp]
    exact tail_bound hN hNe hsin hcos hsq.symm hd1 hd2

/-- C64: on the ellipsoid every latitude comes back within `10⁻¹¹` degrees. -/
theorem C64_latitude (lat lon : ℝ) (h1 : -90 ≤ lat) (h2 : lat ≤ 90) :
    |ecef2ll (ll2ecef ![lat, lon]) 0 - lat| ≤ 1 / 10 ^ 11 := by
  have hpi := Real.pi_pos
  have hpi3 := Real.pi_gt_three
  have he : 0 < e2 ∧ e2 ≤ 67 / 10 ^ 4 := by unfold e2; constructor <;> norm_num
  have hea : (0 : ℝ) < ea := by unfold ea; norm_num
  obtain ⟨t, ht⟩ : ∃ t, t = lat * Real.pi / 180 := ⟨_, rfl⟩
  have hlat : lat = t * 180 / Real.pi := by rw [ht]; field_simp
  have hg : 0 < 1 - e2 * (sind lat * sind lat) := by
    have h3 : sind lat * sind lat ≤ 1 := by nlinarith [sq_sind_cosd lat, sq_nonneg (cosd lat)]
    have := mul_le_mul he.2 h3 (mul_self_nonneg _) (by norm_num)
    linarith
  have hsq := Real.sq_sqrt hg.le
  have hsp := Real.sqrt_pos.2 hg
  obtain ⟨N, hN⟩ : ∃ N, N = 1 / Real.sqrt (1 - e2 * (sind lat * sind lat)) := ⟨_, rfl⟩
  have hN0 : 0 < N := by rw [hN]; exact one_div_pos.2 hsp
  have hnrad : nrad lat = ea * N := by rw [hN]; unfold nrad; ring
  have hNe : N ^ 2 * (1 - e2 * (sind lat) ^ 2) = 1 := by
    rw [sq (sind lat), hN, div_pow, hsq, one_pow, one_div, inv_mul_cancel₀ hg.ne']
  have hlon := sq_sind_cosd lon
  have hsind : sind lat = Real.sin t := by rw [ht]; rfl
  have hcosd : cosd lat = Real.cos t := by rw [ht]; rfl
  rw [show ll2ecef ![lat, lon] = ![nrad lat * cosd lat * cosd lon, nrad lat * cosd lat * sind lon,
    nrad lat * (1 - e2) * sind lat] from rfl, ecef2ll_lat, hnrad]
  rw [hsind] at hNe ⊢
  rw [hcosd]
  have main : ∀ φ : ℝ, 0 ≤ φ → φ ≤ Real.pi / 2 → Real.sin φ ^ 2 = Real.sin t ^ 2 →
      Real.cos φ = Real.cos t → |ea * N * (1 - e2) * Real.sin t| = ea * (N * (1 - e2) * Real.sin φ) →
      |latAbs (ea * N * Real.cos t * cosd lon * (ea * N * Real.cos t * cosd lon) +
        ea * N * Real.cos t * sind lon * (ea * N * Real.cos t * sind lon))
        |ea * N * (1 - e2) * Real.sin t|
        (ea * N * (1 - e2) * Real.sin t * (ea * N * (1 - e2) * Real.sin t)) - φ| ≤ 15 / 10 ^ 14 := by
    intro φ h0 h1 hs hc hz
    refine latAbs_surface h0 h1 hN0 (by rw [hs]; exact hNe) ?_ hz ?_
    · rw [hc]
      linear_combination (ea * N * Real.cos t) ^ 2 * hlon
    · rw [sq_abs, sq]
  have conv : ∀ x y : ℝ, |x - y| ≤ 15 / 10 ^ 14 → |x * 180 / Real.pi - y * 180 / Real.pi| ≤ 1 / 10 ^ 11 := by
    intro x y h
    rw [← sub_div, ← sub_mul, abs_div, abs_mul, abs_of_pos hpi, abs_of_pos (by norm_num : (0 : ℝ) < 180),
      div_le_iff₀ hpi]
    linarith
  have ht1 : -(Real.pi / 2) ≤ t := by rw [ht]; nlinarith
  have ht2 : t ≤ Real.pi / 2 := by rw [ht]; nlinarith
  rw [hlat]
  have hk : 0 < ea * N * (1 - e2) := mul_pos (mul_pos hea hN0) (by linarith)
  by_cases hneg : ea * N * (1 - e2) * Real.sin t < 0
  · rw [if_pos hneg]
    have hs : Real.sin t < 0 := by
      by_contra h
      exact absurd (mul_nonneg hk.le (not_lt.1 h)) (not_le.2 hneg)
    have ht0 : t < 0 := by
      by_contra h
      exact absurd (Real.sin_nonneg_of_nonneg_of_le_pi (not_lt.1 h) (by linarith)) (not_le.2 hs)
    have := main (-t) (by linarith) (by linarith) (by rw [Real.sin_neg, neg_sq]) (Real.cos_neg t) (by
      rw [abs_of_neg hneg, Real.sin_neg]; ring)
    apply conv
    rw [show ∀ l : ℝ, -l - t = -(l - -t) from fun l => by ring, abs_neg]
    exact this
  · rw [if_neg hneg]
    have hs : 0 ≤ Real.sin t := by
      by_contra h
      exact hneg (mul_neg_of_pos_of_neg hk (not_le.1 h))
    have ht0 : 0 ≤ t := by
      by_contra h
      exact absurd (Real.sin_neg_of_neg_of_neg_pi_lt (not_le.1 h) (by linarith)) (not_lt.2 hs)
    have := main t ht0 ht2 rfl rfl (by rw [abs_of_nonneg (not_lt.1 hneg)]; ring)
    exact conv _ _ this

example : |ecef2ll (ll2ecef ![58.4, 15.6]) 0 - 58.4| ≤ 1 / 10 ^ 11 :=
  C64_latitude 58.4 15.6 (by norm_num) (by norm_num)

/-- C64: a target at the origin of a query stays within `2 * 10⁻¹¹` degrees, at every latitude up to
89 degrees. -/
theorem C64_origin (lat lon : ℝ) (h1 : -89 ≤ lat) (h2 : lat ≤ 89) (h3 : -180 < lon) (h4 : lon ≤ 180) :
    |roundTrip ![lat, lon] ![lat, lon] 0 - lat| ≤ 2 / 10 ^ 11 ∧
    roundTrip ![lat, lon] ![lat, lon] 1 = lon := by
  have hz : (![(0 : Fin 2 → ℝ) 0, (0 : Fin 2 → ℝ) 1, 0] : Fin 3 → ℝ) = 0 := by
    ext i
    fin_cases i <;> rfl
  have ha := C64_latitude lat lon (by linarith) (by linarith)
  have hlon := (C50_longitude lat lon 0 (by linarith) (by linarith) h3 h4 (by linarith [nrad_pos lat])).2
  obtain ⟨l, hl⟩ : ∃ l, l = ecef2ll (ll2ecef ![lat, lon]) 0 := ⟨_, rfl⟩
  rw [← hl] at ha
  have hv : ecef2ll (ll2ecef ![lat, lon]) = ![l, lon] := by
    ext i
    fin_cases i
    · exact hl.symm
    · exact hlon
  obtain ⟨a1, a2⟩ := abs_le.1 ha
  have hb := C64_latitude l lon (by linarith) (by linarith)
  have hlon' := (C50_longitude l lon 0 (by linarith) (by linarith) h3 h4 (by linarith [nrad_pos l])).2
  have hrt : roundTrip ![lat, lon] ![lat, lon] = ecef2ll (ll2ecef ![l, lon]) := by
    unfold roundTrip
    rw [(C49_ne ![lat, lon] ![lat, lon] ![lat, lon]).2.1]
    unfold ne2ll ne2ecef
    rw [hz, Matrix.mulVec_zero, add_zero, hv]
  rw [hrt]
  refine ⟨?_, hlon'⟩
  rw [abs_le] at hb ⊢
  constructor <;> linarith

example : |roundTrip ![58.4, 15.6] ![58.4, 15.6] 0 - 58.4| ≤ 2 / 10 ^ 11 ∧
    roundTrip ![58.4, 15.6] ![58.4, 15.6] 1 = 15.6 :=
  C64_origin 58.4 15.6 (by norm_num) (by norm_num) (by norm_num) (by norm_num)

end Verif.CF

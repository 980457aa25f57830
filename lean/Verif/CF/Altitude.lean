import Verif.CF.Series
import Verif.CF.Latitude

/-!
# Property C100: positions with altitudes come back

`ecef2lla (lla2ecef ·)` returns the latitude within `2 * 10⁻¹⁰` degrees, about twenty micrometres on
the ground, the longitude exactly, and the altitude within a millimetre, for every altitude from
twenty kilometres below the ellipsoid.
-/

namespace Verif.CF

/-- The Newton step of `ecef2lla` at altitude. -/
theorem newton_alt {φ φ₀ N M η : ℝ} (hN : 0 < N) (hNe : N ^ 2 * (1 - e2 * Real.sin φ ^ 2) = 1)
    (hM : 0 < M) (hMe : M ^ 2 * (1 - e2 * Real.sin φ₀ ^ 2) = 1) (hd : |φ - φ₀| ≤ 1 / 10 ^ 5)
    (hη : -(32 / 10 ^ 4) ≤ η) {U V F m P : ℝ}
    (hU : U = (N + η) * Real.cos φ - M * Real.cos φ₀)
    (hV : V = (N * (1 - e2) + η) * Real.sin φ - k6 * M * Real.sin φ₀)
    (hF : F = Real.cos φ₀ * U + Real.sin φ₀ * V) (hm : m = Real.cos φ₀ * V - Real.sin φ₀ * U)
    (hP : P = m / (k6 * M / (1 - e2 * Real.sin φ₀ ^ 2) + F)) :
    |φ₀ + P - φ| ≤ 3 / 10 ^ 12 ∧ |F + m * P / 2 - η| ≤ 15 / 10 ^ 11 + 1 / 10 ^ 16 * |η| := by
  have hS : Real.sin φ = Real.sin φ₀ * Real.cos (φ - φ₀) + Real.cos φ₀ * Real.sin (φ - φ₀) := by
    rw [← Real.sin_add, add_sub_cancel]
  have hC : Real.cos φ = Real.cos φ₀ * Real.cos (φ - φ₀) - Real.sin φ₀ * Real.sin (φ - φ₀) := by
    rw [← Real.cos_add, add_sub_cancel]
  have hsc := Real.sin_sq_add_cos_sq φ₀
  have hσ : |Real.sin (φ - φ₀)| ≤ |φ - φ₀| := by
    simpa using Real.abs_sin_sub_sin_le (φ - φ₀) 0
  have hσd : |Real.sin (φ - φ₀) - (φ - φ₀)| ≤ |φ - φ₀| ^ 3 / 4 := by
    rcases lt_trichotomy (φ - φ₀) 0 with h | h | h
    · have h1 := Real.sin_gt_sub_cube (neg_pos.2 h)
      have h2 := Real.sin_lt (neg_pos.2 h)
      rw [Real.sin_neg] at h1 h2
      rw [abs_of_neg h, abs_of_nonneg (by linarith)]
      have := pow_pos (neg_pos.2 h) 3
      linarith
    · rw [h]; simp
    · have h1 := Real.sin_gt_sub_cube h
      have h2 := Real.sin_lt h
      rw [abs_of_pos h, abs_of_nonpos (by linarith)]
      have := pow_pos h 3
      linarith
  have hκ0 : 0 ≤ 1 - Real.cos (φ - φ₀) := by linarith [Real.cos_le_one (φ - φ₀)]
  have hκ : 1 - Real.cos (φ - φ₀) ≤ (φ - φ₀) ^ 2 / 2 := by
    linarith [Real.one_sub_sq_div_two_le_cos (x := φ - φ₀)]
  have hS1 := Real.abs_sin_le_one φ
  have hxd := Real.abs_sin_sub_sin_le φ φ₀
  obtain ⟨b1, b2, b3⟩ := newton_alg hsc hS hS1 hN hNe hM hMe hd hσ hσd hκ0 hκ hxd
  have b4 := excess_sq hsc hS1 hN hNe hM hMe (abs_nonneg (φ - φ₀)) hd hκ0 (by rw [sq_abs]; exact hκ) hxd
  obtain ⟨m1, m2⟩ := radius_bounds hM (Real.abs_sin_le_one φ₀) hMe
  obtain ⟨μ, hμ⟩ : ∃ μ, μ = 1 - e2 - k6 := ⟨_, rfl⟩
  have hμ0 : 0 ≤ μ ∧ μ ≤ 1 / 10 ^ 18 := by
    rw [hμ]; unfold e2 k6; constructor <;> norm_num
  have hk6 : k6 = 1 - e2 - μ := by linarith
  have hg0 : 1 - e2 * Real.sin φ₀ ^ 2 ≠ 0 := by
    intro h
    rw [h, mul_zero] at hMe
    exact zero_ne_one hMe
  have hdiv : k6 * M / (1 - e2 * Real.sin φ₀ ^ 2) = k6 * M ^ 3 := by
    rw [div_eq_iff hg0]
    linear_combination (-k6 * M) * hMe
  rw [hdiv] at hP
  have hs1 := Real.abs_sin_le_one φ₀
  have hc1 := Real.abs_cos_le_one φ₀
  have hσκ := Real.sin_sq_add_cos_sq (φ - φ₀)
  generalize Real.sin φ₀ = s at *
  generalize Real.cos φ₀ = c at *
  generalize Real.sin (φ - φ₀) = σ at *
  generalize Real.cos (φ - φ₀) = κ at *
  generalize Real.sin φ = S at *
  generalize Real.cos φ = C at *
  obtain ⟨d, hde⟩ : ∃ d, d = φ - φ₀ := ⟨_, rfl⟩
  have hφ : φ = φ₀ + d := by linarith
  rw [← hde] at hd b1 b4 hσ hσd hκ hxd
  have hm' : m = (N * σ - e2 * c * (N * S - M * s)) + μ * (c * s * M) + η * σ := by
    rw [hm, hU, hV, hk6, hS, hC]
    linear_combination (N * σ + η * σ) * hsc
  have hf' : F = (N * κ - e2 * N * S * s - M * (1 - e2 * s ^ 2)) + μ * (M * s ^ 2) + η * κ := by
    rw [hF, hU, hV, hk6, hS, hC]
    linear_combination (N * κ - M + η * κ) * hsc
  generalize N * σ - e2 * c * (N * S - M * s) = m0 at *
  generalize N * κ - e2 * N * S * s - M * (1 - e2 * s ^ 2) = f0 at *
  clear hm hF hS hC hNe hN hdiv hU hV
  obtain ⟨hμ0, hμ1⟩ := hμ0
  have aμ : |μ| ≤ 1 / 10 ^ 18 := apos hμ0 hμ1
  have hM3 : M ^ 3 ≤ 102 / 100 := by
    have : M ^ 3 ≤ (1004 / 1000) ^ 3 := pow_le_pow_left₀ hM.le m2 3
    linarith
  have hM31 : 1 ≤ M ^ 3 := one_le_pow₀ m1
  have aM : |M| ≤ 2 := apos hM.le (by linarith)
  have hs2 : 0 ≤ s ^ 2 ∧ s ^ 2 ≤ 1 := by
    constructor
    · positivity
    · linarith [sq_nonneg c]
  have w1 : |μ * (c * s * M)| ≤ 2 / 10 ^ 18 := (ab aμ (ab (ab hc1 hs1) aM)).trans (by norm_num)
  have w2 : |μ * (M * s ^ 2)| ≤ 2 / 10 ^ 18 :=
    (ab aμ (ab aM (apos hs2.1 hs2.2))).trans (by norm_num)
  have w3 : |μ * M ^ 3| ≤ 2 / 10 ^ 18 :=
    (ab aμ (apos (by linarith) (by linarith) : |M ^ 3| ≤ 2)).trans (by norm_num)
  obtain ⟨D, hD⟩ : ∃ D, |d| = D := ⟨_, rfl⟩
  have hD0 : 0 ≤ D := hD ▸ abs_nonneg d
  have hd2 : d ^ 2 = D ^ 2 := by rw [← hD, sq_abs]
  rw [hD] at hd hσ hσd hxd b4
  rw [hd2] at b1 hκ
  have hD2 : 0 ≤ D ^ 2 ∧ D ^ 2 ≤ 1 / 10 ^ 10 := by
    refine ⟨sq_nonneg D, (pow_le_pow_left₀ hD0 hd 2).trans (by norm_num)⟩
  have hD3 : 0 ≤ D ^ 3 ∧ D ^ 3 ≤ 1 / 10 ^ 15 :=
    ⟨pow_nonneg hD0 3, (pow_le_pow_left₀ hD0 hd 3).trans (by norm_num)⟩
  have hD4 : 0 ≤ D ^ 4 ∧ D ^ 4 ≤ 1 / 10 ^ 20 :=
    ⟨pow_nonneg hD0 4, (pow_le_pow_left₀ hD0 hd 4).trans (by norm_num)⟩
  have he : 0 < e2 ∧ e2 ≤ 67 / 10 ^ 4 := by unfold e2; constructor <;> norm_num
  have hle : (1 - 67 / 10 ^ 4) * 1 ≤ (1 - e2) * M ^ 3 :=
    mul_le_mul (by linarith) hM31 zero_le_one (by linarith)
  have hle2 : (1 - e2) * M ^ 3 ≤ 102 / 100 := by
    have := mul_le_mul (by linarith : 1 - e2 ≤ 1) hM3 (by linarith) zero_le_one
    linarith
  obtain ⟨den, hden⟩ : ∃ den, den = k6 * M ^ 3 + F := ⟨_, rfl⟩
  have hdene : den = (1 - e2) * M ^ 3 + f0 + (μ * (M * s ^ 2) - μ * M ^ 3) + η * κ := by
    rw [hden, hf', hk6]; ring
  rw [← hden] at hP
  obtain ⟨b2a, b2b⟩ := abs_le.1 b2
  obtain ⟨w2a, w2b⟩ := abs_le.1 w2
  obtain ⟨w3a, w3b⟩ := abs_le.1 w3
  have hκ1 : 1 - 1 / 10 ^ 10 ≤ κ := by linarith
  have aκ : |κ| ≤ 1 := apos (by linarith) (by linarith)
  have hηκ : |η| * (99 / 100) - 1 / 100 ≤ η * κ := by
    rcases le_total 0 η with h | h
    · rw [abs_of_nonneg h]
      have := mul_le_mul_of_nonneg_left hκ1 h
      linarith
    · rw [abs_of_nonpos h]
      have : η * κ ≥ η * 1 := mul_le_mul_of_nonpos_left (by linarith) h
      linarith
  have hdl : 98 / 100 * (1 + |η|) ≤ den := by
    rw [hdene]
    have := abs_nonneg η
    linarith
  have hηκ2 : η * κ ≤ |η| := by
    have := ab (le_refl |η|) aκ
    linarith [le_abs_self (η * κ)]
  have hdu : den ≤ 103 / 100 + |η| := by rw [hdene]; linarith
  have hη0 := abs_nonneg η
  have hdpos : 0 < den := by linarith
  have hPm : P * den = m := by rw [hP]; field_simp
  -- the error of the latitude
  obtain ⟨θ, hθ⟩ : ∃ θ, θ = P - d := ⟨_, rfl⟩
  have aσκ : |σ - d * κ| ≤ 1 / 10 ^ 15 := by
    have h1 := ad hσd (ab (le_refl |d|) (apos hκ0 hκ))
    rw [show σ - d + d * (1 - κ) = σ - d * κ from by ring, hD] at h1
    linarith [hD3.2]
  have hθd : |θ| * den ≤ 246 / 10 ^ 14 * (1 + |η|) := by
    have e : θ * den = (m0 - d * ((1 - e2) * M ^ 3 + f0)) + μ * (c * s * M) -
        d * (μ * (M * s ^ 2) - μ * M ^ 3) + η * (σ - d * κ) := by
      rw [hθ, sub_mul, hPm, hdene, hm']; ring
    have h1 := ad (asb (ad b1 w1) (ab hD.le (asb w2 w3))) (ab (le_refl |η|) aσκ)
    rw [← e, abs_mul, abs_of_pos hdpos] at h1
    have h2 : D * (2 / 10 ^ 18 + 2 / 10 ^ 18) ≤ 1 / 10 ^ 5 * (2 / 10 ^ 18 + 2 / 10 ^ 18) :=
      mul_le_mul_of_nonneg_right hd (by norm_num)
    linarith [hD2.2]
  have hθb : |θ| ≤ 3 / 10 ^ 12 := by
    have h1 := mul_le_mul_of_nonneg_left hdl (abs_nonneg θ)
    have h2 : |θ| * (98 / 100) * (1 + |η|) ≤ 246 / 10 ^ 14 * (1 + |η|) := by linarith
    have h3 := le_of_mul_le_mul_right h2 (by linarith)
    linarith
  refine ⟨?_, ?_⟩
  · rw [hφ, show φ₀ + P - (φ₀ + d) = θ from by rw [hθ]; ring]
    exact hθb
  -- the error of the altitude
  have hcos : |κ - 1 + κ * (D ^ 2 / 2)| ≤ D ^ 4 := by
    have h1 : σ ^ 2 ≤ 2 * (1 - κ) := by
      have := mul_le_mul_of_nonneg_left (by linarith : 1 + κ ≤ 2) hκ0
      linarith
    have h2 : D ^ 2 - D ^ 4 / 2 ≤ σ ^ 2 := by
      have h3 : |d| ≤ |σ| + D ^ 3 / 4 := by
        have := abs_sub_abs_le_abs_sub d σ
        rw [abs_sub_comm] at hσd
        linarith
      rw [hD] at h3
      have h4 : 0 ≤ D - D ^ 3 / 4 := by
        have : D * D ^ 2 ≤ D * (1 / 10 ^ 10) := mul_le_mul_of_nonneg_left hD2.2 hD0
        linarith
      have h5 := pow_le_pow_left₀ h4 (by linarith : D - D ^ 3 / 4 ≤ |σ|) 2
      rw [sq_abs] at h5
      have h6 : 0 ≤ D ^ 6 := pow_nonneg hD0 6
      linarith
    have h7 := mul_nonneg hκ0 hD2.1
    have h8 := mul_le_mul_of_nonneg_right hκ hD2.1
    apply aof <;> linarith
  have e : F + m * P / 2 - η = f0 + μ * (M * s ^ 2) + η * (κ - 1 + κ * (D ^ 2 / 2)) +
      ((1 - e2) * M ^ 3 + f0 + (μ * (M * s ^ 2) - μ * M ^ 3)) * (D ^ 2 / 2) +
      den * (d * θ + θ * θ / 2) := by
    rw [← hPm, show P = d + θ from by rw [hθ]; ring, hf', ← hd2]
    linear_combination (d ^ 2 / 2) * hdene
  rw [e]
  have t1 : |((1 - e2) * M ^ 3 + f0 + (μ * (M * s ^ 2) - μ * M ^ 3))| ≤ 103 / 100 :=
    aof (by linarith) (by linarith)
  have t2 : |d * θ + θ * θ / 2| ≤ 4 / 10 ^ 17 := by
    have h1 : |d| ≤ 1 / 10 ^ 5 := by rw [hD]; exact hd
    have := ad (ab h1 hθb) (ab (ab hθb hθb) (apos (by norm_num) le_rfl : |(1 / 2 : ℝ)| ≤ 1 / 2))
    rw [show θ * θ / 2 = θ * θ * (1 / 2) from by ring]
    refine this.trans ?_
    norm_num
  have := ad (ad (ad (ad b4 w2) (ab (le_refl |η|) hcos))
    (ab t1 (apos (by linarith [hD2.1]) le_rfl : |D ^ 2 / 2| ≤ D ^ 2 / 2))) (ab (apos hdpos.le hdu) t2)
  refine this.trans ?_
  have h9 := mul_le_mul_of_nonneg_left hD4.2 hη0
  linarith [hD2.2]

/-- A small angle is not much larger than its sine. -/
theorem angle_le' {d : ℝ} (h1 : |d| ≤ Real.pi / 2) (h2 : |Real.sin d| ≤ 98 / 10 ^ 7) :
    |d| ≤ 1 / 10 ^ 5 := by
  have key : ∀ t : ℝ, 0 ≤ t → t ≤ Real.pi / 2 → Real.sin t ≤ 98 / 10 ^ 7 → t ≤ 1 / 10 ^ 5 := by
    intro t h0 h1 h2
    rcases h0.lt_or_eq with h0 | h0
    · have h3 := Real.mul_le_sin h0.le h1
      have hpi := Real.pi_le_four
      have hpi0 := Real.pi_pos
      have h4 : 2 / 4 * t ≤ 2 / Real.pi * t :=
        mul_le_mul_of_nonneg_right (div_le_div_of_nonneg_left (by norm_num) hpi0 hpi) h0.le
      have h5 : t ≤ 2 / 10 ^ 5 := by linarith
      have h6 := Real.sin_gt_sub_cube h0
      have h7 : t ^ 3 ≤ (2 / 10 ^ 5) ^ 3 := pow_le_pow_left₀ h0.le h5 3
      linarith
    · rw [← h0]; norm_num
  rcases abs_cases d with ⟨h, h0⟩ | ⟨h, h0⟩
  · rw [h] at h1 ⊢
    exact key d h0 h1 ((le_abs_self _).trans h2)
  · rw [h] at h1 ⊢
    refine key (-d) (by linarith) h1 ?_
    rw [Real.sin_neg]
    exact (neg_le_abs _).trans h2

/-- The end of `ecef2lla`, from a good first approximation. -/
theorem tail_alt {φ φ₀ N η s c ss : ℝ} (hN : 0 < N) (hNe : N ^ 2 * (1 - e2 * Real.sin φ ^ 2) = 1)
    (hη : -(32 / 10 ^ 4) ≤ η) (hs : Real.sin φ₀ = s) (hc : Real.cos φ₀ = c) (hss : ss = s ^ 2)
    (h1 : |φ - φ₀| ≤ Real.pi / 2) (h2 : |Real.sin (φ - φ₀)| ≤ 98 / 10 ^ 7) {rg U V F m P : ℝ}
    (hrg : rg = ea / Real.sqrt (1 - e2 * ss)) (hU : U = ea * ((N + η) * Real.cos φ) - rg * c)
    (hV : V = ea * ((N * (1 - e2) + η) * Real.sin φ) - k6 * rg * s) (hF : F = c * U + s * V)
    (hm : m = c * V - s * U) (hP : P = m / (k6 * rg / (1 - e2 * ss) + F)) :
    |φ₀ + P - φ| ≤ 3 / 10 ^ 12 ∧
    |F + m * P / 2 - ea * η| ≤ ea * (15 / 10 ^ 11 + 1 / 10 ^ 16 * |η|) := by
  have hd := angle_le' h1 h2
  have he : 0 < e2 ∧ e2 ≤ 67 / 10 ^ 4 := by unfold e2; constructor <;> norm_num
  have hs1 : s ^ 2 ≤ 1 := by rw [← hs]; exact Real.sin_sq_le_one φ₀
  have hg : 0 < 1 - e2 * ss := by
    rw [hss]
    have := mul_le_mul he.2 hs1 (sq_nonneg s) (by norm_num)
    linarith
  have hsq := Real.sq_sqrt hg.le
  have hsp := Real.sqrt_pos.2 hg
  generalize Real.sqrt (1 - e2 * ss) = G at *
  have hMe : (1 / G) ^ 2 * (1 - e2 * Real.sin φ₀ ^ 2) = 1 := by
    rw [hs, ← hss, ← hsq]
    field_simp
  have hea : (0 : ℝ) < ea := by unfold ea; norm_num
  obtain ⟨a, b⟩ := newton_alt hN hNe (one_div_pos.2 hsp) hMe hd hη rfl rfl rfl rfl rfl
  rw [hs, hc, ← hss] at a b
  obtain ⟨U', hU'⟩ : ∃ U', U' = (N + η) * Real.cos φ - 1 / G * c := ⟨_, rfl⟩
  obtain ⟨V', hV'⟩ : ∃ V', V' = (N * (1 - e2) + η) * Real.sin φ - k6 * (1 / G) * s := ⟨_, rfl⟩
  rw [← hU', ← hV'] at a b
  have eU : U = ea * U' := by rw [hU, hU', hrg]; ring
  have eV : V = ea * V' := by rw [hV, hV', hrg]; ring
  have eF : F = ea * (c * U' + s * V') := by rw [hF, eU, eV]; ring
  have em : m = ea * (c * V' - s * U') := by rw [hm, eU, eV]; ring
  have eP : P = (c * V' - s * U') / (k6 * (1 / G) / (1 - e2 * ss) + (c * U' + s * V')) := by
    rw [hP, em, eF, ← mul_div_mul_left (c * V' - s * U') _ hea.ne', hrg]
    congr 1
    ring
  rw [← eP] at a b
  refine ⟨a, ?_⟩
  rw [show F + m * P / 2 - ea * η = ea * (c * U' + s * V' + (c * V' - s * U') * P / 2 - η) from by
    rw [eF, em]; ring, abs_mul, abs_of_pos hea]
  exact mul_le_mul_of_nonneg_left b hea.le

set_option maxHeartbeats 1000000 in
/-- The latitude and the altitude computed from a point over the northern half of the ellipsoid. -/
theorem latAbs_alt {φ N η w2 zp z2 : ℝ} (h0 : 0 ≤ φ) (h1 : φ ≤ Real.pi / 2) (hN : 0 < N)
    (hNe : N ^ 2 * (1 - e2 * Real.sin φ ^ 2) = 1) (hη : -(32 / 10 ^ 4) ≤ η)
    (hw2 : w2 = (ea * ((N + η) * Real.cos φ)) ^ 2)
    (hzp : zp = ea * ((N * (1 - e2) + η) * Real.sin φ)) (hz2 : z2 = zp ^ 2) :
    |latAbs w2 zp z2 - φ| ≤ 3 / 10 ^ 12 ∧
    |altAbs w2 zp z2 - ea * η| ≤ ea * (15 / 10 ^ 11 + 1 / 10 ^ 16 * |η|) := by
  have hS0 : 0 ≤ Real.sin φ := Real.sin_nonneg_of_nonneg_of_le_pi h0 (by linarith [Real.pi_pos])
  have hC0 : 0 ≤ Real.cos φ := Real.cos_nonneg_of_mem_Icc ⟨by linarith [Real.pi_pos], h1⟩
  have hSC := Real.sin_sq_add_cos_sq φ
  have hea : (0 : ℝ) < ea := by unfold ea; norm_num
  have he : 0 < e2 ∧ e2 ≤ 66944 / 10 ^ 7 := by unfold e2; constructor <;> norm_num
  have hN1 := (radius_bounds hN (Real.abs_sin_le_one φ) hNe).1
  obtain ⟨X, hX⟩ : ∃ X, X = Real.sin φ ^ 2 := ⟨_, rfl⟩
  have hX0 : 0 ≤ X := hX ▸ sq_nonneg _
  have hX1 : X ≤ 1 := by rw [hX]; exact Real.sin_sq_le_one φ
  have hCX : Real.cos φ ^ 2 = 1 - X := by linarith
  obtain ⟨n, hn⟩ : ∃ n, n = N + η := ⟨_, rfl⟩
  have hn0 : 0 < n := by linarith
  obtain ⟨ε, hε⟩ : ∃ ε, ε * n = e2 * N := ⟨e2 * N / n, by field_simp⟩
  have hε0 : 0 ≤ ε := by
    by_contra h
    have := mul_pos (neg_pos.2 (not_le.1 h)) hn0
    have := mul_pos he.1 hN
    linarith
  have hε1 : ε ≤ 672 / 10 ^ 5 := by
    apply le_of_mul_le_mul_right _ hn0
    rw [hε, hn]
    have := mul_le_mul_of_nonneg_right he.2 hN.le
    linarith
  have hq : 0 < 1 - X * ε * (2 - ε) := by
    have h1 : ε * (2 - ε) ≤ 672 / 10 ^ 5 * 2 := mul_le_mul hε1 (by linarith) (by linarith) (by norm_num)
    have h2 : X * (ε * (2 - ε)) ≤ 1 * (672 / 10 ^ 5 * 2) :=
      mul_le_mul hX1 h1 (mul_nonneg hε0 (by linarith)) (by norm_num)
    linarith
  obtain ⟨σ, hσ, hσq⟩ : ∃ σ : ℝ, 0 < σ ∧ σ ^ 2 * (1 - X * ε * (2 - ε)) = 1 := by
    refine ⟨1 / Real.sqrt (1 - X * ε * (2 - ε)), one_div_pos.2 (Real.sqrt_pos.2 hq), ?_⟩
    rw [div_pow, Real.sq_sqrt hq.le]
    field_simp
  obtain ⟨γ, hγ⟩ : ∃ γ, γ * N = 1 := ⟨1 / N, by field_simp⟩
  have hγ0 : 0 < γ := by
    by_contra h
    have := mul_nonneg (neg_nonneg.2 (not_lt.1 h)) hN.le
    linarith
  have hγg : γ ^ 2 = 1 - e2 * X := by
    rw [hX]
    linear_combination (-γ ^ 2) * hNe + (γ * N + 1) * (1 - e2 * Real.sin φ ^ 2) * hγ
  obtain ⟨t, ht⟩ : ∃ t, t = 1 / n * σ := ⟨_, rfl⟩
  have hA : ε * σ * γ = e2 * t := by
    rw [ht]
    field_simp
    linear_combination γ * hε + e2 * hγ
  have hzn : N * (1 - e2) + η = n * (1 - ε) := by rw [hn] at hε ⊢; linarith
  rw [hzn] at hzp
  rw [← hn] at hw2
  have hw : Real.sqrt w2 = ea * (n * Real.cos φ) := by
    rw [hw2, Real.sqrt_sq (by positivity)]
  have hr2 : w2 + z2 = (ea * n / σ) ^ 2 := by
    rw [hw2, hz2, hzp, div_pow, eq_div_iff (by positivity)]
    linear_combination (ea * n) ^ 2 * σ ^ 2 * hSC + (ea * n) ^ 2 * hσq +
      ((ea * n * σ) ^ 2 * ε * (2 - ε)) * hX
  have hr : Real.sqrt (w2 + z2) = ea * n / σ := by rw [hr2, Real.sqrt_sq (by positivity)]
  have hdiv : ∀ y : ℝ, y / (ea * n / σ) = y / ea * t := by
    intro y
    rw [ht]
    field_simp
  have hdz : zp / (ea * n / σ) = (1 - ε) * σ * Real.sin φ := by
    rw [hzp]
    field_simp
  have hdw : ea * (n * Real.cos φ) / (ea * n / σ) = σ * Real.cos φ := by
    field_simp
  have hs2 : z2 / (w2 + z2) = (1 - ε) ^ 2 * X * σ ^ 2 := by
    rw [hr2, hz2, ← div_pow, hdz, hX]; ring
  have hc2 : w2 / (w2 + z2) = (1 - X) * σ ^ 2 := by
    rw [hr2, hw2, ← div_pow, hdw, ← hCX]; ring
  obtain ⟨c₁, hc₁, d₁⟩ : ∃ c₁, k1 = ea * e2 * c₁ ∧ |c₁ - 1| ≤ 1 / 10 ^ 8 := by
    refine ⟨k1 / (ea * e2), by have := he.1.ne'; field_simp, ?_⟩
    unfold k1 ea e2; apply aof <;> norm_num
  obtain ⟨c₂, hc₂, d₂⟩ : ∃ c₂, k2 = (ea * e2) ^ 2 * c₂ ∧ |c₂ - 1| ≤ 1 / 10 ^ 8 := by
    refine ⟨k2 / (ea * e2) ^ 2, by have := he.1.ne'; field_simp, ?_⟩
    unfold k2 ea e2; apply aof <;> norm_num
  obtain ⟨c₃, hc₃, d₃⟩ : ∃ c₃, k3 = ea * e2 * (e2 / 2) * c₃ ∧ |c₃ - 1| ≤ 1 / 10 ^ 8 := by
    refine ⟨k3 / (ea * e2 * (e2 / 2)), by have := he.1.ne'; field_simp, ?_⟩
    unfold k3 ea e2; apply aof <;> norm_num
  obtain ⟨c₄, hc₄, d₄⟩ : ∃ c₄, k4 = (ea * e2) ^ 2 * (5 / 2) * c₄ ∧ |c₄ - 1| ≤ 1 / 10 ^ 8 := by
    refine ⟨k4 / ((ea * e2) ^ 2 * (5 / 2)), by have := he.1.ne'; field_simp, ?_⟩
    unfold k4 ea e2; apply aof <;> norm_num
  obtain ⟨c₅, hc₅, d₅⟩ : ∃ c₅, k5 = ea * e2 * (1 + e2 / 2) * c₅ ∧ |c₅ - 1| ≤ 1 / 10 ^ 8 := by
    have h2 : (1 + e2 / 2 : ℝ) ≠ 0 := by linarith [he.1]
    refine ⟨k5 / (ea * e2 * (1 + e2 / 2)), (mul_div_cancel₀ _ (mul_ne_zero (mul_ne_zero hea.ne'
      he.1.ne') h2)).symm, ?_⟩
    unfold k5 ea e2; apply aof <;> norm_num
  have f1 := first_sin_alt hX0 hX1 hε0 hε1 he.1.le (by linarith) hσ hσq hγ0.le hγg d₁ d₂ d₃ d₄
  have f2 := first_cos_alt hX0 hX1 hε0 hε1 he.1.le (by linarith) hσ hσq hγ0.le hγg d₂ d₃ d₄ d₅
  rw [hA] at f1 f2
  obtain ⟨-, -, -, -, -, -, -, hσ2, hσ1⟩ := sig_basic hX0 hX1 hε0 hε1 hσ hσq
  rw [hn] at hw
  rw [← hzn] at hzp
  rw [hn] at hdw
  unfold latAbs altAbs
  simp only [hw, hr, hs2, hc2, hdz]
  rw [hn] at hdiv ⊢
  simp only [hdw, hdiv]
  by_cases hb : 0.3 < (1 - X) * σ ^ 2
  · simp only [if_pos hb]
    obtain ⟨ζ, hζ, hζ1⟩ : ∃ ζ, (1 - ε) * σ * Real.sin φ * (1 + (1 - X) * σ ^ 2 * (k1 +
        k2 / ea * t + (1 - ε) ^ 2 * X * σ ^ 2 * (k3 - k4 / ea * t)) / ea * t) =
        Real.sin φ * (1 + ζ) ∧ |ζ| ≤ 6 / 10 ^ 6 := by
      refine ⟨_, ?_, f1⟩
      rw [hc₁, hc₂, hc₃, hc₄]
      field_simp
      ring
    rw [hζ]
    obtain ⟨ζ1, ζ2⟩ := abs_le.1 hζ1
    have hX7 : X ≤ 7042 / 10000 := by
      by_contra h
      have h3 : (1 - X) * σ ^ 2 ≤ (1 - 7042 / 10000) * (10137 / 10 ^ 4) :=
        mul_le_mul (by linarith) hσ2 (sq_nonneg _) (by norm_num)
      norm_num at h3 hb
      linarith
    have hS8 : Real.sin φ ≤ 8392 / 10000 := by
      by_contra h
      have : (8392 / 10000 : ℝ) ^ 2 < Real.sin φ ^ 2 := pow_lt_pow_left₀ (not_le.1 h) (by norm_num) two_ne_zero
      norm_num at this
      linarith
    have hC5 : 5438 / 10000 ≤ Real.cos φ := by
      by_contra h
      have : Real.cos φ ^ 2 < (5438 / 10000 : ℝ) ^ 2 := pow_lt_pow_left₀ (not_le.1 h) hC0 two_ne_zero
      norm_num at this
      linarith
    obtain ⟨s, hs⟩ : ∃ s, s = Real.sin φ * (1 + ζ) := ⟨_, rfl⟩
    rw [← hs]
    have hs0 : 0 ≤ s := hs ▸ mul_nonneg hS0 (by linarith)
    have hs8 : s ≤ 83921 / 100000 := by
      rw [hs]
      have := mul_le_mul hS8 (by linarith : 1 + ζ ≤ 1 + 6 / 10 ^ 6) (by linarith) (by norm_num)
      linarith
    have hsin := Real.sin_arcsin (by linarith) (by linarith : s ≤ 1)
    have hcos := Real.cos_arcsin s
    rw [sq] at hcos
    have hs2m := mul_le_mul hs8 hs8 hs0 (by norm_num)
    have hss : 0 ≤ 1 - s * s := by linarith
    have hcq := Real.sq_sqrt hss
    have hcp := Real.sqrt_nonneg (1 - s * s)
    generalize Real.sqrt (1 - s * s) = c at *
    have hc5 : 5437 / 10000 ≤ c := by
      by_contra h
      have : c ^ 2 < (5437 / 10000 : ℝ) ^ 2 := pow_lt_pow_left₀ (not_le.1 h) hcp two_ne_zero
      norm_num at this
      linarith
    have hd1 : |φ - Real.arcsin s| ≤ Real.pi / 2 := by
      have h3 := Real.arcsin_nonneg.2 hs0
      have h4 := Real.arcsin_le_pi_div_two s
      rw [abs_le]
      constructor <;> linarith
    have hd2 : |Real.sin (φ - Real.arcsin s)| ≤ 98 / 10 ^ 7 := by
      rw [Real.sin_sub, hsin, hcos]
      have hden : 1087 / 1000 ≤ c + Real.cos φ * (1 + ζ) := by
        have := mul_le_mul hC5 (by linarith : 1 - 6 / 10 ^ 6 ≤ 1 + ζ) (by norm_num) hC0
        linarith
      have hnum : (Real.sin φ * c - Real.cos φ * s) * (c + Real.cos φ * (1 + ζ)) =
          -(Real.sin φ * (ζ * (2 + ζ))) := by
        rw [hs] at hcq ⊢
        linear_combination Real.sin φ * hcq - Real.sin φ * (1 + ζ) ^ 2 * hSC
      have habs : |Real.sin φ * c - Real.cos φ * s| * (c + Real.cos φ * (1 + ζ)) ≤
          8392 / 10000 * (6 / 10 ^ 6 * (2 + 6 / 10 ^ 6)) := by
        rw [← abs_of_pos (by linarith : 0 < c + Real.cos φ * (1 + ζ)), ← abs_mul, hnum, abs_neg]
        exact ab (apos hS0 hS8) (ab hζ1 (apos (by linarith) (by linarith)))
      have := mul_le_mul_of_nonneg_left hden (abs_nonneg (Real.sin φ * c - Real.cos φ * s))
      linarith
    rw [hzp]
    exact tail_alt hN hNe hη hsin hcos (by ring) hd1 hd2 rfl rfl rfl rfl rfl rfl
  · simp only [if_neg hb]
    obtain ⟨ζ, hζ, hζ1⟩ : ∃ ζ, σ * Real.cos φ * (1 - (1 - ε) ^ 2 * X * σ ^ 2 * (k5 -
        k2 / ea * t - (1 - X) * σ ^ 2 * (k3 - k4 / ea * t)) / ea * t) =
        Real.cos φ * (1 + ζ) ∧ |ζ| ≤ 6 / 10 ^ 6 := by
      refine ⟨_, ?_, f2⟩
      rw [hc₅, hc₂, hc₃, hc₄]
      field_simp
      ring
    rw [hζ]
    obtain ⟨ζ1, ζ2⟩ := abs_le.1 hζ1
    have hX7 : 7 / 10 ≤ X := by
      by_contra h
      have h3 : (1 - 7 / 10) * 1 ≤ (1 - X) * σ ^ 2 :=
        mul_le_mul (by linarith) (one_le_pow₀ hσ1.1) zero_le_one (by linarith)
      norm_num at h3 hb
      have h4 : (1 - X) * 1 ≤ (1 - X) * σ ^ 2 :=
        mul_le_mul_of_nonneg_left (one_le_pow₀ hσ1.1) (by linarith)
      linarith
    have hC5 : Real.cos φ ≤ 548 / 1000 := by
      by_contra h
      have : (548 / 1000 : ℝ) ^ 2 < Real.cos φ ^ 2 := pow_lt_pow_left₀ (not_le.1 h) (by norm_num) two_ne_zero
      norm_num at this
      linarith
    have hS8 : 836 / 1000 ≤ Real.sin φ := by
      by_contra h
      have : Real.sin φ ^ 2 < (836 / 1000 : ℝ) ^ 2 := pow_lt_pow_left₀ (not_le.1 h) hS0 two_ne_zero
      norm_num at this
      linarith
    obtain ⟨c, hc⟩ : ∃ c, c = Real.cos φ * (1 + ζ) := ⟨_, rfl⟩
    rw [← hc]
    have hc0 : 0 ≤ c := hc ▸ mul_nonneg hC0 (by linarith)
    have hc5 : c ≤ 549 / 1000 := by
      rw [hc]
      have := mul_le_mul hC5 (by linarith : 1 + ζ ≤ 1 + 6 / 10 ^ 6) (by linarith) (by norm_num)
      linarith
    have hcos := Real.cos_arccos (by linarith) (by linarith : c ≤ 1)
    have hsin := Real.sin_arccos c
    rw [sq] at hsin
    have hc2m := mul_le_mul hc5 hc5 hc0 (by norm_num)
    have hss : 0 ≤ 1 - c * c := by linarith
    have hsq := Real.sq_sqrt hss
    have hsp := Real.sqrt_nonneg (1 - c * c)
    generalize Real.sqrt (1 - c * c) = s at *
    have hd1 : |φ - Real.arccos c| ≤ Real.pi / 2 := by
      have h3 := Real.arccos_nonneg c
      have h4 := Real.arccos_le_pi_div_two.2 hc0
      rw [abs_le]
      constructor <;> linarith
    have hd2 : |Real.sin (φ - Real.arccos c)| ≤ 98 / 10 ^ 7 := by
      rw [Real.sin_sub, hsin, hcos]
      have hden : 8 / 10 ≤ Real.sin φ * (1 + ζ) + s := by
        have := mul_le_mul hS8 (by linarith : 1 - 6 / 10 ^ 6 ≤ 1 + ζ) (by norm_num) hS0
        linarith
      have hnum : (Real.sin φ * c - Real.cos φ * s) * (Real.sin φ * (1 + ζ) + s) =
          Real.cos φ * (ζ * (2 + ζ)) := by
        rw [hc] at hsq ⊢
        linear_combination -Real.cos φ * hsq + Real.cos φ * (1 + ζ) ^ 2 * hSC
      have habs : |Real.sin φ * c - Real.cos φ * s| * (Real.sin φ * (1 + ζ) + s) ≤
          548 / 1000 * (6 / 10 ^ 6 * (2 + 6 / 10 ^ 6)) := by
        rw [← abs_of_pos (by linarith : 0 < Real.sin φ * (1 + ζ) + s), ← abs_mul, hnum]
        exact ab (apos hC0 hC5) (ab hζ1 (apos (by linarith) (by linarith)))
      have := mul_le_mul_of_nonneg_left hden (abs_nonneg (Real.sin φ * c - Real.cos φ * s))
      linarith
    rw [hzp]
    exact tail_alt hN hNe hη hsin hcos hsq.symm hd1 hd2 rfl rfl rfl rfl rfl rfl

theorem ecef2lla_lat (x y z : ℝ) : ecef2lla ![x, y, z] 0 =
    (if z < 0 then -latAbs (x * x + y * y) |z| (z * z) else latAbs (x * x + y * y) |z| (z * z)) *
      180 / Real.pi := rfl

theorem ecef2lla_alt (x y z : ℝ) :
    ecef2lla ![x, y, z] 2 = altAbs (x * x + y * y) |z| (z * z) := rfl

/-- C100: from a position at any altitude above twenty kilometres below the ellipsoid, the latitude
comes back within `2 * 10⁻¹⁰` degrees and the altitude within a millimetre and a part in `10¹⁵`. -/
theorem C100_position (lat lon alt : ℝ) (h1 : -90 ≤ lat) (h2 : lat ≤ 90) (ha : -20000 ≤ alt) :
    |ecef2lla (lla2ecef ![lat, lon, alt]) 0 - lat| ≤ 2 / 10 ^ 10 ∧
    |ecef2lla (lla2ecef ![lat, lon, alt]) 2 - alt| ≤ 1 / 10 ^ 3 + |alt| / 10 ^ 15 := by
  have hpi := Real.pi_pos
  have hpi3 := Real.pi_gt_three
  have hea : (0 : ℝ) < ea := by unfold ea; norm_num
  have hea' : (ea : ℝ) = 6378137 := by unfold ea; norm_num
  have he : 0 < e2 ∧ e2 ≤ 67 / 10 ^ 4 := by unfold e2; constructor <;> norm_num
  obtain ⟨t, ht⟩ : ∃ t, t = lat * Real.pi / 180 := ⟨_, rfl⟩
  have hlat : lat = t * 180 / Real.pi := by rw [ht]; field_simp
  have hslat := sq_sind_cosd lat
  have hg : 0 < 1 - e2 * (sind lat * sind lat) := by
    have hs1 : sind lat * sind lat ≤ 1 := by linarith [sq_nonneg (cosd lat), mul_self_nonneg (cosd lat)]
    have := mul_le_mul he.2 hs1 (mul_self_nonneg _) (by norm_num)
    linarith
  have hsq := Real.sq_sqrt hg.le
  have hsp := Real.sqrt_pos.2 hg
  obtain ⟨N, hN⟩ : ∃ N, N = 1 / Real.sqrt (1 - e2 * (sind lat * sind lat)) := ⟨_, rfl⟩
  have hN0 : 0 < N := by rw [hN]; exact one_div_pos.2 hsp
  have hnrad : nrad lat = ea * N := by rw [hN]; unfold nrad; ring
  have hNe : N ^ 2 * (1 - e2 * (sind lat) ^ 2) = 1 := by
    rw [sq (sind lat), hN, div_pow, hsq, one_pow, one_div, inv_mul_cancel₀ hg.ne']
  have hlon := sq_sind_cosd lon
  have hsind : sind lat = Real.sin t := by rw [ht]; rfl
  have hcosd : cosd lat = Real.cos t := by rw [ht]; rfl
  obtain ⟨η, hη⟩ : ∃ η, alt = ea * η := ⟨alt / ea, by field_simp⟩
  have hη1 : -(32 / 10 ^ 4) ≤ η := by
    rw [hη, hea'] at ha
    linarith
  have hηa : |alt| = ea * |η| := by rw [hη, abs_mul, abs_of_pos hea]
  rw [hsind] at hNe
  have hN1 := (radius_bounds hN0 (Real.abs_sin_le_one t) hNe).1
  rw [show lla2ecef ![lat, lon, alt] = ![(nrad lat + alt) * cosd lat * cosd lon,
    (nrad lat + alt) * cosd lat * sind lon, (nrad lat * (1 - e2) + alt) * sind lat] from rfl,
    ecef2lla_lat, ecef2lla_alt, hnrad, hsind, hcosd, hηa, hη]
  have main : ∀ φ : ℝ, 0 ≤ φ → φ ≤ Real.pi / 2 → Real.sin φ ^ 2 = Real.sin t ^ 2 →
      Real.cos φ = Real.cos t →
      |(ea * N * (1 - e2) + ea * η) * Real.sin t| = ea * ((N * (1 - e2) + η) * Real.sin φ) →
      |latAbs ((ea * N + ea * η) * Real.cos t * cosd lon * ((ea * N + ea * η) * Real.cos t * cosd lon) +
        (ea * N + ea * η) * Real.cos t * sind lon * ((ea * N + ea * η) * Real.cos t * sind lon))
        |(ea * N * (1 - e2) + ea * η) * Real.sin t|
        ((ea * N * (1 - e2) + ea * η) * Real.sin t * ((ea * N * (1 - e2) + ea * η) * Real.sin t)) - φ| ≤
        3 / 10 ^ 12 ∧
      |altAbs ((ea * N + ea * η) * Real.cos t * cosd lon * ((ea * N + ea * η) * Real.cos t * cosd lon) +
        (ea * N + ea * η) * Real.cos t * sind lon * ((ea * N + ea * η) * Real.cos t * sind lon))
        |(ea * N * (1 - e2) + ea * η) * Real.sin t|
        ((ea * N * (1 - e2) + ea * η) * Real.sin t * ((ea * N * (1 - e2) + ea * η) * Real.sin t)) -
        ea * η| ≤ 1 / 10 ^ 3 + ea * |η| / 10 ^ 15 := by
    intro φ h0 h1 hs hc hz
    have := latAbs_alt (w2 := (ea * N + ea * η) * Real.cos t * cosd lon *
        ((ea * N + ea * η) * Real.cos t * cosd lon) +
        (ea * N + ea * η) * Real.cos t * sind lon * ((ea * N + ea * η) * Real.cos t * sind lon))
        h0 h1 hN0 (by rw [hs]; exact hNe) hη1 (by
          rw [hc]
          linear_combination ((ea * N + ea * η) * Real.cos t) ^ 2 * hlon) hz rfl
    rw [sq_abs, sq] at this
    refine ⟨this.1, this.2.trans ?_⟩
    rw [mul_add, ← mul_assoc, mul_comm ea (1 / 10 ^ 16), mul_assoc, hea']
    have := abs_nonneg η
    linarith
  have conv : ∀ x y : ℝ, |x - y| ≤ 3 / 10 ^ 12 → |x * 180 / Real.pi - y * 180 / Real.pi| ≤ 2 / 10 ^ 10 := by
    intro x y h
    rw [← sub_div, ← sub_mul, abs_div, abs_mul, abs_of_pos hpi, abs_of_pos (by norm_num : (0 : ℝ) < 180),
      div_le_iff₀ hpi]
    linarith
  have ht1 : -(Real.pi / 2) ≤ t := by rw [ht]; nlinarith
  have ht2 : t ≤ Real.pi / 2 := by rw [ht]; nlinarith
  rw [hlat]
  have hk : 0 < ea * N * (1 - e2) + ea * η := by
    rw [mul_assoc, ← mul_add]
    refine mul_pos hea ?_
    have := mul_le_mul hN1 (by linarith : 1 - 67 / 10 ^ 4 ≤ 1 - e2) (by norm_num) hN0.le
    linarith
  by_cases hneg : (ea * N * (1 - e2) + ea * η) * Real.sin t < 0
  · rw [if_pos hneg]
    have hs : Real.sin t < 0 := by
      by_contra h
      exact absurd (mul_nonneg hk.le (not_lt.1 h)) (not_le.2 hneg)
    have ht0 : t < 0 := by
      by_contra h
      exact absurd (Real.sin_nonneg_of_nonneg_of_le_pi (not_lt.1 h) (by linarith)) (not_le.2 hs)
    have := main (-t) (by linarith) (by linarith) (by rw [Real.sin_neg, neg_sq]) (Real.cos_neg t) (by
      rw [abs_of_neg hneg, Real.sin_neg]; ring)
    refine ⟨?_, this.2⟩
    apply conv
    rw [show ∀ l : ℝ, -l - t = -(l - -t) from fun l => by ring, abs_neg]
    exact this.1
  · rw [if_neg hneg]
    have hs : 0 ≤ Real.sin t := by
      by_contra h
      exact hneg (mul_neg_of_pos_of_neg hk (not_le.1 h))
    have ht0 : 0 ≤ t := by
      by_contra h
      exact absurd (Real.sin_neg_of_neg_of_neg_pi_lt (not_le.1 h) (by linarith)) (not_lt.2 hs)
    have := main t ht0 ht2 rfl rfl (by rw [abs_of_nonneg (not_lt.1 hneg)]; ring)
    exact ⟨conv _ _ this.1, this.2⟩

/-- An aircraft. -/
example : |ecef2lla (lla2ecef ![58.4, 15.6, 10000]) 0 - 58.4| ≤ 2 / 10 ^ 10 ∧
    |ecef2lla (lla2ecef ![58.4, 15.6, 10000]) 2 - 10000| ≤ 1 / 10 ^ 3 + |10000| / 10 ^ 15 :=
  C100_position 58.4 15.6 10000 (by norm_num) (by norm_num) (by norm_num)

end Verif.CF

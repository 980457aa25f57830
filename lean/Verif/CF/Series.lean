import Mathlib.Tactic.Linarith
import Mathlib.Tactic.Positivity
import Mathlib.Tactic.NormNum
import Mathlib.Tactic.LinearCombination
import Mathlib.Tactic.FieldSimp
import Verif.CF.Olson

/-!
# The first approximation in `ecef2lla`, at altitude

With `X` the square of the sine of the latitude, `ε = e2 N / (N + h)` in place of the squared
eccentricity, `σ` the ratio of `N + h` to the distance from the centre and `γ` the inverse of the
normal radius: the series of the program agree with the sine and cosine of the latitude up to terms
of the third order.
-/

namespace Verif.CF

theorem ab {a b A B : ℝ} (h1 : |a| ≤ A) (h2 : |b| ≤ B) : |a * b| ≤ A * B := by
  rw [abs_mul]
  exact mul_le_mul h1 h2 (abs_nonneg b) ((abs_nonneg a).trans h1)

theorem ad {a b A B : ℝ} (h1 : |a| ≤ A) (h2 : |b| ≤ B) : |a + b| ≤ A + B :=
  (abs_add_le _ _).trans (add_le_add h1 h2)

theorem asb {a b A B : ℝ} (h1 : |a| ≤ A) (h2 : |b| ≤ B) : |a - b| ≤ A + B :=
  (abs_sub _ _).trans (add_le_add h1 h2)

theorem apos {a A : ℝ} (h1 : 0 ≤ a) (h2 : a ≤ A) : |a| ≤ A := by rwa [abs_of_nonneg h1]

theorem aof {a A : ℝ} (h1 : -A ≤ a) (h2 : a ≤ A) : |a| ≤ A := abs_le.2 ⟨h1, h2⟩

/-- The ratio of the radii, and its square. -/
theorem sig_basic {X ε σ : ℝ} (h0 : 0 ≤ X) (h1 : X ≤ 1) (he0 : 0 ≤ ε) (he1 : ε ≤ 672 / 10 ^ 5)
    (hσ : 0 < σ) (hq : σ ^ 2 * (1 - X * ε * (2 - ε)) = 1) :
    ∃ y, y = X * ε * (2 - ε) ∧ 0 ≤ y ∧ y ≤ 2 * ε * X ∧ y ≤ 1344 / 10 ^ 5 ∧
      σ ^ 2 = 1 + y * σ ^ 2 ∧ 1 ≤ σ ^ 2 ∧ σ ^ 2 ≤ 10137 / 10 ^ 4 ∧ 1 ≤ σ ∧ σ ≤ 10069 / 10 ^ 4 := by
  refine ⟨_, rfl, ?_⟩
  have hXe : 0 ≤ X * ε := mul_nonneg h0 he0
  have hXe1 : X * ε ≤ 1 * (672 / 10 ^ 5) := mul_le_mul h1 he1 he0 zero_le_one
  have y0 : 0 ≤ X * ε * (2 - ε) := mul_nonneg hXe (by linarith)
  have y1 : X * ε * (2 - ε) ≤ 2 * ε * X := by
    have := mul_nonneg hXe he0
    linarith
  have y2 : X * ε * (2 - ε) ≤ 1344 / 10 ^ 5 := by linarith
  generalize X * ε * (2 - ε) = y at *
  have hu : σ ^ 2 = 1 + y * σ ^ 2 := by linarith
  have hu0 : 0 < σ ^ 2 := by positivity
  have hyu : 0 ≤ y * σ ^ 2 := mul_nonneg y0 hu0.le
  have hyu1 : y * σ ^ 2 ≤ 1344 / 10 ^ 5 * σ ^ 2 := mul_le_mul_of_nonneg_right y2 hu0.le
  have hu1 : σ ^ 2 ≤ 10137 / 10 ^ 4 := by linarith
  have s1 : 1 ≤ σ := by
    by_contra h
    have : σ ^ 2 < 1 := pow_lt_one₀ hσ.le (not_le.1 h) two_ne_zero
    linarith
  have s2 : σ ≤ 10069 / 10 ^ 4 := by
    by_contra h
    have : (10069 / 10 ^ 4 : ℝ) ^ 2 < σ ^ 2 := pow_lt_pow_left₀ (not_le.1 h) (by norm_num) two_ne_zero
    linarith
  exact ⟨y0, y1, y2, hu, by linarith, hu1, s1, s2⟩

/-- The ratio of the radii to second order. -/
theorem sig_one {X ε σ : ℝ} (h0 : 0 ≤ X) (h1 : X ≤ 1) (he0 : 0 ≤ ε) (he1 : ε ≤ 672 / 10 ^ 5)
    (hσ : 0 < σ) (hq : σ ^ 2 * (1 - X * ε * (2 - ε)) = 1) :
    |σ - (1 + ε * X + ε ^ 2 * (3 / 2 * X ^ 2 - X / 2))| ≤ 1 / 10 ^ 6 := by
  obtain ⟨y, hy, y0, y1, y2, hu, u0, u1, s0, s1⟩ := sig_basic h0 h1 he0 he1 hσ hq
  have hX2 : 0 ≤ X ^ 2 ∧ X ^ 2 ≤ 1 := ⟨sq_nonneg X, pow_le_one₀ h0 h1⟩
  have hX3 : 0 ≤ X ^ 3 ∧ X ^ 3 ≤ 1 := ⟨pow_nonneg h0 3, pow_le_one₀ h0 h1⟩
  have hX4 : 0 ≤ X ^ 4 ∧ X ^ 4 ≤ 1 := ⟨pow_nonneg h0 4, pow_le_one₀ h0 h1⟩
  have hc2 := pow_chain h0 h1 2
  have hc1 := pow_chain h0 h1 1
  norm_num at hc1 hc2
  have hε2 : 0 ≤ ε ^ 2 ∧ ε ^ 2 ≤ (672 / 10 ^ 5) ^ 2 := ⟨sq_nonneg ε, pow_le_pow_left₀ he0 he1 2⟩
  have hε3 : 0 ≤ ε ^ 3 ∧ ε ^ 3 ≤ (672 / 10 ^ 5) ^ 3 := ⟨pow_nonneg he0 3, pow_le_pow_left₀ he0 he1 3⟩
  have hε4 : 0 ≤ ε ^ 4 ∧ ε ^ 4 ≤ (672 / 10 ^ 5) ^ 4 := ⟨pow_nonneg he0 4, pow_le_pow_left₀ he0 he1 4⟩
  obtain ⟨p, hp⟩ : ∃ p, p = 1 + ε * X + ε ^ 2 * (3 / 2 * X ^ 2 - X / 2) := ⟨_, rfl⟩
  rw [← hp]
  have hp1 : 1 - 3 / 10 ^ 5 ≤ p := by
    have h2 := mul_nonneg he0 h0
    have h3 : -(1 / 2) ≤ 3 / 2 * X ^ 2 - X / 2 := by linarith
    have h4 := mul_le_mul_of_nonneg_left h3 hε2.1
    have := hε2.2
    rw [hp]
    linarith
  have hy3 : 0 ≤ y ^ 3 * σ ^ 2 ∧ y ^ 3 * σ ^ 2 ≤ 811 / 100 * (ε ^ 3 * X ^ 3) := by
    refine ⟨by positivity, ?_⟩
    have h2 : y ^ 3 ≤ (2 * ε * X) ^ 3 := pow_le_pow_left₀ y0 y1 3
    have h3 := mul_le_mul h2 u1 (by positivity) (by positivity)
    have h4 := mul_nonneg hε3.1 hX3.1
    linarith
  have hdiff : (σ - p) * (σ + p) = y ^ 3 * σ ^ 2 - 3 * ε ^ 3 * X ^ 3 - 3 * ε ^ 3 * X ^ 2 +
      ε ^ 4 * (X ^ 2 - (3 / 2 * X ^ 2 - X / 2) ^ 2) := by
    have hexp : σ ^ 2 = 1 + y + y ^ 2 + y ^ 3 * σ ^ 2 := by
      linear_combination (1 + y + y ^ 2) * hu
    have : (σ - p) * (σ + p) = σ ^ 2 - p ^ 2 := by ring
    rw [this, hp]
    rw [hy] at hexp ⊢
    linear_combination hexp
  have hq4 : |ε ^ 4 * (X ^ 2 - (3 / 2 * X ^ 2 - X / 2) ^ 2)| ≤ (672 / 10 ^ 5) ^ 4 * 4 := by
    refine ab (apos hε4.1 hε4.2) ?_
    have h2 : |3 / 2 * X ^ 2 - X / 2| ≤ 3 / 2 := aof (by linarith) (by linarith)
    have h3 := ab h2 h2
    have h4 := asb (apos hX2.1 hX2.2) h3
    rw [show (3 / 2 * X ^ 2 - X / 2) ^ 2 = (3 / 2 * X ^ 2 - X / 2) * (3 / 2 * X ^ 2 - X / 2) from by ring]
    linarith
  have hmain : |(σ - p) * (σ + p)| ≤ 1 / 10 ^ 6 * (19999 / 10 ^ 4) := by
    rw [hdiff]
    obtain ⟨q1, q2⟩ := abs_le.1 hq4
    have a1 : ε ^ 3 * X ^ 3 ≤ ε ^ 3 * X ^ 2 := mul_le_mul_of_nonneg_left hc2.2 hε3.1
    have a2 : ε ^ 3 * X ^ 2 ≤ ε ^ 3 * 1 := mul_le_mul_of_nonneg_left hX2.2 hε3.1
    have a3 := mul_nonneg hε3.1 hX3.1
    have a4 := hε3.2
    norm_num at a4 q1 q2 ⊢
    apply aof <;> linarith
  have hsp : 19999 / 10 ^ 4 ≤ σ + p := by linarith
  rw [abs_mul, abs_of_pos (by linarith : 0 < σ + p)] at hmain
  have := mul_le_mul_of_nonneg_left hsp (abs_nonneg (σ - p))
  linarith

/-- Its powers. -/
theorem sig_pow {X ε σ : ℝ} (h0 : 0 ≤ X) (h1 : X ≤ 1) (he0 : 0 ≤ ε) (he1 : ε ≤ 672 / 10 ^ 5)
    (hσ : 0 < σ) (hq : σ ^ 2 * (1 - X * ε * (2 - ε)) = 1) :
    |σ ^ 4 - (1 + 4 * ε * X + ε ^ 2 * (12 * X ^ 2 - 2 * X))| ≤ 15 / 10 ^ 6 ∧
    (1 ≤ σ ^ 5 ∧ σ ^ 5 ≤ 1035 / 1000) ∧ (1 ≤ σ ^ 6 ∧ σ ^ 6 ≤ 1042 / 1000) ∧
    (1 ≤ σ ^ 7 ∧ σ ^ 7 ≤ 1050 / 1000) := by
  obtain ⟨y, hy, y0, y1, y2, hu, u0, u1, s0, s1⟩ := sig_basic h0 h1 he0 he1 hσ hq
  have hX2 : 0 ≤ X ^ 2 ∧ X ^ 2 ≤ 1 := ⟨sq_nonneg X, pow_le_one₀ h0 h1⟩
  refine ⟨?_, ⟨one_le_pow₀ s0, ?_⟩, ⟨one_le_pow₀ s0, ?_⟩, ⟨one_le_pow₀ s0, ?_⟩⟩
  · have e : σ ^ 4 - (1 + 4 * ε * X + ε ^ 2 * (12 * X ^ 2 - 2 * X)) =
        y * y * y * σ ^ 2 * (σ ^ 2 + 3) + ε ^ 3 * X ^ 2 * (-12 + 3 * ε) := by
      have hexp : σ ^ 4 = 1 + 2 * y + 3 * y ^ 2 + y * y * y * σ ^ 2 * (σ ^ 2 + 3) := by
        have h4 : σ ^ 4 = σ ^ 2 * σ ^ 2 := by ring
        generalize σ ^ 2 = u at *
        rw [h4]
        linear_combination ((1 + y + y ^ 2) * u + 1 + 2 * y + 3 * y ^ 2) * hu
      rw [hexp, hy]
      ring
    rw [e]
    have hyy : |y| ≤ 1344 / 10 ^ 5 := apos y0 y2
    have huu : |σ ^ 2| ≤ 10137 / 10 ^ 4 := apos (by linarith) u1
    have hu3 : |σ ^ 2 + 3| ≤ 40137 / 10 ^ 4 := apos (by linarith) (by linarith)
    have hε3 : |ε ^ 3| ≤ (672 / 10 ^ 5) ^ 3 := apos (pow_nonneg he0 3) (pow_le_pow_left₀ he0 he1 3)
    have h12 : |(-12 + 3 * ε)| ≤ 12 := aof (by linarith) (by linarith)
    have := ad (ab (ab (ab (ab hyy hyy) hyy) huu) hu3) (ab (ab hε3 (apos hX2.1 hX2.2)) h12)
    refine this.trans ?_
    norm_num
  · have := pow_le_pow_left₀ hσ.le s1 5
    linarith
  · have := pow_le_pow_left₀ (by linarith) u1 3
    have e : σ ^ 6 = (σ ^ 2) ^ 3 := by ring
    rw [e]
    linarith
  · have := pow_le_pow_left₀ hσ.le s1 7
    linarith

/-- The inverse of the normal radius. -/
theorem gam_bounds {X E γ : ℝ} (h0 : 0 ≤ X) (h1 : X ≤ 1) (he0 : 0 ≤ E) (he1 : E ≤ 67 / 10 ^ 4)
    (hγ : 0 ≤ γ) (hg : γ ^ 2 = 1 - E * X) :
    |γ - (1 - E * X / 2 - E ^ 2 * X ^ 2 / 8)| ≤ 1 / 10 ^ 7 ∧ 99 / 100 ≤ γ ∧ γ ≤ 1 := by
  have x0 : 0 ≤ E * X := mul_nonneg he0 h0
  have x1 : E * X ≤ 67 / 10 ^ 4 := by
    have := mul_le_mul he1 h1 h0 (by norm_num)
    linarith
  rw [show E ^ 2 * X ^ 2 = (E * X) ^ 2 from by ring]
  generalize E * X = x at *
  have hx2 : 0 ≤ x ^ 2 ∧ x ^ 2 ≤ (67 / 10 ^ 4) ^ 2 := ⟨sq_nonneg x, pow_le_pow_left₀ x0 x1 2⟩
  have hx3 : 0 ≤ x ^ 3 ∧ x ^ 3 ≤ (67 / 10 ^ 4) ^ 3 := ⟨pow_nonneg x0 3, pow_le_pow_left₀ x0 x1 3⟩
  have hx4 : 0 ≤ x ^ 4 ∧ x ^ 4 ≤ (67 / 10 ^ 4) ^ 4 := ⟨pow_nonneg x0 4, pow_le_pow_left₀ x0 x1 4⟩
  have g0 : 99 / 100 ≤ γ := by
    by_contra h
    have : γ ^ 2 < (99 / 100) ^ 2 := pow_lt_pow_left₀ (not_le.1 h) hγ two_ne_zero
    norm_num at this
    linarith
  have g1 : γ ≤ 1 := by
    by_contra h
    have : 1 < γ ^ 2 := one_lt_pow₀ (not_le.1 h) two_ne_zero
    linarith
  refine ⟨?_, g0, g1⟩
  obtain ⟨p, hp⟩ : ∃ p, p = 1 - x / 2 - x ^ 2 / 8 := ⟨_, rfl⟩
  rw [← hp]
  have p0 : 99 / 100 ≤ p := by
    have := hx2.2
    rw [hp]; norm_num at this; linarith
  have e : (γ - p) * (γ + p) = -(x ^ 3 / 8 + x ^ 4 / 64) := by
    rw [hp]
    linear_combination hg
  have hb : |(γ - p) * (γ + p)| ≤ 1 / 10 ^ 7 * (198 / 100) := by
    rw [e, abs_neg, abs_of_nonneg (by linarith [hx3.1, hx4.1])]
    have a := hx3.2
    have b := hx4.2
    norm_num at a b ⊢
    linarith
  have hs : 198 / 100 ≤ γ + p := by linarith
  rw [abs_mul, abs_of_pos (by linarith : 0 < γ + p)] at hb
  have := mul_le_mul_of_nonneg_left hs (abs_nonneg (γ - p))
  linarith

/-- The product that appears in the first order. -/
theorem prod4 {X ε E σ γ : ℝ} (h0 : 0 ≤ X) (h1 : X ≤ 1) (he0 : 0 ≤ ε) (he1 : ε ≤ 672 / 10 ^ 5)
    (hE0 : 0 ≤ E) (hE1 : E ≤ 67 / 10 ^ 4) (hσ : 0 < σ) (hq : σ ^ 2 * (1 - X * ε * (2 - ε)) = 1)
    (hγ : 0 ≤ γ) (hg : γ ^ 2 = 1 - E * X) :
    |γ * σ ^ 4 - (1 + 4 * ε * X - E * X / 2 + ε ^ 2 * (12 * X ^ 2 - 2 * X) - 2 * E * ε * X ^ 2 -
      E ^ 2 * X ^ 2 / 8)| ≤ 2 / 10 ^ 5 := by
  have hs := (sig_pow h0 h1 he0 he1 hσ hq).1
  obtain ⟨hgm, g0, g1⟩ := gam_bounds h0 h1 hE0 hE1 hγ hg
  have hX2 : 0 ≤ X ^ 2 ∧ X ^ 2 ≤ 1 := ⟨sq_nonneg X, pow_le_one₀ h0 h1⟩
  have aε : |ε| ≤ 672 / 10 ^ 5 := apos he0 he1
  have aE : |E| ≤ 67 / 10 ^ 4 := apos hE0 hE1
  have aX : |X| ≤ 1 := apos h0 h1
  have aγ : |γ| ≤ 1 := apos hγ g1
  have aX12 : |12 * X ^ 2 - 2 * X| ≤ 12 := aof (by linarith [hX2.1]) (by linarith [hX2.2])
  have ab1 : |1 + 4 * ε * X + ε ^ 2 * (12 * X ^ 2 - 2 * X)| ≤ 2 := by
    have h2 := ab (ab (apos (by norm_num) le_rfl : |(4 : ℝ)| ≤ 4) aε) aX
    have h3 := ab (ab aε aε) aX12
    have h4 := ad (ad (apos zero_le_one le_rfl : |(1 : ℝ)| ≤ 1) h2) h3
    rw [← sq] at h4
    refine h4.trans ?_
    norm_num
  have e : γ * σ ^ 4 - (1 + 4 * ε * X - E * X / 2 + ε ^ 2 * (12 * X ^ 2 - 2 * X) - 2 * E * ε * X ^ 2 -
      E ^ 2 * X ^ 2 / 8) =
      γ * (σ ^ 4 - (1 + 4 * ε * X + ε ^ 2 * (12 * X ^ 2 - 2 * X))) +
      (γ - (1 - E * X / 2 - E ^ 2 * X ^ 2 / 8)) * (1 + 4 * ε * X + ε ^ 2 * (12 * X ^ 2 - 2 * X)) -
      (E * X * (1 / 2) * (ε * ε * (12 * X ^ 2 - 2 * X)) +
        E * X * (E * X) * (1 / 8) * (4 * ε * X + ε * ε * (12 * X ^ 2 - 2 * X))) := by ring
  rw [e]
  have t1 := ab (ab (ab aE aX) (apos (by norm_num) le_rfl : |(1 / 2 : ℝ)| ≤ 1 / 2)) (ab (ab aε aε) aX12)
  have t2 := ab (ab (ab (ab aE aX) (ab aE aX)) (apos (by norm_num) le_rfl : |(1 / 8 : ℝ)| ≤ 1 / 8))
    (ad (ab (ab (apos (by norm_num) le_rfl : |(4 : ℝ)| ≤ 4) aε) aX) (ab (ab aε aε) aX12))
  have := asb (ad (ab aγ hs) (ab hgm ab1)) (ad t1 t2)
  refine this.trans ?_
  norm_num

theorem one_sub_pow_bounds {ε : ℝ} (he0 : 0 ≤ ε) (he1 : ε ≤ 672 / 10 ^ 5) :
    (0 ≤ 1 - ε ∧ 1 - ε ≤ 1) ∧ (98 / 100 ≤ (1 - ε) ^ 2 ∧ (1 - ε) ^ 2 ≤ 1) ∧
    (979 / 1000 ≤ (1 - ε) ^ 3 ∧ (1 - ε) ^ 3 ≤ 1) := by
  have a : 0 ≤ 1 - ε := by linarith
  have b : 1 - ε ≤ 1 := by linarith
  have c : 1 - 672 / 10 ^ 5 ≤ 1 - ε := by linarith
  have c2 := pow_le_pow_left₀ (by norm_num) c 2
  have c3 := pow_le_pow_left₀ (by norm_num) c 3
  refine ⟨⟨a, b⟩, ⟨?_, pow_le_one₀ a b⟩, ⟨?_, pow_le_one₀ a b⟩⟩
  · norm_num at c2 ⊢; linarith
  · norm_num at c3 ⊢; linarith

/-- The products in the second order. -/
theorem prodn {X ε E σ γ : ℝ} (h0 : 0 ≤ X) (h1 : X ≤ 1) (he0 : 0 ≤ ε) (he1 : ε ≤ 672 / 10 ^ 5)
    (hE0 : 0 ≤ E) (hE1 : E ≤ 67 / 10 ^ 4) (hσ : 0 < σ) (hq : σ ^ 2 * (1 - X * ε * (2 - ε)) = 1)
    (hγ : 0 ≤ γ) (hg : γ ^ 2 = 1 - E * X) {w : ℝ} (hw0 : 979 / 1000 ≤ w) (hw1 : w ≤ 1) :
    |w * (γ ^ 2 * σ ^ 5) - 1| ≤ 35 / 1000 ∧ |w * (γ * σ ^ 6) - 1| ≤ 42 / 1000 ∧
    |w * (γ ^ 2 * σ ^ 7) - 1| ≤ 50 / 1000 := by
  obtain ⟨-, ⟨a5, b5⟩, ⟨a6, b6⟩, ⟨a7, b7⟩⟩ := sig_pow h0 h1 he0 he1 hσ hq
  obtain ⟨-, g0, g1⟩ := gam_bounds h0 h1 hE0 hE1 hγ hg
  have x1 : E * X ≤ 67 / 10 ^ 4 := by
    have := mul_le_mul hE1 h1 h0 (by norm_num)
    linarith
  have x0 : 0 ≤ E * X := mul_nonneg hE0 h0
  have key : ∀ {v s U : ℝ}, 99 / 100 ≤ v → v ≤ 1 → 1 ≤ s → s ≤ 1 + U → 35 / 1000 ≤ U →
      |w * (v * s) - 1| ≤ U := by
    intro v s U v0 v1 s0 s1 hU
    have m1 : (99 / 100) * 1 ≤ v * s := mul_le_mul v0 s0 (by norm_num) (by linarith)
    have m2 : v * s ≤ 1 * (1 + U) := mul_le_mul v1 s1 (by linarith) (by norm_num)
    have m3 : (979 / 1000) * (99 / 100) ≤ w * (v * s) :=
      mul_le_mul hw0 (by linarith) (by norm_num) (by linarith)
    have m4 : w * (v * s) ≤ 1 * (1 + U) := mul_le_mul hw1 (by linarith) (by linarith) (by norm_num)
    apply aof <;> linarith
  have gg0 : 99 / 100 ≤ γ ^ 2 := by rw [hg]; linarith
  have gg1 : γ ^ 2 ≤ 1 := by rw [hg]; linarith
  exact ⟨key gg0 gg1 a5 (by linarith) (by norm_num), key g0 g1 a6 (by linarith) (by norm_num),
    key gg0 gg1 a7 (by linarith) (by norm_num)⟩

/-- The first approximation of the sine. -/
theorem ser_sin {X ε E σ γ : ℝ} (h0 : 0 ≤ X) (h1 : X ≤ 1) (he0 : 0 ≤ ε) (he1 : ε ≤ 672 / 10 ^ 5)
    (hE0 : 0 ≤ E) (hE1 : E ≤ 67 / 10 ^ 4) (hσ : 0 < σ) (hq : σ ^ 2 * (1 - X * ε * (2 - ε)) = 1)
    (hγ : 0 ≤ γ) (hg : γ ^ 2 = 1 - E * X) :
    |(1 - ε) * σ * (1 + (1 - X) * σ ^ 2 * (ε * σ * γ + (ε * σ * γ) ^ 2 +
      (1 - ε) ^ 2 * X * σ ^ 2 * (E / 2 * (ε * σ * γ) - 5 / 2 * (ε * σ * γ) ^ 2))) - 1| ≤
      55 / 10 ^ 7 := by
  have hρ := sig_one h0 h1 he0 he1 hσ hq
  have hR := prod4 h0 h1 he0 he1 hE0 hE1 hσ hq hγ hg
  obtain ⟨w1, w2, w3⟩ := one_sub_pow_bounds he0 he1
  have q5 := (prodn h0 h1 he0 he1 hE0 hE1 hσ hq hγ hg (by linarith : 979 / 1000 ≤ 1 - ε) w1.2).1
  have q6 := (prodn h0 h1 he0 he1 hE0 hE1 hσ hq hγ hg w3.1 w3.2).2.1
  have q7 := (prodn h0 h1 he0 he1 hE0 hE1 hσ hq hγ hg w3.1 w3.2).2.2
  have hX2 : 0 ≤ X ^ 2 ∧ X ^ 2 ≤ 1 := ⟨sq_nonneg X, pow_le_one₀ h0 h1⟩
  have aε : |ε| ≤ 672 / 10 ^ 5 := apos he0 he1
  have aE : |E| ≤ 67 / 10 ^ 4 := apos hE0 hE1
  have aX : |X| ≤ 1 := apos h0 h1
  have aX1 : |1 - X| ≤ 1 := apos (by linarith) (by linarith)
  have aXX : |(1 - X) * X| ≤ 1 / 4 :=
    apos (mul_nonneg (by linarith) h0) (by linarith [sq_nonneg (X - 1 / 2)])
  have aε1 : |1 - ε| ≤ 1 := apos w1.1 w1.2
  have e : (1 - ε) * σ * (1 + (1 - X) * σ ^ 2 * (ε * σ * γ + (ε * σ * γ) ^ 2 +
      (1 - ε) ^ 2 * X * σ ^ 2 * (E / 2 * (ε * σ * γ) - 5 / 2 * (ε * σ * γ) ^ 2))) - 1 =
      (1 - ε) * (σ - (1 + ε * X + ε ^ 2 * (3 / 2 * X ^ 2 - X / 2))) -
      ε * ε * ε * (3 / 2 * X ^ 2 - X / 2) +
      (1 - X) * ε * (1 - ε) * (γ * σ ^ 4 - (1 + 4 * ε * X - E * X / 2 +
        ε ^ 2 * (12 * X ^ 2 - 2 * X) - 2 * E * ε * X ^ 2 - E ^ 2 * X ^ 2 / 8)) +
      (1 - X) * X * ε * (ε * ε * (12 * X - 6) + ε * E * (1 / 2 - 2 * X) - E * E * (X / 8)) -
      (1 - X) * (ε * ε) * (ε * ε * (12 * X ^ 2 - 2 * X) - ε * E * (2 * X ^ 2) - E * E * (X ^ 2 / 8)) +
      (1 - X) * (ε * ε) * ((1 - ε) * (γ ^ 2 * σ ^ 5) - 1) +
      (1 - X) * X * (E * ε * (1 / 2)) * ((1 - ε) ^ 3 * (γ * σ ^ 6) - 1) -
      (1 - X) * X * (ε * ε * (5 / 2)) * ((1 - ε) ^ 3 * (γ ^ 2 * σ ^ 7) - 1) := by ring
  rw [e]
  have t1 := ab aε1 hρ
  have hXX : X ^ 2 ≤ X := by linarith [mul_le_mul_of_nonneg_left h1 h0, sq X]
  have t2 := ab (ab (ab aε aε) aε)
    (aof (by linarith [hX2.1]) (by linarith) : |3 / 2 * X ^ 2 - X / 2| ≤ 1)
  have t3 := ab (ab (ab aX1 aε) aε1) hR
  have t4 := ab (ab aXX aε) (asb (ad (ab (ab aε aε)
      (aof (by linarith) (by linarith) : |12 * X - 6| ≤ 6))
    (ab (ab aε aE) (aof (by linarith) (by linarith) : |1 / 2 - 2 * X| ≤ 3 / 2)))
    (ab (ab aE aE) (apos (by linarith) (by linarith) : |X / 8| ≤ 1 / 8)))
  have t5 := ab (ab aX1 (ab aε aε)) (asb (asb (ab (ab aε aε)
      (aof (by linarith [hX2.1]) (by linarith [hX2.2]) : |12 * X ^ 2 - 2 * X| ≤ 12))
    (ab (ab aε aE) (apos (by linarith [hX2.1]) (by linarith [hX2.2]) : |2 * X ^ 2| ≤ 2)))
    (ab (ab aE aE) (apos (by linarith [hX2.1]) (by linarith [hX2.2]) : |X ^ 2 / 8| ≤ 1 / 8)))
  have t6 := ab (ab aX1 (ab aε aε)) q5
  have t7 := ab (ab aXX (ab (ab aE aε) (apos (by norm_num) le_rfl : |(1 / 2 : ℝ)| ≤ 1 / 2))) q6
  have t8 := ab (ab aXX (ab (ab aε aε) (apos (by norm_num) le_rfl : |(5 / 2 : ℝ)| ≤ 5 / 2))) q7
  refine (asb (ad (ad (asb (ad (ad (asb t1 t2) t3) t4) t5) t6) t7) t8).trans ?_
  norm_num

/-- The first approximation of the cosine. -/
theorem ser_cos {X ε E σ γ : ℝ} (h0 : 0 ≤ X) (h1 : X ≤ 1) (he0 : 0 ≤ ε) (he1 : ε ≤ 672 / 10 ^ 5)
    (hE0 : 0 ≤ E) (hE1 : E ≤ 67 / 10 ^ 4) (hσ : 0 < σ) (hq : σ ^ 2 * (1 - X * ε * (2 - ε)) = 1)
    (hγ : 0 ≤ γ) (hg : γ ^ 2 = 1 - E * X) :
    |σ * (1 - (1 - ε) ^ 2 * X * σ ^ 2 * ((1 + E / 2) * (ε * σ * γ) - (ε * σ * γ) ^ 2 -
      (1 - X) * σ ^ 2 * (E / 2 * (ε * σ * γ) - 5 / 2 * (ε * σ * γ) ^ 2))) - 1| ≤ 59 / 10 ^ 7 := by
  have hρ := sig_one h0 h1 he0 he1 hσ hq
  have hR := prod4 h0 h1 he0 he1 hE0 hE1 hσ hq hγ hg
  obtain ⟨w1, w2, w3⟩ := one_sub_pow_bounds he0 he1
  obtain ⟨q5, q6, q7⟩ := prodn h0 h1 he0 he1 hE0 hE1 hσ hq hγ hg
    (by linarith : 979 / 1000 ≤ (1 - ε) ^ 2) w2.2
  have hX2 : 0 ≤ X ^ 2 ∧ X ^ 2 ≤ 1 := ⟨sq_nonneg X, pow_le_one₀ h0 h1⟩
  have hXX : X ^ 2 ≤ X := by linarith [mul_le_mul_of_nonneg_left h1 h0, sq X]
  have aε : |ε| ≤ 672 / 10 ^ 5 := apos he0 he1
  have aE : |E| ≤ 67 / 10 ^ 4 := apos hE0 hE1
  have aX : |X| ≤ 1 := apos h0 h1
  have aX1 : |1 - X| ≤ 1 := apos (by linarith) (by linarith)
  have aXX : |(1 - X) * X| ≤ 1 / 4 :=
    apos (mul_nonneg (by linarith) h0) (by linarith [sq_nonneg (X - 1 / 2)])
  have a2 : |(1 - ε) ^ 2| ≤ 1 := apos (by linarith) w2.2
  obtain ⟨a₁, ha₁⟩ : ∃ a, a = -2 * ε + E / 2 := ⟨_, rfl⟩
  obtain ⟨a₂, ha₂⟩ : ∃ a, a = ε * (ε - E) := ⟨_, rfl⟩
  obtain ⟨a₃, ha₃⟩ : ∃ a, a = ε * ε * (E / 2) := ⟨_, rfl⟩
  obtain ⟨b₁, hb₁⟩ : ∃ a, a = 4 * ε * X - E / 2 * X := ⟨_, rfl⟩
  obtain ⟨b₂, hb₂⟩ : ∃ a, a = ε * ε * (12 * X ^ 2 - 2 * X) - E * ε * (2 * X ^ 2) -
    E * E * (X ^ 2 / 8) := ⟨_, rfl⟩
  have n12 : |12 * X ^ 2 - 2 * X| ≤ 10 := aof (by linarith [hX2.1]) (by linarith)
  have B1 : |a₁| ≤ 14 / 1000 := by rw [ha₁]; apply aof <;> linarith
  have B2 : |a₂| ≤ 5 / 10 ^ 5 := by
    rw [ha₂]
    refine (ab aε (aof (by linarith) (by linarith) : |ε - E| ≤ 7 / 1000)).trans ?_
    norm_num
  have B3 : |a₃| ≤ 2 / 10 ^ 7 := by
    rw [ha₃]
    refine (ab (ab aε aε) (apos (by linarith) (by linarith) : |E / 2| ≤ 4 / 1000)).trans ?_
    norm_num
  have B4 : |b₁| ≤ 31 / 1000 := by
    rw [hb₁]
    refine (asb (ab (ab (apos (by norm_num) le_rfl : |(4 : ℝ)| ≤ 4) aε) aX)
      (ab (apos (by linarith) (by linarith) : |E / 2| ≤ 4 / 1000) aX)).trans ?_
    norm_num
  have B5 : |b₂| ≤ 6 / 10 ^ 4 := by
    rw [hb₂]
    refine (asb (asb (ab (ab aε aε) n12)
      (ab (ab aE aε) (apos (by linarith [hX2.1]) (by linarith [hX2.2]) : |2 * X ^ 2| ≤ 2)))
      (ab (ab aE aE) (apos (by linarith [hX2.1]) (by linarith [hX2.2]) : |X ^ 2 / 8| ≤ 1 / 8))).trans ?_
    norm_num
  have e : σ * (1 - (1 - ε) ^ 2 * X * σ ^ 2 * ((1 + E / 2) * (ε * σ * γ) - (ε * σ * γ) ^ 2 -
      (1 - X) * σ ^ 2 * (E / 2 * (ε * σ * γ) - 5 / 2 * (ε * σ * γ) ^ 2))) - 1 =
      (σ - (1 + ε * X + ε ^ 2 * (3 / 2 * X ^ 2 - X / 2))) -
      X * ε * (1 - ε) ^ 2 * (1 + E / 2) * (γ * σ ^ 4 - (1 + 4 * ε * X - E * X / 2 +
        ε ^ 2 * (12 * X ^ 2 - 2 * X) - 2 * E * ε * X ^ 2 - E ^ 2 * X ^ 2 / 8)) -
      X * ε * (ε * ε * (12 * X ^ 2 - 10 * X + 1) + ε * E * (-2 * X ^ 2 + 3 * X - 1) -
        E * E * (X ^ 2 / 8 + X / 4)) -
      X * ε * (a₃ + a₂ * b₁ + a₁ * b₂ + a₃ * (b₁ + b₂) + a₂ * b₂) +
      X * (ε * ε) * ((1 - ε) ^ 2 * (γ ^ 2 * σ ^ 5) - 1) +
      (1 - X) * X * (E * ε * (1 / 2)) * ((1 - ε) ^ 2 * (γ * σ ^ 6) - 1) -
      (1 - X) * X * (ε * ε * (5 / 2)) * ((1 - ε) ^ 2 * (γ ^ 2 * σ ^ 7) - 1) := by
    rw [ha₁, ha₂, ha₃, hb₁, hb₂]; ring
  rw [e]
  have t2 := ab (ab (ab (ab aX aε) a2)
    (apos (by linarith) (by linarith) : |1 + E / 2| ≤ 1 + 4 / 1000)) hR
  have t3 := ab (ab aX aε) (asb (ad (ab (ab aε aε)
      (aof (by linarith [sq_nonneg (X - 5 / 12)]) (by linarith) : |12 * X ^ 2 - 10 * X + 1| ≤ 3))
    (ab (ab aε aE) (aof (by linarith [hX2.2]) (by linarith [sq_nonneg (X - 3 / 4)]) :
      |(-2 * X ^ 2 + 3 * X - 1)| ≤ 1)))
    (ab (ab aE aE) (apos (by linarith [hX2.1]) (by linarith [hX2.2]) : |X ^ 2 / 8 + X / 4| ≤ 3 / 8)))
  have t4 := ab (ab aX aε) (ad (ad (ad (ad B3 (ab B2 B4)) (ab B1 B5)) (ab B3 (ad B4 B5))) (ab B2 B5))
  have t6 := ab (ab aX (ab aε aε)) q5
  have t7 := ab (ab aXX (ab (ab aE aε) (apos (by norm_num) le_rfl : |(1 / 2 : ℝ)| ≤ 1 / 2))) q6
  have t8 := ab (ab aXX (ab (ab aε aε) (apos (by norm_num) le_rfl : |(5 / 2 : ℝ)| ≤ 5 / 2))) q7
  refine (asb (ad (ad (asb (asb (asb hρ t2) t3) t4) t6) t7) t8).trans ?_
  norm_num

/-- The first approximation of the sine, with the rounded constants of the program. -/
theorem first_sin_alt {X ε E σ γ c₁ c₂ c₃ c₄ : ℝ} (h0 : 0 ≤ X) (h1 : X ≤ 1) (he0 : 0 ≤ ε)
    (he1 : ε ≤ 672 / 10 ^ 5) (hE0 : 0 ≤ E) (hE1 : E ≤ 67 / 10 ^ 4) (hσ : 0 < σ)
    (hq : σ ^ 2 * (1 - X * ε * (2 - ε)) = 1) (hγ : 0 ≤ γ) (hg : γ ^ 2 = 1 - E * X)
    (hc₁ : |c₁ - 1| ≤ 1 / 10 ^ 8) (hc₂ : |c₂ - 1| ≤ 1 / 10 ^ 8) (hc₃ : |c₃ - 1| ≤ 1 / 10 ^ 8)
    (hc₄ : |c₄ - 1| ≤ 1 / 10 ^ 8) :
    |(1 - ε) * σ * (1 + (1 - X) * σ ^ 2 * (c₁ * (ε * σ * γ) + c₂ * (ε * σ * γ) ^ 2 +
      (1 - ε) ^ 2 * X * σ ^ 2 * (c₃ * (E / 2 * (ε * σ * γ)) - c₄ * (5 / 2 * (ε * σ * γ) ^ 2)))) - 1| ≤
      6 / 10 ^ 6 := by
  have h := ser_sin h0 h1 he0 he1 hE0 hE1 hσ hq hγ hg
  obtain ⟨y, -, -, -, -, -, -, u1, s0, s1⟩ := sig_basic h0 h1 he0 he1 hσ hq
  obtain ⟨-, g0, g1⟩ := gam_bounds h0 h1 hE0 hE1 hγ hg
  obtain ⟨w1, w2, w3⟩ := one_sub_pow_bounds he0 he1
  have aσ : |σ| ≤ 2 := apos hσ.le (by linarith)
  have au : |σ ^ 2| ≤ 2 := apos (sq_nonneg σ) (by linarith)
  have aX : |X| ≤ 1 := apos h0 h1
  have aX1 : |1 - X| ≤ 1 := apos (by linarith) (by linarith)
  have a1 : |1 - ε| ≤ 1 := apos w1.1 w1.2
  have a2 : |(1 - ε) ^ 2| ≤ 1 := apos (by linarith) w2.2
  have aE : |E / 2| ≤ 1 := apos (by linarith) (by linarith)
  have aA : |ε * σ * γ| ≤ 2 / 100 :=
    (ab (ab (apos he0 (by linarith) : |ε| ≤ 1 / 100) aσ) (apos hγ g1)).trans (by norm_num)
  generalize ε * σ * γ = A at *
  have aA2 : |A ^ 2| ≤ 1 / 100 := by rw [sq]; exact (ab aA aA).trans (by norm_num)
  have e : (1 - ε) * σ * (1 + (1 - X) * σ ^ 2 * (c₁ * A + c₂ * A ^ 2 +
      (1 - ε) ^ 2 * X * σ ^ 2 * (c₃ * (E / 2 * A) - c₄ * (5 / 2 * A ^ 2)))) - 1 =
      ((1 - ε) * σ * (1 + (1 - X) * σ ^ 2 * (A + A ^ 2 +
      (1 - ε) ^ 2 * X * σ ^ 2 * (E / 2 * A - 5 / 2 * A ^ 2))) - 1) +
      (1 - ε) * σ * ((1 - X) * σ ^ 2 * ((c₁ - 1) * A + (c₂ - 1) * A ^ 2 +
      (1 - ε) ^ 2 * X * σ ^ 2 * ((c₃ - 1) * (E / 2 * A) - (c₄ - 1) * (5 / 2 * A ^ 2)))) := by ring
  rw [e]
  have t := ab (ab a1 aσ) (ab (ab aX1 au) (ad (ad (ab hc₁ aA) (ab hc₂ aA2))
    (ab (ab (ab a2 aX) au) (asb (ab hc₃ (ab aE aA))
      (ab hc₄ (ab (apos (by norm_num) le_rfl : |(5 / 2 : ℝ)| ≤ 5 / 2) aA2))))))
  refine (ad h t).trans ?_
  norm_num

/-- The first approximation of the cosine, with the rounded constants of the program. -/
theorem first_cos_alt {X ε E σ γ c₂ c₃ c₄ c₅ : ℝ} (h0 : 0 ≤ X) (h1 : X ≤ 1) (he0 : 0 ≤ ε)
    (he1 : ε ≤ 672 / 10 ^ 5) (hE0 : 0 ≤ E) (hE1 : E ≤ 67 / 10 ^ 4) (hσ : 0 < σ)
    (hq : σ ^ 2 * (1 - X * ε * (2 - ε)) = 1) (hγ : 0 ≤ γ) (hg : γ ^ 2 = 1 - E * X)
    (hc₂ : |c₂ - 1| ≤ 1 / 10 ^ 8) (hc₃ : |c₃ - 1| ≤ 1 / 10 ^ 8) (hc₄ : |c₄ - 1| ≤ 1 / 10 ^ 8)
    (hc₅ : |c₅ - 1| ≤ 1 / 10 ^ 8) :
    |σ * (1 - (1 - ε) ^ 2 * X * σ ^ 2 * (c₅ * ((1 + E / 2) * (ε * σ * γ)) - c₂ * (ε * σ * γ) ^ 2 -
      (1 - X) * σ ^ 2 * (c₃ * (E / 2 * (ε * σ * γ)) - c₄ * (5 / 2 * (ε * σ * γ) ^ 2)))) - 1| ≤
      6 / 10 ^ 6 := by
  have h := ser_cos h0 h1 he0 he1 hE0 hE1 hσ hq hγ hg
  obtain ⟨y, -, -, -, -, -, -, u1, s0, s1⟩ := sig_basic h0 h1 he0 he1 hσ hq
  obtain ⟨-, g0, g1⟩ := gam_bounds h0 h1 hE0 hE1 hγ hg
  obtain ⟨w1, w2, w3⟩ := one_sub_pow_bounds he0 he1
  have aσ : |σ| ≤ 2 := apos hσ.le (by linarith)
  have au : |σ ^ 2| ≤ 2 := apos (sq_nonneg σ) (by linarith)
  have aX : |X| ≤ 1 := apos h0 h1
  have aX1 : |1 - X| ≤ 1 := apos (by linarith) (by linarith)
  have a2 : |(1 - ε) ^ 2| ≤ 1 := apos (by linarith) w2.2
  have aE : |E / 2| ≤ 1 := apos (by linarith) (by linarith)
  have aE1 : |1 + E / 2| ≤ 2 := apos (by linarith) (by linarith)
  have aA : |ε * σ * γ| ≤ 2 / 100 :=
    (ab (ab (apos he0 (by linarith) : |ε| ≤ 1 / 100) aσ) (apos hγ g1)).trans (by norm_num)
  generalize ε * σ * γ = A at *
  have aA2 : |A ^ 2| ≤ 1 / 100 := by rw [sq]; exact (ab aA aA).trans (by norm_num)
  have e : σ * (1 - (1 - ε) ^ 2 * X * σ ^ 2 * (c₅ * ((1 + E / 2) * A) - c₂ * A ^ 2 -
      (1 - X) * σ ^ 2 * (c₃ * (E / 2 * A) - c₄ * (5 / 2 * A ^ 2)))) - 1 =
      (σ * (1 - (1 - ε) ^ 2 * X * σ ^ 2 * ((1 + E / 2) * A - A ^ 2 -
      (1 - X) * σ ^ 2 * (E / 2 * A - 5 / 2 * A ^ 2))) - 1) -
      σ * ((1 - ε) ^ 2 * X * σ ^ 2 * ((c₅ - 1) * ((1 + E / 2) * A) - (c₂ - 1) * A ^ 2 -
      (1 - X) * σ ^ 2 * ((c₃ - 1) * (E / 2 * A) - (c₄ - 1) * (5 / 2 * A ^ 2)))) := by ring
  rw [e]
  have t := ab aσ (ab (ab (ab a2 aX) au) (asb (asb (ab hc₅ (ab aE1 aA)) (ab hc₂ aA2))
    (ab (ab aX1 au) (asb (ab hc₃ (ab aE aA))
      (ab hc₄ (ab (apos (by norm_num) le_rfl : |(5 / 2 : ℝ)| ≤ 5 / 2) aA2))))))
  refine (asb h t).trans ?_
  norm_num

/-- The excess of the point over the ellipsoid at the approximate latitude, for a point on the
ellipsoid, is of the second order in the error. -/
theorem excess_sq {s c S κ D N M : ℝ} (hsc : s ^ 2 + c ^ 2 = 1)
    (hS1 : |S| ≤ 1) (hN : 0 < N) (hNe : N ^ 2 * (1 - e2 * S ^ 2) = 1) (hM : 0 < M)
    (hMe : M ^ 2 * (1 - e2 * s ^ 2) = 1) (hD0 : 0 ≤ D) (hd : D ≤ 1 / 10 ^ 5)
    (hκ0 : 0 ≤ 1 - κ) (hκ : 1 - κ ≤ D ^ 2 / 2) (hx : |S - s| ≤ D) :
    |N * κ - e2 * N * S * s - M * (1 - e2 * s ^ 2)| ≤ 51 / 100 * D ^ 2 := by
  have hs1 : |s| ≤ 1 := abs_le_one_iff_mul_self_le_one.2 (by linarith [sq_nonneg c, sq s, sq c])
  obtain ⟨n1, n2⟩ := radius_bounds hN hS1 hNe
  obtain ⟨m1, m2⟩ := radius_bounds hM hs1 hMe
  have he : 0 < e2 ∧ e2 ≤ 67 / 10 ^ 4 := by unfold e2; constructor <;> norm_num
  obtain ⟨he0, he1⟩ := he
  have aE : |(e2 : ℝ)| ≤ 67 / 10 ^ 4 := apos he0.le he1
  have hD2 : D ^ 2 ≤ 1 / 10 ^ 5 := by
    have := mul_le_mul hd hd hD0 (by norm_num)
    rw [← sq] at this
    linarith
  obtain ⟨x, hxe⟩ : ∃ x, x = S - s := ⟨_, rfl⟩
  rw [← hxe] at hx
  have hSx : S = s + x := by linarith
  obtain ⟨T, hTe⟩ : ∃ T, T = N - M := ⟨_, rfl⟩
  have hNT : N = M + T := by linarith
  have hNM : 0 < N + M := by linarith
  obtain ⟨K, hK⟩ : ∃ K, K * (N + M) = N ^ 2 * M ^ 2 := ⟨N ^ 2 * M ^ 2 / (N + M), by field_simp⟩
  have hT : T = e2 * (x * (S + s)) * K := by
    have : T * (N + M) = e2 * (x * (S + s)) * K * (N + M) := by
      rw [mul_assoc _ K, hK, hTe, hxe]
      linear_combination (-N ^ 2) * hMe + M ^ 2 * hNe
    exact mul_right_cancel₀ hNM.ne' this
  have aM : |M| ≤ 1004 / 1000 := apos hM.le m2
  have aN : |N| ≤ 1004 / 1000 := apos hN.le n2
  have aM3 : |M ^ 3| ≤ 102 / 100 := by
    have : M ^ 3 ≤ (1004 / 1000) ^ 3 := pow_le_pow_left₀ hM.le m2 3
    exact apos (by positivity) (by linarith)
  have hKb : |K| ≤ 51 / 100 := by
    have h2 : |N * N * (M * M)| ≤ _ := ab (ab aN aN) (ab aM aM)
    rw [show N * N * (M * M) = K * (N + M) from by rw [hK]; ring, abs_mul, abs_of_pos hNM] at h2
    have h3 := mul_le_mul_of_nonneg_left (by linarith : 2 ≤ N + M) (abs_nonneg K)
    norm_num at h2
    linarith
  have aSs : |S + s| ≤ 2 := by have := ad hS1 hs1; linarith
  have hTb : |T| ≤ 7 / 1000 * D := by
    rw [hT]
    have := ab (ab aE (ab hx aSs)) hKb
    linarith
  -- the difference of the factors
  obtain ⟨k, hk⟩ : ∃ k, k = K - M ^ 3 / 2 := ⟨_, rfl⟩
  have hkb : |k| ≤ 8 / 1000 * D := by
    have e : k * (N + M) = M * M * T * (N + M / 2) := by
      rw [hk, sub_mul, hK, hTe]; ring
    have h2 : |M * M * T * (N + M / 2)| ≤ _ :=
      ab (ab (ab aM aM) hTb) (apos (by linarith) (by linarith) : |N + M / 2| ≤ 151 / 100)
    rw [← e, abs_mul, abs_of_pos hNM] at h2
    have h3 := mul_le_mul_of_nonneg_left (by linarith : 2 ≤ N + M) (abs_nonneg k)
    linarith
  obtain ⟨τ, hτ⟩ : ∃ τ, τ = e2 * (x * x * (M ^ 3 * (1 / 2))) + e2 * (x * (S + s) * k) := ⟨_, rfl⟩
  have hTτ : T = e2 * x * s * M ^ 3 + τ := by
    rw [hT, hτ, show K = k + M ^ 3 / 2 from by linarith, hSx]; ring
  have hτb : |τ| ≤ 4 / 1000 * D ^ 2 := by
    rw [hτ]
    have h1 := ab aE (ab (ab hx hx) (ab aM3 (apos (by norm_num) le_rfl : |(1 / 2 : ℝ)| ≤ 1 / 2)))
    have h2 := ab aE (ab (ab hx aSs) hkb)
    have := ad h1 h2
    have := sq_nonneg D
    linarith
  have e : N * κ - e2 * N * S * s - M * (1 - e2 * s ^ 2) =
      -(M * (1 - κ)) + τ * κ - e2 * τ * (S * s) - e2 * x * s * M ^ 3 * (1 - κ) -
      e2 * x * (e2 * x) * (s * s) * M ^ 3 := by
    rw [hNT, hTτ, hSx]
    have hm : M ^ 3 * (1 - e2 * s ^ 2) = M := by linear_combination M * hMe
    linear_combination (e2 * x * s) * hm
  rw [e]
  have aκ' : |1 - κ| ≤ D ^ 2 / 2 := apos hκ0 hκ
  have aκ : |κ| ≤ 1 := aof (by linarith) (by linarith)
  have t1 := ab aM aκ'
  have t2 := ab hτb aκ
  have t3 := ab (ab aE hτb) (ab hS1 hs1)
  have t4 := ab (ab (ab (ab aE hx) hs1) aM3) aκ'
  have t5 := ab (ab (ab (ab aE hx) (ab aE hx)) (ab hs1 hs1)) aM3
  have := asb (asb (asb (ad ((abs_neg _).le.trans t1) t2) t3) t4) t5
  have d3 : D * D ^ 2 ≤ 1 / 10 ^ 5 * D ^ 2 := mul_le_mul_of_nonneg_right hd (sq_nonneg D)
  have := sq_nonneg D
  linarith

end Verif.CF

import Mathlib.Tactic.Linarith
import Mathlib.Tactic.Positivity
import Mathlib.Tactic.NormNum
import Mathlib.Tactic.LinearCombination
import Mathlib.Tactic.FieldSimp
import Verif.CF.Model

/-!
# The first approximation in `ecef2ll`

On the ellipsoid: with `X` the square of the sine of the latitude.
-/

namespace Verif.CF

/-- The powers of a number in `[0, 1]` decrease. -/
theorem pow_chain {X : ℝ} (h0 : 0 ≤ X) (h1 : X ≤ 1) (n : ℕ) : 0 ≤ X ^ n ∧ X ^ (n + 1) ≤ X ^ n := by
  refine ⟨pow_nonneg h0 n, ?_⟩
  rw [pow_succ]
  have := mul_le_mul_of_nonneg_left h1 (pow_nonneg h0 n)
  linarith

/-- `1 / sqrt q`. -/
theorem sigma_bounds {X σ : ℝ} (h0 : 0 ≤ X) (h1 : X ≤ 1) (hσ : 0 < σ)
    (hq : σ ^ 2 * (1 - X * e2 * (2 - e2)) = 1) :
    1 + e2 * X + e2 ^ 2 * (3 / 2 * X ^ 2 - X / 2) - 5 / 10 ^ 7 ≤ σ ∧
    σ ≤ 1 + e2 * X + e2 ^ 2 * (3 / 2 * X ^ 2 - X / 2) + 4 / 10 ^ 7 := by
  unfold e2 at *
  have c1 := pow_chain h0 h1 1
  have c2 := pow_chain h0 h1 2
  have c3 := pow_chain h0 h1 3
  have c4 := pow_chain h0 h1 4
  have c5 := pow_chain h0 h1 5
  norm_num at c1 c2 c3 c4 c5
  have hqp : 0 < 1 - X * (66943799901377997 / 10 ^ 19) * (2 - 66943799901377997 / 10 ^ 19) := by
    nlinarith
  constructor
  · have hp : 0 ≤ 1 + 66943799901377997 / 10 ^ 19 * X + (66943799901377997 / 10 ^ 19) ^ 2 *
        (3 / 2 * X ^ 2 - X / 2) - 5 / 10 ^ 7 := by
      linarith
    apply (pow_le_pow_iff_left₀ hp hσ.le two_ne_zero).1
    apply le_of_mul_le_mul_right _ hqp
    rw [hq]
    linarith
  · have hp : 0 ≤ 1 + 66943799901377997 / 10 ^ 19 * X + (66943799901377997 / 10 ^ 19) ^ 2 *
        (3 / 2 * X ^ 2 - X / 2) + 4 / 10 ^ 7 := by
      linarith
    apply (pow_le_pow_iff_left₀ hσ.le hp two_ne_zero).1
    apply le_of_mul_le_mul_right _ hqp
    rw [hq]
    linarith

/-- `sqrt g`. -/
theorem gamma_bounds {X γ : ℝ} (h0 : 0 ≤ X) (h1 : X ≤ 1) (hγ : 0 ≤ γ)
    (hg : γ ^ 2 = 1 - e2 * X) :
    1 - e2 * X / 2 - e2 ^ 2 * X ^ 2 / 8 - 1 / 10 ^ 7 ≤ γ ∧
    γ ≤ 1 - e2 * X / 2 - e2 ^ 2 * X ^ 2 / 8 := by
  unfold e2 at *
  have c1 := pow_chain h0 h1 1
  have c2 := pow_chain h0 h1 2
  have c3 := pow_chain h0 h1 3
  have c4 := pow_chain h0 h1 4
  norm_num at c1 c2 c3 c4
  constructor
  · apply (pow_le_pow_iff_left₀ (by linarith) hγ two_ne_zero).1
    rw [hg]
    linarith
  · apply (pow_le_pow_iff_left₀ hγ (by linarith) two_ne_zero).1
    rw [hg]
    linarith

/-- The products of powers of `1 / sqrt q` and `sqrt g` in the first approximation. -/
theorem prod_bounds {X σ γ : ℝ} (h0 : 0 ≤ X) (h1 : X ≤ 1) (hσ : 0 < σ)
    (hq : σ ^ 2 * (1 - X * e2 * (2 - e2)) = 1) (hγ : 0 ≤ γ) (hg : γ ^ 2 = 1 - e2 * X) :
    (1 + 7 / 2 * e2 * X + e2 ^ 2 * (79 / 8 * X ^ 2 - 2 * X) - 1 / 10 ^ 5 ≤ γ * σ ^ 4 ∧
      γ * σ ^ 4 ≤ 1 + 7 / 2 * e2 * X + e2 ^ 2 * (79 / 8 * X ^ 2 - 2 * X) + 3 / 10 ^ 5) ∧
    (1 + 4 * e2 * X - 1 / 10 ^ 3 ≤ γ ^ 2 * σ ^ 5 ∧ γ ^ 2 * σ ^ 5 ≤ 1 + 4 * e2 * X + 1 / 10 ^ 3) ∧
    (1 + 11 / 2 * e2 * X - 2 / 10 ^ 3 ≤ γ * σ ^ 6 ∧ γ * σ ^ 6 ≤ 1 + 11 / 2 * e2 * X + 2 / 10 ^ 3) ∧
    (1 + 6 * e2 * X - 2 / 10 ^ 3 ≤ γ ^ 2 * σ ^ 7 ∧
      γ ^ 2 * σ ^ 7 ≤ 1 + 6 * e2 * X + 2 / 10 ^ 3) := by
  obtain ⟨s1, s2⟩ := sigma_bounds h0 h1 hσ hq
  obtain ⟨g1, g2⟩ := gamma_bounds h0 h1 hγ hg
  have hq' := hq
  generalize hQ : 1 - X * e2 * (2 - e2) = q at hq
  have hqp : 0 < q := by
    by_contra h
    have := mul_nonneg (sq_nonneg σ) (neg_nonneg.2 (not_lt.1 h))
    linarith
  have e4 : γ * σ ^ 4 * q ^ 2 = γ := by
    linear_combination γ * (σ ^ 2 * q + 1) * hq
  have e5 : γ ^ 2 * σ ^ 5 * q ^ 2 = γ ^ 2 * σ := by
    linear_combination γ ^ 2 * σ * (σ ^ 2 * q + 1) * hq
  have e6 : γ * σ ^ 6 * q ^ 3 = γ := by
    linear_combination γ * (σ ^ 4 * q ^ 2 + σ ^ 2 * q + 1) * hq
  have e7 : γ ^ 2 * σ ^ 7 * q ^ 3 = γ ^ 2 * σ := by
    linear_combination γ ^ 2 * σ * (σ ^ 4 * q ^ 2 + σ ^ 2 * q + 1) * hq
  rw [hg] at e5 e7
  rw [hg]
  generalize hA : γ * σ ^ 4 = A at *
  generalize hB : (1 - e2 * X) * σ ^ 5 = B at *
  generalize hC : γ * σ ^ 6 = C at *
  generalize hD : (1 - e2 * X) * σ ^ 7 = D at *
  have q2 := pow_pos hqp 2
  have q3 := pow_pos hqp 3
  have gs1 : 0 ≤ (1 - e2 * X) * (σ - (1 + e2 * X + e2 ^ 2 * (3 / 2 * X ^ 2 - X / 2) - 5 / 10 ^ 7)) := by
    rw [← hg]
    exact mul_nonneg (sq_nonneg γ) (by linarith)
  have gs2 : 0 ≤ (1 - e2 * X) * ((1 + e2 * X + e2 ^ 2 * (3 / 2 * X ^ 2 - X / 2) + 4 / 10 ^ 7) - σ) := by
    rw [← hg]
    exact mul_nonneg (sq_nonneg γ) (by linarith)
  have c1 := pow_chain h0 h1 1
  have c2 := pow_chain h0 h1 2
  have c3 := pow_chain h0 h1 3
  have c4 := pow_chain h0 h1 4
  have c5 := pow_chain h0 h1 5
  clear hA hB hC hD hq hg hσ hγ hq'
  subst hQ
  unfold e2 at *
  norm_num at c1 c2 c3 c4 c5
  refine ⟨⟨?_, ?_⟩, ⟨?_, ?_⟩, ⟨?_, ?_⟩, ⟨?_, ?_⟩⟩
  · apply le_of_mul_le_mul_right _ q2
    rw [e4]
    linarith
  · apply le_of_mul_le_mul_right _ q2
    rw [e4]
    linarith
  · apply le_of_mul_le_mul_right _ q2
    rw [e5]
    linarith
  · apply le_of_mul_le_mul_right _ q2
    rw [e5]
    linarith
  · apply le_of_mul_le_mul_right _ q3
    rw [e6]
    linarith
  · apply le_of_mul_le_mul_right _ q3
    rw [e6]
    linarith
  · apply le_of_mul_le_mul_right _ q3
    rw [e7]
    linarith
  · apply le_of_mul_le_mul_right _ q3
    rw [e7]
    linarith

/-- The first approximation from the sine: relative error. -/
theorem first_sin {X σ γ : ℝ} (h0 : 0 ≤ X) (h1 : X ≤ 1) (hσ : 0 < σ)
    (hq : σ ^ 2 * (1 - X * e2 * (2 - e2)) = 1) (hγ : 0 ≤ γ) (hg : γ ^ 2 = 1 - e2 * X) :
    |(1 - e2) * σ * (1 + (1 - X) * σ ^ 2 * (k1 / ea + k2 / ea ^ 2 * (γ * σ) +
      ((1 - e2) ^ 2 * X * σ ^ 2) * (k3 / ea - k4 / ea ^ 2 * (γ * σ))) * (γ * σ)) - 1| ≤
      3 / 2 / 10 ^ 6 := by
  have hb := prod_bounds h0 h1 hσ hq hγ hg
  have hs := sigma_bounds h0 h1 hσ hq
  rw [show (1 - e2) * σ * (1 + (1 - X) * σ ^ 2 * (k1 / ea + k2 / ea ^ 2 * (γ * σ) +
      ((1 - e2) ^ 2 * X * σ ^ 2) * (k3 / ea - k4 / ea ^ 2 * (γ * σ))) * (γ * σ)) - 1 =
      (1 - e2) * σ + (1 - e2) * (1 - X) * (k1 / ea * (γ * σ ^ 4) + k2 / ea ^ 2 * (γ ^ 2 * σ ^ 5)) +
      (1 - e2) ^ 3 * (X * (1 - X)) * (k3 / ea * (γ * σ ^ 6) - k4 / ea ^ 2 * (γ ^ 2 * σ ^ 7)) - 1
      from by ring]
  generalize γ * σ ^ 4 = A at *
  generalize γ ^ 2 * σ ^ 5 = B at *
  generalize γ * σ ^ 6 = C at *
  generalize γ ^ 2 * σ ^ 7 = D at *
  obtain ⟨⟨a1, a2⟩, ⟨b1, b2⟩, ⟨c1, c2⟩, ⟨d1, d2⟩⟩ := hb
  obtain ⟨s1, s2⟩ := hs
  have x1 : 0 ≤ 1 - X := by linarith
  have x2 : 0 ≤ X * (1 - X) := mul_nonneg h0 x1
  have a1' := mul_le_mul_of_nonneg_left a1 x1
  have a2' := mul_le_mul_of_nonneg_left a2 x1
  have b1' := mul_le_mul_of_nonneg_left b1 x1
  have b2' := mul_le_mul_of_nonneg_left b2 x1
  have c1' := mul_le_mul_of_nonneg_left c1 x2
  have c2' := mul_le_mul_of_nonneg_left c2 x2
  have d1' := mul_le_mul_of_nonneg_left d1 x2
  have d2' := mul_le_mul_of_nonneg_left d2 x2
  have p1 := pow_chain h0 h1 1
  have p2 := pow_chain h0 h1 2
  have p3 := pow_chain h0 h1 3
  have p4 := pow_chain h0 h1 4
  clear hσ hq hγ hg a1 a2 b1 b2 c1 c2 d1 d2
  unfold e2 ea k1 k2 k3 k4 at *
  norm_num at p1 p2 p3 p4
  have t1 := mul_nonneg h0 (sq_nonneg (1 - 2 * X))
  have t2 := mul_nonneg x1 (sq_nonneg (1 - 2 * X))
  have t3 := mul_nonneg h0 (sq_nonneg (1 - 3 * X))
  have t4 := mul_nonneg x1 (sq_nonneg (1 - 3 * X))
  have t5 := mul_nonneg h0 (sq_nonneg (2 - 3 * X))
  have t6 := mul_nonneg x1 (sq_nonneg (2 - 3 * X))
  rw [abs_le]
  constructor <;> linarith

/-- The first approximation from the cosine: relative error. -/
theorem first_cos {X σ γ : ℝ} (h0 : 0 ≤ X) (h1 : X ≤ 1) (hσ : 0 < σ)
    (hq : σ ^ 2 * (1 - X * e2 * (2 - e2)) = 1) (hγ : 0 ≤ γ) (hg : γ ^ 2 = 1 - e2 * X) :
    |σ * (1 - ((1 - e2) ^ 2 * X * σ ^ 2) * (k5 / ea - k2 / ea ^ 2 * (γ * σ) -
      ((1 - X) * σ ^ 2) * (k3 / ea - k4 / ea ^ 2 * (γ * σ))) * (γ * σ)) - 1| ≤
      3 / 2 / 10 ^ 6 := by
  have hb := prod_bounds h0 h1 hσ hq hγ hg
  have hs := sigma_bounds h0 h1 hσ hq
  rw [show σ * (1 - ((1 - e2) ^ 2 * X * σ ^ 2) * (k5 / ea - k2 / ea ^ 2 * (γ * σ) -
      ((1 - X) * σ ^ 2) * (k3 / ea - k4 / ea ^ 2 * (γ * σ))) * (γ * σ)) - 1 =
      σ - (1 - e2) ^ 2 * X * (k5 / ea * (γ * σ ^ 4) - k2 / ea ^ 2 * (γ ^ 2 * σ ^ 5)) +
      (1 - e2) ^ 2 * (X * (1 - X)) * (k3 / ea * (γ * σ ^ 6) - k4 / ea ^ 2 * (γ ^ 2 * σ ^ 7)) - 1
      from by ring]
  generalize γ * σ ^ 4 = A at *
  generalize γ ^ 2 * σ ^ 5 = B at *
  generalize γ * σ ^ 6 = C at *
  generalize γ ^ 2 * σ ^ 7 = D at *
  obtain ⟨⟨a1, a2⟩, ⟨b1, b2⟩, ⟨c1, c2⟩, ⟨d1, d2⟩⟩ := hb
  obtain ⟨s1, s2⟩ := hs
  have x1 : 0 ≤ 1 - X := by linarith
  have x2 : 0 ≤ X * (1 - X) := mul_nonneg h0 x1
  have a1' := mul_le_mul_of_nonneg_left a1 h0
  have a2' := mul_le_mul_of_nonneg_left a2 h0
  have b1' := mul_le_mul_of_nonneg_left b1 h0
  have b2' := mul_le_mul_of_nonneg_left b2 h0
  have c1' := mul_le_mul_of_nonneg_left c1 x2
  have c2' := mul_le_mul_of_nonneg_left c2 x2
  have d1' := mul_le_mul_of_nonneg_left d1 x2
  have d2' := mul_le_mul_of_nonneg_left d2 x2
  have p1 := pow_chain h0 h1 1
  have p2 := pow_chain h0 h1 2
  have p3 := pow_chain h0 h1 3
  have p4 := pow_chain h0 h1 4
  clear hσ hq hγ hg a1 a2 b1 b2 c1 c2 d1 d2
  unfold e2 ea k2 k3 k4 k5 at *
  norm_num at p1 p2 p3 p4
  have t1 := mul_nonneg h0 (sq_nonneg (1 - 2 * X))
  have t2 := mul_nonneg x1 (sq_nonneg (1 - 2 * X))
  have t3 := mul_nonneg h0 (sq_nonneg (1 - 3 * X))
  have t4 := mul_nonneg x1 (sq_nonneg (1 - 3 * X))
  have t5 := mul_nonneg h0 (sq_nonneg (2 - 3 * X))
  have t6 := mul_nonneg x1 (sq_nonneg (2 - 3 * X))
  rw [abs_le]
  constructor <;> linarith

/-- The radius of curvature `1 / sqrt (1 - e2 * S²)` of the unit ellipsoid. -/
theorem radius_bounds {N S : ℝ} (hN : 0 < N) (hS : |S| ≤ 1) (h : N ^ 2 * (1 - e2 * S ^ 2) = 1) :
    1 ≤ N ∧ N ≤ 1004 / 1000 := by
  have hS2 : S ^ 2 ≤ 1 := by
    rw [← sq_abs]
    exact pow_le_one₀ (abs_nonneg S) hS
  have hS0 := sq_nonneg S
  have hN0 := sq_nonneg N
  have h1 := mul_nonneg hN0 hS0
  have h2 := mul_le_mul_of_nonneg_left hS2 hN0
  unfold e2 at h
  constructor
  · by_contra hc
    have : N ^ 2 < 1 := by nlinarith
    nlinarith
  · by_contra hc
    have : (1004 / 1000 : ℝ) ^ 2 < N ^ 2 := by nlinarith
    norm_num at this
    nlinarith

set_option maxHeartbeats 1000000 in
/-- The Newton step of `ecef2ll`, as algebra: `d` is the error of the first approximation with sine
`s` and cosine `c`, `σ` and `κ` are the sine and cosine of `d`. -/
theorem newton_alg {s c S σ κ d N M : ℝ} (hsc : s ^ 2 + c ^ 2 = 1) (hS : S = s * κ + c * σ)
    (hS1 : |S| ≤ 1) (hN : 0 < N) (hNe : N ^ 2 * (1 - e2 * S ^ 2) = 1) (hM : 0 < M)
    (hMe : M ^ 2 * (1 - e2 * s ^ 2) = 1) (hd : |d| ≤ 1 / 10 ^ 5) (hσ : |σ| ≤ |d|)
    (hσd : |σ - d| ≤ |d| ^ 3 / 4) (hκ0 : 0 ≤ 1 - κ) (hκ : 1 - κ ≤ d ^ 2 / 2) (hx : |S - s| ≤ |d|) :
    |(N * σ - e2 * c * (N * S - M * s)) - d * ((1 - e2) * M ^ 3 +
      (N * κ - e2 * N * S * s - M * (1 - e2 * s ^ 2)))| ≤ 245 / 10 ^ 4 * d ^ 2 ∧
    |N * κ - e2 * N * S * s - M * (1 - e2 * s ^ 2)| ≤ 1 / 10 ^ 6 ∧
    |N * σ - e2 * c * (N * S - M * s)| ≤ 2 / 10 ^ 5 := by
  have hs1 : |s| ≤ 1 := abs_le_one_iff_mul_self_le_one.2 (by linarith [sq_nonneg c, sq s, sq c])
  have hc1 : |c| ≤ 1 := abs_le_one_iff_mul_self_le_one.2 (by linarith [sq_nonneg s, sq s, sq c])
  obtain ⟨n1, n2⟩ := radius_bounds hN hS1 hNe
  obtain ⟨m1, m2⟩ := radius_bounds hM hs1 hMe
  have he : 0 < e2 ∧ e2 ≤ 67 / 10 ^ 4 := by unfold e2; constructor <;> norm_num
  obtain ⟨he0, he1⟩ := he
  have ab : ∀ {a b A B : ℝ}, |a| ≤ A → |b| ≤ B → |a * b| ≤ A * B := by
    intro a b A B h1 h2
    rw [abs_mul]
    exact mul_le_mul h1 h2 (abs_nonneg b) ((abs_nonneg a).trans h1)
  have ad : ∀ {a b A B : ℝ}, |a| ≤ A → |b| ≤ B → |a + b| ≤ A + B := fun h1 h2 =>
    (abs_add_le _ _).trans (add_le_add h1 h2)
  have pos : ∀ {a A : ℝ}, 0 ≤ a → a ≤ A → |a| ≤ A := fun h1 h2 => by rwa [abs_of_nonneg h1]
  obtain ⟨D, hD⟩ : ∃ D, |d| = D := ⟨_, rfl⟩
  have hD0 : 0 ≤ D := hD ▸ abs_nonneg d
  have hd2 : d ^ 2 = D ^ 2 := by rw [← hD, sq_abs]
  rw [hD] at hd hσ hσd hx
  rw [hd2] at hκ ⊢
  have hD2 : D ^ 2 ≤ D / 10 ^ 5 := by linarith [mul_le_mul_of_nonneg_left hd hD0]
  have hD3 : D ^ 3 ≤ D ^ 2 / 10 ^ 5 := by linarith [mul_le_mul_of_nonneg_left hd (sq_nonneg D)]
  have hD20 := sq_nonneg D
  -- the difference of the radii
  obtain ⟨x, hxe⟩ : ∃ x, x = S - s := ⟨_, rfl⟩
  rw [← hxe] at hx
  have hSx : S = s + x := by linarith
  obtain ⟨T, hTe⟩ : ∃ T, T = N - M := ⟨_, rfl⟩
  have hNT : N = M + T := by linarith
  have hNM : 0 < N + M := by linarith
  obtain ⟨K, hK⟩ : ∃ K, K * (N + M) = N ^ 2 * M ^ 2 := ⟨N ^ 2 * M ^ 2 / (N + M), by field_simp⟩
  have hT : T = e2 * (x * (S + s)) * K := by
    have : T * (N + M) = e2 * (x * (S + s)) * K * (N + M) := by
      rw [mul_assoc _ K, hK, hTe, hxe]
      linear_combination (-N ^ 2) * hMe + M ^ 2 * hNe
    exact mul_right_cancel₀ hNM.ne' this
  have hNM2 : N ^ 2 * M ^ 2 ≤ (1004 / 1000) ^ 4 := by
    have h1 : N ^ 2 ≤ (1004 / 1000) ^ 2 := pow_le_pow_left₀ hN.le n2 2
    have h2 : M ^ 2 ≤ (1004 / 1000) ^ 2 := pow_le_pow_left₀ hM.le m2 2
    have := mul_le_mul h1 h2 (sq_nonneg M) (by norm_num)
    linarith
  have hK0 : 0 ≤ K := by
    by_contra h
    have := mul_neg_of_neg_of_pos (not_le.1 h) hNM
    linarith [mul_nonneg (sq_nonneg N) (sq_nonneg M)]
  have hK1 : K ≤ 51 / 100 := by
    have := mul_le_mul_of_nonneg_left (by linarith : 2 ≤ N + M) hK0
    linarith
  have hSs : |S + s| ≤ 2 := by linarith [ad hS1 hs1]
  have hTb : |T| ≤ 102 / 100 * e2 * D := by
    rw [hT]
    have := ab (ab (pos he0.le le_rfl) (ab hx hSs)) (pos hK0 hK1)
    linarith
  obtain ⟨k, hk⟩ : ∃ k, k = K - M ^ 3 / 2 := ⟨_, rfl⟩
  have hke : 2 * (N + M) * k = M ^ 2 * T * (2 * N + M) := by
    rw [hk, hTe]
    linear_combination 2 * hK
  have hkb : |k| ≤ 8 / 10 * |T| := by
    have h1 : |2 * (N + M) * k| ≤ ((1004 / 1000) ^ 2 * |T|) * (3 * (1004 / 1000)) := by
      rw [hke]
      refine ab (ab ?_ le_rfl) ?_
      · exact pos (sq_nonneg M) (pow_le_pow_left₀ hM.le m2 2)
      · exact pos (by linarith) (by linarith)
    rw [abs_mul, abs_of_pos (by linarith : 0 < 2 * (N + M))] at h1
    have h2 : 4 * |k| ≤ 2 * (N + M) * |k| := mul_le_mul_of_nonneg_right (by linarith) (abs_nonneg k)
    have := abs_nonneg T
    linarith
  have hM3 : M ^ 3 ≤ 102 / 100 := by
    have : M ^ 3 ≤ (1004 / 1000) ^ 3 := pow_le_pow_left₀ hM.le m2 3
    linarith
  have hM30 : 0 ≤ M ^ 3 := by positivity
  have hM31 : 1 ≤ M ^ 3 := one_le_pow₀ m1
  -- the second order in the radii
  obtain ⟨E, hE⟩ : ∃ E, E = 2 * s ^ 2 * x * k - s ^ 3 * M ^ 3 * (1 - κ) + (3 * s + x) * x ^ 2 * K :=
    ⟨_, rfl⟩
  have hTS : T * S = e2 * (c * σ * s ^ 2 * M ^ 3) + e2 * E := by
    have hxc : x = c * σ - s * (1 - κ) := by rw [hxe, hS]; ring
    have hKk : K = k + M ^ 3 / 2 := by rw [hk]; ring
    rw [hE, hT, hSx, hKk]
    linear_combination e2 * s ^ 2 * M ^ 3 * hxc
  have hs2 : |s ^ 2| ≤ 1 := by rw [abs_pow]; exact pow_le_one₀ (abs_nonneg s) hs1
  have hs3 : |s ^ 3| ≤ 1 := by rw [abs_pow]; exact pow_le_one₀ (abs_nonneg s) hs1
  have hx2 : |x ^ 2| ≤ D ^ 2 := by rw [abs_pow]; exact pow_le_pow_left₀ (abs_nonneg x) hx 2
  have hEb : |E| ≤ 22 / 10 * D ^ 2 := by
    have t1 : |2 * s ^ 2 * x * k| ≤ 2 * 1 * D * (8 / 10 * (102 / 100 * e2 * D)) :=
      ab (ab (ab (pos (by norm_num) le_rfl) hs2) hx) (hkb.trans (by linarith))
    have t2 : |s ^ 3 * M ^ 3 * (1 - κ)| ≤ 1 * (102 / 100) * (D ^ 2 / 2) :=
      ab (ab hs3 (pos hM30 hM3)) (pos hκ0 hκ)
    have t3 : |(3 * s + x) * x ^ 2 * K| ≤ (3 * 1 + D) * D ^ 2 * (51 / 100) :=
      ab (ab (ad (ab (pos (by norm_num) le_rfl) hs1) hx) hx2) (pos hK0 hK1)
    rw [hE]
    have := ad (ad t1 ((abs_neg _).trans_le t2)) t3
    rw [← sub_eq_add_neg] at this
    have h4 : e2 * D ^ 2 ≤ 67 / 10 ^ 4 * D ^ 2 := mul_le_mul_of_nonneg_right he1 hD20
    linarith
  -- the numerator
  have hm : N * σ - e2 * c * (N * S - M * s) - (1 - e2) * M ^ 3 * σ =
      T * σ + e2 * (c * s) * M * (1 - κ) - e2 ^ 2 * c * E := by
    have h1 : N * S - M * s = M * x + T * S := by rw [hNT, hSx]; ring
    have hxc : x = c * σ - s * (1 - κ) := by rw [hxe, hS]; ring
    rw [h1, hTS, hNT, hxc]
    linear_combination (-(M * σ) * (1 - e2 * c ^ 2)) * hMe + (-(M ^ 3 * σ * e2)) * hsc
  have hcs : |c * s| ≤ 1 := (ab hc1 hs1).trans (by norm_num)
  have hmb : |N * σ - e2 * c * (N * S - M * s) - (1 - e2) * M ^ 3 * σ| ≤ 16 / 10 * e2 * D ^ 2 := by
    rw [hm]
    have t1 : |T * σ| ≤ 102 / 100 * e2 * D * D := ab hTb hσ
    have t2 : |e2 * (c * s) * M * (1 - κ)| ≤ e2 * 1 * (1004 / 1000) * (D ^ 2 / 2) :=
      ab (ab (ab (pos he0.le le_rfl) hcs) (pos hM.le m2)) (pos hκ0 hκ)
    have t3 : |e2 ^ 2 * c * E| ≤ e2 ^ 2 * 1 * (22 / 10 * D ^ 2) :=
      ab (ab (pos (sq_nonneg _) le_rfl) hc1) hEb
    have := ad (ad t1 t2) ((abs_neg _).trans_le t3)
    rw [← sub_eq_add_neg] at this
    have h4 : e2 * (e2 * D ^ 2) ≤ 67 / 10 ^ 4 * (e2 * D ^ 2) :=
      mul_le_mul_of_nonneg_right he1 (by positivity)
    have h5 : 0 ≤ e2 * D ^ 2 := by positivity
    linarith
  -- the height
  have hf : N * κ - e2 * N * S * s - M * (1 - e2 * s ^ 2) =
      T * κ - M * (1 - κ) - e2 * M * s * x - e2 * T * S * s := by
    rw [hNT, hSx]
    ring
  have hκ1 : |κ| ≤ 1 := by
    rw [abs_le]
    constructor <;> linarith
  have hfb : |N * κ - e2 * N * S * s - M * (1 - e2 * s ^ 2)| ≤ 204 / 100 * e2 * D + 51 / 100 * D ^ 2 := by
    rw [hf]
    have t1 : |T * κ| ≤ 102 / 100 * e2 * D * 1 := ab hTb hκ1
    have t2 : |M * (1 - κ)| ≤ (1004 / 1000) * (D ^ 2 / 2) := ab (pos hM.le m2) (pos hκ0 hκ)
    have t3 : |e2 * M * s * x| ≤ e2 * (1004 / 1000) * 1 * D :=
      ab (ab (ab (pos he0.le le_rfl) (pos hM.le m2)) hs1) hx
    have t4 : |e2 * T * S * s| ≤ e2 * (102 / 100 * e2 * D) * 1 * 1 :=
      ab (ab (ab (pos he0.le le_rfl) hTb) hS1) hs1
    have := ad (ad (ad t1 ((abs_neg _).trans_le t2)) ((abs_neg _).trans_le t3))
      ((abs_neg _).trans_le t4)
    rw [← sub_eq_add_neg, ← sub_eq_add_neg, ← sub_eq_add_neg] at this
    have h4 : e2 * (e2 * D) ≤ 67 / 10 ^ 4 * (e2 * D) :=
      mul_le_mul_of_nonneg_right he1 (by positivity)
    have h5 : 0 ≤ e2 * D := by positivity
    linarith
  have heD : e2 * D ≤ 67 / 10 ^ 4 * D := mul_le_mul_of_nonneg_right he1 hD0
  have heD2 : e2 * D ^ 2 ≤ 67 / 10 ^ 4 * D ^ 2 := mul_le_mul_of_nonneg_right he1 hD20
  refine ⟨?_, ?_, ?_⟩
  · rw [show (N * σ - e2 * c * (N * S - M * s)) - d * ((1 - e2) * M ^ 3 +
        (N * κ - e2 * N * S * s - M * (1 - e2 * s ^ 2))) =
        (N * σ - e2 * c * (N * S - M * s) - (1 - e2) * M ^ 3 * σ) + (1 - e2) * M ^ 3 * (σ - d) +
        -(d * (N * κ - e2 * N * S * s - M * (1 - e2 * s ^ 2))) from by ring]
    have t1 : |(1 - e2) * M ^ 3 * (σ - d)| ≤ 1 * (102 / 100) * (D ^ 3 / 4) :=
      ab (ab (pos (by linarith) (by linarith)) (pos hM30 hM3)) hσd
    have t2 := (abs_neg _).trans_le (ab hD.le hfb)
    have := ad (ad hmb t1) t2
    refine this.trans ?_
    linarith
  · refine hfb.trans ?_
    linarith
  · have := ad hmb (ab (ab (pos (by linarith : 0 ≤ 1 - e2) (by linarith : 1 - e2 ≤ 1)) (pos hM30 hM3)) hσ)
    rw [sub_add_cancel] at this
    refine this.trans ?_
    linarith

end Verif.CF

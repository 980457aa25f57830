import Mathlib.Algebra.BigOperators.Fin
import Mathlib.Tactic.FinCases
import Mathlib.Tactic.LinearCombination
import Mathlib.Tactic.FieldSimp
import Mathlib.Tactic.Positivity
import Verif.KalmanF.Model
import Verif.GMF.Round

/-! Helper lemmas: relative errors, and bounds by the diagonal of a covariance. -/

namespace Verif.KalmanF

open Verif.GMF (fl fl_err fl_zero)
open Verif.HypF (tiny)

/-- The unit of the relative error. -/
def u : ℚ := 1 / 2 ^ 52

/-- The result of an operation is zero or neither overflows nor underflows. -/
def Safe (x : ℚ) : Prop := x = 0 ∨ (1 / 2 ^ 1000 ≤ |x| ∧ |x| ≤ 2 ^ 1000)

instance (x : ℚ) : Decidable (Safe x) := by unfold Safe; infer_instance

/-- A factor made of at most `n` rounding errors. -/
def Fac (n : Nat) (f : ℚ) : Prop := |f - 1| ≤ (1 + u) ^ n - 1

theorem u_pos : 0 < u := by unfold u; positivity

theorem one_le_fac (n : Nat) : 1 ≤ (1 + u) ^ n := one_le_pow₀ (by have := u_pos; linarith)

theorem fac_one (n : Nat) : Fac n 1 := by
  unfold Fac
  rw [sub_self, abs_zero]
  have := one_le_fac n
  linarith

theorem fac_mul {n m : Nat} {f g : ℚ} (hf : Fac n f) (hg : Fac m g) : Fac (n + m) (f * g) := by
  unfold Fac at *
  have h1 : |f| ≤ (1 + u) ^ n := by
    have : f = (f - 1) + 1 := by ring
    rw [this]
    refine (abs_add_le _ _).trans ?_
    rw [abs_one]
    linarith
  have h2 : f * g - 1 = f * (g - 1) + (f - 1) := by ring
  rw [h2]
  refine (abs_add_le _ _).trans ?_
  rw [abs_mul]
  have h3 : |f| * |g - 1| ≤ (1 + u) ^ n * ((1 + u) ^ m - 1) :=
    mul_le_mul h1 hg (abs_nonneg _) (zero_le_one.trans (one_le_fac n))
  rw [pow_add]
  linarith

theorem fac_mul' {n m k : Nat} {f g : ℚ} (hf : Fac n f) (hg : Fac m g) (h : n + m = k) :
    Fac k (f * g) := h ▸ fac_mul hf hg

theorem fac_up {n m : Nat} {f : ℚ} (h : n ≤ m) (hf : Fac n f) : Fac m f := by
  unfold Fac at *
  have : (1 + u) ^ n ≤ (1 + u) ^ m := pow_le_pow_right₀ (by have := u_pos; linarith) h
  linarith

/-- One operation. -/
theorem fl_fac {x : ℚ} (h : Safe x) : ∃ f, Fac 1 f ∧ fl x = x * f := by
  rcases h with rfl | ⟨h1, h2⟩
  · exact ⟨1, fac_one 1, by rw [fl_zero, zero_mul]⟩
  · have hx : x ≠ 0 := by
      rintro rfl
      rw [abs_zero] at h1
      have : (0 : ℚ) < 1 / 2 ^ 1000 := by positivity
      exact absurd h1 (not_le.2 this)
    have he := fl_err h2
    have hax : 0 < |x| := abs_pos.2 hx
    refine ⟨fl x / x, ?_, by field_simp⟩
    unfold Fac
    rw [pow_one, add_sub_cancel_left]
    have : fl x / x - 1 = (fl x - x) / x := by field_simp
    rw [this, abs_div, div_le_iff₀ hax]
    refine he.trans ?_
    have ht : tiny ≤ |x| / 2 ^ 74 := by
      unfold tiny
      rw [le_div_iff₀ (by positivity)]
      refine le_trans ?_ h1
      rw [div_mul_eq_mul_div, one_mul, div_le_div_iff₀ (by positivity) (by positivity), one_mul,
        ← pow_add]
    have e1 : u * |x| = |x| / 2 ^ 53 + |x| / 2 ^ 53 := by
      unfold u
      rw [show (2:ℚ) ^ 53 = 2 ^ 52 * 2 by norm_num]
      field_simp
      norm_num
    rw [e1]
    have e2 : |x| / 2 ^ 74 ≤ |x| / 2 ^ 53 :=
      div_le_div_of_nonneg_left hax.le (by positivity) (by norm_num)
    clear h1 h2 he e1
    generalize |x| / 2 ^ 53 = A at *
    linarith

/-- `x` is at most `a` times the square root of `M`. -/
def Bd (M a x : ℚ) : Prop := 0 ≤ a ∧ x ^ 2 ≤ a ^ 2 * M

theorem Bd.add {M a b x y : ℚ} (hM : 0 ≤ M) (hx : Bd M a x) (hy : Bd M b y) :
    Bd M (a + b) (x + y) := by
  refine ⟨add_nonneg hx.1 hy.1, ?_⟩
  have h1 : |x * y| ≤ a * b * M := by
    apply abs_le_of_sq_le_sq _ (mul_nonneg (mul_nonneg hx.1 hy.1) hM)
    have := mul_le_mul hx.2 hy.2 (sq_nonneg _) (mul_nonneg (sq_nonneg _) hM)
    calc (x * y) ^ 2 = x ^ 2 * y ^ 2 := by ring
      _ ≤ _ := this
      _ = (a * b * M) ^ 2 := by ring
  have h2 := (le_abs_self _).trans h1
  have h3 := hx.2
  have h4 := hy.2
  calc (x + y) ^ 2 = x ^ 2 + y ^ 2 + 2 * (x * y) := by ring
    _ ≤ a ^ 2 * M + b ^ 2 * M + 2 * (a * b * M) := by linarith
    _ = (a + b) ^ 2 * M := by ring

theorem Bd.mul {M a x c f : ℚ} (hM : 0 ≤ M) (hx : Bd M a x) (hf : |f| ≤ c) : Bd M (a * c) (x * f) := by
  have hc : 0 ≤ c := (abs_nonneg _).trans hf
  refine ⟨mul_nonneg hx.1 hc, ?_⟩
  have h1 : f ^ 2 ≤ c ^ 2 := by
    rw [← sq_abs]
    exact pow_le_pow_left₀ (abs_nonneg _) hf 2
  calc (x * f) ^ 2 = x ^ 2 * f ^ 2 := by ring
    _ ≤ a ^ 2 * M * c ^ 2 := mul_le_mul hx.2 h1 (sq_nonneg _) (mul_nonneg (sq_nonneg _) hM)
    _ = (a * c) ^ 2 * M := by ring

theorem Bd.up {M a b x : ℚ} (hM : 0 ≤ M) (hx : Bd M a x) (h : a ≤ b) : Bd M b x :=
  ⟨hx.1.trans h, hx.2.trans (mul_le_mul_of_nonneg_right (pow_le_pow_left₀ hx.1 h 2) hM)⟩

theorem Bd.neg {M a x : ℚ} (hx : Bd M a x) : Bd M a (-x) := ⟨hx.1, by rw [neg_sq]; exact hx.2⟩

end Verif.KalmanF

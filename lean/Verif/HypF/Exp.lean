import Verif.HypF.Err
import Mathlib.Analysis.Complex.ExponentialBounds

/-! # Weights with errors, and the library function `exp` -/

namespace Verif.HypF

open Verif.Lap Verif.LapF Verif.Murty XR
open Verif.RTreeF (round64_mono)

/-- What is assumed of the library function `exp` (`cluster.hpp:92`): for costs from -650 on, the
result is a non-negative `double` with a relative error of at most `2⁻⁵²` (one unit in the last
place), or an error of the smallest `double` where the result underflows. -/
def ExpOk (ex : ℚ → XR) : Prop :=
  ∀ q : ℚ, -650 ≤ q → ∃ w : ℚ, ex q = fin w ∧ IsDouble w ∧ 0 ≤ w ∧
    |(w : ℝ) - Real.exp (-(q : ℝ))| ≤ Real.exp (-(q : ℝ)) / 2 ^ 52 + 1 / 2 ^ 1074

theorem exp_mul_le (k : Nat) : Real.exp ((13 * k : Nat) : ℝ) ≤ 2 ^ (20 * k) := by
  have h1 : Real.exp 1 ≤ 272 / 100 := le_trans Real.exp_one_lt_d9.le (by norm_num)
  have h2 : Real.exp (13 : ℝ) ≤ 2 ^ 20 := by
    have : Real.exp (13 : ℝ) = Real.exp 1 ^ 13 := by rw [← Real.exp_nat_mul]; norm_num
    rw [this]
    refine (pow_le_pow_left₀ (Real.exp_pos _).le h1 13).trans (by norm_num)
  have : Real.exp ((13 * k : Nat) : ℝ) = Real.exp 13 ^ k := by
    rw [← Real.exp_nat_mul]; push_cast; ring_nf
  rw [this, pow_mul]
  exact pow_le_pow_left₀ (Real.exp_pos _).le h2 k

theorem exp_le_of_le {x : ℝ} {k : Nat} (h : x ≤ 13 * k) : Real.exp x ≤ 2 ^ (20 * k) := by
  refine le_trans (Real.exp_le_exp.2 ?_) (exp_mul_le k)
  push_cast; exact h

/-- There is such a function. -/
theorem expOk_exists : ∃ ex, ExpOk ex := by
  have key : ∀ q : ℚ, -650 ≤ q → ∃ w : ℚ, IsDouble w ∧ 0 ≤ w ∧
      |(w : ℝ) - Real.exp (-(q : ℝ))| ≤ Real.exp (-(q : ℝ)) / 2 ^ 52 + 1 / 2 ^ 1074 := by
    intro q hq
    have hq' : (-650 : ℝ) ≤ q := by exact_mod_cast hq
    have hpos := Real.exp_pos (-(q : ℝ))
    have hle : Real.exp (-(q : ℝ)) ≤ 2 ^ 1000 :=
      exp_le_of_le (k := 50) (by push_cast; linarith)
    obtain ⟨y, y1, y2⟩ := exists_rat_btwn (show Real.exp (-(q : ℝ)) * (1 - 1 / 2 ^ 54) <
      Real.exp (-(q : ℝ)) by
        have : 0 < Real.exp (-(q : ℝ)) * (1 / 2 ^ 54) := mul_pos hpos (by norm_num)
        linarith)
    have hy0 : (0:ℚ) ≤ y := by
      have : (0:ℝ) < y := lt_trans (mul_pos hpos (by norm_num)) y1
      exact_mod_cast this.le
    have hy1 : y ≤ 2 ^ 1000 := by
      have : (y:ℝ) ≤ ((2 ^ 1000 : ℚ) : ℝ) := by
        rw [Rat.cast_pow, Rat.cast_ofNat]; exact y2.le.trans hle
      exact_mod_cast this
    obtain ⟨w, _, w2, w3, w4⟩ := round64_rel hy0 hy1
    refine ⟨w, w2, w3, ?_⟩
    have w5 : |(w:ℝ) - y| ≤ (y:ℝ) / 2 ^ 53 + 1 / 2 ^ 1074 := by
      have h1 : ((|w - y| : ℚ) : ℝ) ≤ ((y / 2 ^ 53 + tiny : ℚ) : ℝ) := Rat.cast_le.2 w4
      unfold tiny at h1
      rw [Rat.cast_abs, Rat.cast_sub, Rat.cast_add, Rat.cast_div, Rat.cast_pow, Rat.cast_ofNat,
        Rat.cast_div, Rat.cast_one, Rat.cast_pow, Rat.cast_ofNat] at h1
      exact h1
    clear hle hy1 w4
    generalize Real.exp (-(q : ℝ)) = E at *
    generalize (1 : ℝ) / 2 ^ 1074 = τ at *
    rw [abs_le] at w5 ⊢
    constructor <;> linarith [w5.1, w5.2]
  choose! w h1 h2 h3 using key
  exact ⟨fun q => fin (w q), fun q hq => ⟨w q, rfl, h1 q hq, h2 q hq, h3 q hq⟩⟩

/-! ## Normalised sums of weights with errors -/

theorem filter_sum_err {α : Type} (L : List α) (w x : α → ℝ) {a b : ℝ} (ha : 0 ≤ a) (hb : 0 ≤ b)
    (hx : ∀ p ∈ L, 0 ≤ x p) (h : ∀ p ∈ L, |w p - x p| ≤ a * x p + b) (Q : α → Bool) :
    |((L.filter Q).map w).sum - ((L.filter Q).map x).sum| ≤
      a * ((L.filter Q).map x).sum + L.length * b ∧
    0 ≤ ((L.filter Q).map x).sum ∧ ((L.filter Q).map x).sum ≤ (L.map x).sum := by
  induction L with
  | nil => simp
  | cons σ L ih =>
    obtain ⟨h1, h2, h3⟩ := ih (fun p hp => hx p (List.mem_cons_of_mem _ hp))
      (fun p hp => h p (List.mem_cons_of_mem _ hp))
    have h4 := hx σ List.mem_cons_self
    have h5 := h σ List.mem_cons_self
    rw [abs_le] at h1 h5 ⊢
    by_cases hq : Q σ = true
    · simp only [List.filter_cons_of_pos hq, List.map_cons, List.sum_cons, List.length_cons]
      push_cast
      refine ⟨⟨?_, ?_⟩, ?_, ?_⟩ <;> linarith [h1.1, h1.2, h5.1, h5.2]
    · simp only [List.filter_cons_of_neg hq, List.map_cons, List.sum_cons, List.length_cons]
      push_cast
      refine ⟨⟨?_, ?_⟩, ?_, ?_⟩ <;> linarith [h1.1, h1.2]

/-- Errors of the weights and of their normalised sums. -/
theorem weights_ratio {α : Type} (L : List α) (w x : α → ℝ) {a b c : ℝ} (ha : 0 ≤ a) (hb : 0 ≤ b)
    (hx : ∀ p ∈ L, 0 ≤ x p) (h : ∀ p ∈ L, |w p - x p| ≤ a * x p + b) (Q : α → Bool)
    (hS : 0 < (L.map x).sum) (hc : L.length * b ≤ c * (L.map x).sum) (hac : a + c ≤ 1 / 2) :
    0 < (L.map w).sum ∧
    |((L.filter Q).map w).sum / (L.map w).sum - ((L.filter Q).map x).sum / (L.map x).sum| ≤
      4 * (a + c) := by
  obtain ⟨h1, h2, h3⟩ := filter_sum_err L w x ha hb hx h Q
  have h4 := (filter_sum_err L w x ha hb hx h fun _ => true).1
  rw [List.filter_true] at h4
  set A := ((L.filter Q).map x).sum
  set S := (L.map x).sum
  set A' := ((L.filter Q).map w).sum
  set S' := (L.map w).sum
  generalize (L.length : ℝ) * b = d at *
  rw [abs_le] at h1 h4
  have hSac : (a + c) * S ≤ 1 / 2 * S := mul_le_mul_of_nonneg_right hac hS.le
  have hS' : S / 2 ≤ S' := by linarith [h4.1]
  have hS'0 : 0 < S' := by linarith
  refine ⟨hS'0, ?_⟩
  rw [div_sub_div _ _ hS'0.ne' hS.ne', abs_div, abs_of_pos (mul_pos hS'0 hS),
    div_le_iff₀ (mul_pos hS'0 hS)]
  have e : A' * S - S' * A = (A' - A) * S + A * (S - S') := by ring
  have f1 : |A' - A| ≤ (a + c) * S := by
    have : a * A ≤ a * S := mul_le_mul_of_nonneg_left h3 ha
    rw [abs_le]; constructor <;> linarith [h1.1, h1.2]
  have f2 : |S - S'| ≤ (a + c) * S := by
    rw [abs_le]; constructor <;> linarith [h4.1, h4.2]
  have f3 : |A' * S - S' * A| ≤ (a + c) * S * S + S * ((a + c) * S) := by
    rw [e]
    refine (abs_add_le _ _).trans ?_
    rw [abs_mul, abs_mul, abs_of_pos hS, abs_of_nonneg h2]
    exact add_le_add (mul_le_mul_of_nonneg_right f1 hS.le)
      (mul_le_mul h3 f2 (abs_nonneg _) hS.le)
  have hac0 : 0 ≤ a + c := by
    by_contra hneg
    have : (a + c) * S < 0 := mul_neg_of_neg_of_pos (not_le.1 hneg) hS
    linarith [abs_nonneg (S - S')]
  have f4 : 4 * (a + c) * (S / 2 * S) ≤ 4 * (a + c) * (S' * S) :=
    mul_le_mul_of_nonneg_left (mul_le_mul_of_nonneg_right hS' hS.le) (by linarith)
  refine f3.trans (le_trans (le_of_eq ?_) f4)
  ring

end Verif.HypF

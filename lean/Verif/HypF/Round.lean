import Verif.HypF.Model
import Verif.RTreeF.Area
import Mathlib.Algebra.BigOperators.Ring.List
import Mathlib.Algebra.Order.BigOperators.Group.List

/-! Helper lemmas: relative errors of `double` operations on non-negative numbers. -/

namespace Verif.HypF

open Verif.Lap Verif.LapF XR
open Verif.RTreeF (round64_fin round64_mono isDouble_zero isDouble_one)

/-- One rounding changes a number by at most this factor (`rlapjv.h:10`, `double`). -/
def rho : ℚ := 1 + 1 / 2 ^ 52

/-- The smallest positive `double` (`rlapjv.h:10`). -/
def tiny : ℚ := 1 / 2 ^ 1074

theorem rho_ge : 1 ≤ rho := by norm_num [rho]
theorem rho_pos : 0 < rho := lt_of_lt_of_le one_pos rho_ge
theorem rho_pow_ge (k : Nat) : 1 ≤ rho ^ k := one_le_pow₀ rho_ge
theorem rho_pow_pos (k : Nat) : 0 < rho ^ k := pow_pos rho_pos k
theorem tiny_pos : 0 < tiny := by unfold tiny; positivity

theorem rho_up {x y : ℚ} (h0 : 0 ≤ x) (h : |y - x| ≤ x / 2 ^ 53) : x ≤ y * rho ∧ y ≤ x * rho := by
  rw [abs_le] at h
  unfold rho
  constructor
  · have h1 : x - x / 2 ^ 53 ≤ y := by linarith [h.1]
    have h2 : (x - x / 2 ^ 53) * (1 + 1 / 2 ^ 52) ≤ y * (1 + 1 / 2 ^ 52) :=
      mul_le_mul_of_nonneg_right h1 (by norm_num)
    have e : (x - x / 2 ^ 53) * (1 + 1 / 2 ^ 52) = x + x * (1 / 2 ^ 53 - 1 / 2 ^ 105) := by ring
    have h3 : 0 ≤ x * (1 / 2 ^ 53 - 1 / 2 ^ 105) := mul_nonneg h0 (by norm_num)
    linarith
  · have h1 : x * (1 + 1 / 2 ^ 52) = x + x / 2 ^ 53 + x * (1 / 2 ^ 52 - 1 / 2 ^ 53) := by ring
    have h3 : 0 ≤ x * (1 / 2 ^ 52 - 1 / 2 ^ 53) := mul_nonneg h0 (by norm_num)
    linarith [h.2]

/-- The error of rounding, for any number. -/
theorem round64_err {x r : ℚ} (h : round64 x = fin r) : |r - x| ≤ |x| / 2 ^ 53 + tiny := by
  have hup : (0:ℚ) < 2 ^ ulpExp x := zpow_pos (by norm_num) _
  have hr : r = rne (x / 2 ^ ulpExp x) * 2 ^ ulpExp x := by
    unfold round64 at h
    by_cases h1 : (2 : ℚ) ^ 1024 ≤ rne (x / 2 ^ ulpExp x) * 2 ^ ulpExp x
    · rw [if_pos h1] at h; cases h
    by_cases h2 : rne (x / 2 ^ ulpExp x) * 2 ^ ulpExp x ≤ -(2 : ℚ) ^ 1024
    · rw [if_neg h1, if_pos h2] at h; cases h
    rw [if_neg h1, if_neg h2] at h
    exact (XR.fin.inj h).symm
  have h1 : |r - x| ≤ 1 / 2 * 2 ^ ulpExp x := by
    have e : r - x = ((rne (x / 2 ^ ulpExp x) : ℚ) - x / 2 ^ ulpExp x) * 2 ^ ulpExp x := by
      rw [hr, sub_mul, div_mul_cancel₀ _ hup.ne']
    rw [e, abs_mul, abs_of_pos hup]
    exact mul_le_mul_of_nonneg_right (rne_err _) hup.le
  have hx0 : 0 ≤ |x| / 2 ^ 53 := div_nonneg (abs_nonneg _) (by norm_num)
  by_cases hx : x = 0
  · have : r = 0 := by
      rw [hx, round64_zero] at h
      exact (XR.fin.inj h).symm
    rw [this, hx]
    simp [tiny_pos.le]
  by_cases he : ulpExp x = -1074
  · rw [he] at h1
    have e : (2:ℚ) ^ (-1074 : ℤ) = tiny := by
      unfold tiny
      rw [zpow_neg, one_div]
      rfl
    rw [e] at h1
    have := tiny_pos
    linarith
  · have hu : ulpExp x = Int.log 2 |x| - 52 := by unfold ulpExp at he ⊢; omega
    have hlog := pow_log_le hx
    have e : (2:ℚ) ^ ulpExp x * 2 ^ 52 = 2 ^ Int.log 2 |x| := by
      rw [hu, ← zpow_natCast, ← zpow_add₀ (by norm_num : (2:ℚ) ≠ 0)]
      congr 1; push_cast; ring
    have h2 : (2:ℚ) ^ ulpExp x * 2 ^ 52 ≤ |x| := e ▸ hlog
    have h3 : 1 / 2 * (2:ℚ) ^ ulpExp x ≤ |x| / 2 ^ 53 := by
      rw [le_div_iff₀ (by norm_num)]
      have : (2:ℚ) ^ 53 = 2 * 2 ^ 52 := by norm_num
      rw [this]
      linarith
    have := tiny_pos
    linarith

/-- Rounding a non-negative number. -/
theorem round64_rel {x : ℚ} (h0 : 0 ≤ x) (hx : x ≤ 2 ^ 1000) :
    ∃ r, round64 x = fin r ∧ IsDouble r ∧ 0 ≤ r ∧ |r - x| ≤ x / 2 ^ 53 + tiny := by
  obtain ⟨r, hr, hd⟩ := round64_fin (x := x) (by rwa [abs_of_nonneg h0])
  have := round64_err hr
  rw [abs_of_nonneg h0] at this
  exact ⟨r, hr, hd, round64_mono round64_zero hr h0, this⟩

/-- Rounding a non-negative sum of `double`s. -/
theorem round64_grid {x : ℚ} (hg : OnGrid (2 ^ 1074) x) (h0 : 0 ≤ x) (hx : x ≤ 2 ^ 1000) :
    ∃ r, round64 x = fin r ∧ IsDouble r ∧ 0 ≤ r ∧ x ≤ r * rho ∧ r ≤ x * rho := by
  have hX : x ≤ 2 ^ 1023 := hx.trans (pow_le_pow_right₀ (by norm_num) (by norm_num))
  obtain ⟨r, hr, he, _⟩ := round64_spec hg (X := x) (by rw [abs_of_nonneg h0]) hX
  exact ⟨r, hr, isDouble_of_round64 hr, round64_mono round64_zero hr h0, rho_up h0 he⟩

/-- The sum of two non-negative `double`s. -/
theorem add64 {a b : ℚ} (ha : IsDouble a) (hb : IsDouble b) (a0 : 0 ≤ a) (b0 : 0 ≤ b)
    (h : a + b ≤ 2 ^ 1000) :
    ∃ r, b64.add (fin a) (fin b) = fin r ∧ IsDouble r ∧ 0 ≤ r ∧ a + b ≤ r * rho ∧
      r ≤ (a + b) * rho :=
  round64_grid (ha.onGrid.add hb.onGrid) (add_nonneg a0 b0) h

/-! ## Sums from left to right -/

/-- The sum of `double`s from left to right, as in `cluster.hpp:93`. -/
def fs (ws : List ℚ) : XR := ws.foldl (fun s w => b64.add s (fin w)) (fin 0)

theorem fs_append (ws : List ℚ) (w : ℚ) : fs (ws ++ [w]) = b64.add (fs ws) (fin w) := by
  simp [fs]

/-- Error of the sum from left to right. -/
theorem fs_spec (ws : List ℚ) (hd : ∀ w ∈ ws, IsDouble w ∧ 0 ≤ w)
    (hB : ws.sum * rho ^ ws.length ≤ 2 ^ 1000) :
    ∃ s, fs ws = fin s ∧ IsDouble s ∧ 0 ≤ s ∧ ws.sum ≤ s * rho ^ ws.length ∧
      s ≤ ws.sum * rho ^ ws.length := by
  induction ws using List.reverseRecOn with
  | nil => exact ⟨0, rfl, isDouble_zero, le_refl _, by simp, by simp⟩
  | append_singleton ws w ih =>
    have hw := hd w (by simp)
    have hs0 : 0 ≤ ws.sum := List.sum_nonneg fun x hx => (hd x (by simp [hx])).2
    simp only [List.sum_append, List.sum_singleton, List.length_append, List.length_singleton]
      at hB ⊢
    have hp := rho_pow_pos ws.length
    have hp1 := rho_pow_ge ws.length
    have hr1 := rho_ge
    have hle : (ws.sum + w) * rho ^ ws.length ≤ 2 ^ 1000 := by
      refine le_trans ?_ hB
      rw [pow_succ]
      exact mul_le_mul_of_nonneg_left (le_mul_of_one_le_right hp.le hr1) (by linarith [hw.2])
    obtain ⟨s, h1, h2, h3, h4, h5⟩ := ih (fun x hx => hd x (by simp [hx]))
      (le_trans (mul_le_mul_of_nonneg_right (by linarith [hw.2]) hp.le) hle)
    have hw2 : w ≤ w * rho ^ ws.length := le_mul_of_one_le_right hw.2 hp1
    have hsw : s + w ≤ (ws.sum + w) * rho ^ ws.length := by rw [add_mul]; linarith
    obtain ⟨r, g1, g2, g3, g4, g5⟩ := add64 h2 hw.1 h3 hw.2 (hsw.trans hle)
    refine ⟨r, by rw [fs_append, h1]; exact g1, g2, g3, ?_, ?_⟩
    · calc ws.sum + w ≤ s * rho ^ ws.length + w * rho ^ ws.length := add_le_add h4 hw2
        _ = (s + w) * rho ^ ws.length := by ring
        _ ≤ r * rho * rho ^ ws.length := mul_le_mul_of_nonneg_right g4 hp.le
        _ = r * rho ^ (ws.length + 1) := by ring
    · calc r ≤ (s + w) * rho := g5
        _ ≤ (ws.sum + w) * rho ^ ws.length * rho := mul_le_mul_of_nonneg_right hsw rho_pos.le
        _ = (ws.sum + w) * rho ^ (ws.length + 1) := by ring

/-- Leaving terms out does not make the rounded sum larger. -/
theorem fs_filter_le {α : Type} (p : α → Bool) (w : α → ℚ) (L : List α)
    (hd : ∀ x ∈ L, IsDouble (w x) ∧ 0 ≤ w x)
    (hB : (L.map w).sum * rho ^ L.length ≤ 2 ^ 1000) :
    ∃ s t, fs ((L.filter p).map w) = fin s ∧ fs (L.map w) = fin t ∧ IsDouble s ∧ IsDouble t ∧
      0 ≤ s ∧ s ≤ t ∧ t ≤ (L.map w).sum * rho ^ L.length := by
  induction L using List.reverseRecOn with
  | nil => exact ⟨0, 0, rfl, rfl, isDouble_zero, isDouble_zero, le_refl _, le_refl _, by simp⟩
  | append_singleton L x ih =>
    have hw := hd x (by simp)
    have hs0 : 0 ≤ (L.map w).sum := List.sum_nonneg fun y hy => by
      obtain ⟨z, hz, rfl⟩ := List.mem_map.1 hy
      exact (hd z (by simp [hz])).2
    simp only [List.map_append, List.map_cons, List.map_nil, List.sum_append, List.sum_singleton,
      List.length_append, List.length_singleton] at hB ⊢
    have hp := rho_pow_pos L.length
    have hp1 := rho_pow_ge L.length
    have hr1 := rho_ge
    have hle : ((L.map w).sum + w x) * rho ^ L.length ≤ 2 ^ 1000 := by
      refine le_trans ?_ hB
      rw [pow_succ]
      exact mul_le_mul_of_nonneg_left (le_mul_of_one_le_right hp.le hr1) (by linarith [hw.2])
    obtain ⟨s, t, h1, h2, h3, h4, h5, h6, h7⟩ := ih (fun y hy => hd y (by simp [hy]))
      (le_trans (mul_le_mul_of_nonneg_right (by linarith [hw.2]) hp.le) hle)
    have hw2 : w x ≤ w x * rho ^ L.length := le_mul_of_one_le_right hw.2 hp1
    have htw : t + w x ≤ ((L.map w).sum + w x) * rho ^ L.length := by rw [add_mul]; linarith
    have ht0 : 0 ≤ t := h5.trans h6
    obtain ⟨r, g1, g2, g3, g4, g5⟩ := add64 h4 hw.1 ht0 hw.2 (htw.trans hle)
    have hr : r ≤ ((L.map w).sum + w x) * rho ^ (L.length + 1) := by
      calc r ≤ (t + w x) * rho := g5
        _ ≤ ((L.map w).sum + w x) * rho ^ L.length * rho :=
          mul_le_mul_of_nonneg_right htw rho_pos.le
        _ = _ := by ring
    have htr : t ≤ r := by
      have ht : round64 t = fin t := round64_double h4 (by
        rw [abs_of_nonneg ht0]
        refine lt_of_le_of_lt (le_trans (by linarith [hw.2]) (htw.trans hle)) ?_
        exact pow_lt_pow_right₀ (by norm_num) (by norm_num))
      exact round64_mono ht g1 (by linarith [hw.2])
    by_cases hx : p x = true
    · obtain ⟨r', g1', g2', g3', _, _⟩ := add64 h3 hw.1 h5 hw.2 (by linarith)
      refine ⟨r', r, ?_, ?_, g2', g2, g3', round64_mono g1' g1 (by linarith), hr⟩
      · rw [List.filter_append, List.filter_cons_of_pos hx, List.filter_nil, List.map_append]
        exact (fs_append _ _).trans (by rw [h1]; exact g1')
      · rw [fs_append, h2]; exact g1
    · refine ⟨s, r, ?_, ?_, h3, g2, h5, h6.trans htr, hr⟩
      · rw [List.filter_append, List.filter_cons_of_neg hx, List.filter_nil, List.append_nil]
        exact h1
      · rw [fs_append, h2]; exact g1

/-! ## Sums in any order -/

theorem sum_leaves {k : Nat} (t : Order k) {f : Fin k → XR} {x : Fin k → ℚ}
    (hf : ∀ i, f i = fin (x i) ∧ IsDouble (x i) ∧ 0 ≤ x i)
    (hB : (t.leaves.map x).sum * rho ^ t.leaves.length ≤ 2 ^ 1000) :
    ∃ s, t.sum f = fin s ∧ IsDouble s ∧ 0 ≤ s ∧
      (t.leaves.map x).sum ≤ s * rho ^ t.leaves.length ∧
      s ≤ (t.leaves.map x).sum * rho ^ t.leaves.length := by
  induction t with
  | leaf i =>
    obtain ⟨h1, h2, h3⟩ := hf i
    simp only [Order.leaves, Order.sum, List.map_cons, List.map_nil, List.sum_singleton,
      List.length_singleton, pow_one]
    exact ⟨x i, h1, h2, h3, le_mul_of_one_le_right h3 rho_ge, le_mul_of_one_le_right h3 rho_ge⟩
  | node l r ihl ihr =>
    have hn : ∀ t : Order k, 0 ≤ (t.leaves.map x).sum := fun t => List.sum_nonneg fun y hy => by
      obtain ⟨z, _, rfl⟩ := List.mem_map.1 hy
      exact (hf z).2.2
    have hlen : ∀ t : Order k, 1 ≤ t.leaves.length := by
      intro t
      induction t with
      | leaf i => simp [Order.leaves]
      | node l r h1 h2 => simp [Order.leaves]; omega
    simp only [Order.leaves, Order.sum, List.map_append, List.sum_append, List.length_append]
      at hB ⊢
    have nl := hn l
    have nr := hn r
    have ll := hlen l
    have lr := hlen r
    generalize (l.leaves.map x).sum = A at *
    generalize (r.leaves.map x).sum = B at *
    generalize l.leaves.length = a at *
    generalize r.leaves.length = b at *
    have hmono : ∀ i j : Nat, i ≤ j → rho ^ i ≤ rho ^ j := fun i j h =>
      pow_le_pow_right₀ rho_ge h
    have hbig : (A + B) * rho ^ (a + b - 1) ≤ 2 ^ 1000 :=
      le_trans (mul_le_mul_of_nonneg_left (hmono _ _ (by omega)) (by linarith)) hB
    have hA : A * rho ^ (a + b - 1) + B * rho ^ (a + b - 1) = (A + B) * rho ^ (a + b - 1) := by ring
    have pA : ∀ i, i ≤ a + b - 1 → A * rho ^ i ≤ A * rho ^ (a + b - 1) := fun i h =>
      mul_le_mul_of_nonneg_left (hmono _ _ h) nl
    have pB : ∀ i, i ≤ a + b - 1 → B * rho ^ i ≤ B * rho ^ (a + b - 1) := fun i h =>
      mul_le_mul_of_nonneg_left (hmono _ _ h) nr
    have qA : 0 ≤ A * rho ^ (a + b - 1) := mul_nonneg nl (rho_pow_pos _).le
    have qB : 0 ≤ B * rho ^ (a + b - 1) := mul_nonneg nr (rho_pow_pos _).le
    obtain ⟨s, s1, s2, s3, s4, s5⟩ := ihl (by linarith [pA a (by omega)])
    obtain ⟨t, t1, t2, t3, t4, t5⟩ := ihr (by linarith [pB b (by omega)])
    have hst : s + t ≤ (A + B) * rho ^ (a + b - 1) := by
      have h1 := pA a (by omega)
      have h2 := pB b (by omega)
      clear hbig hB ihl ihr
      linarith
    obtain ⟨y, g1, g2, g3, g4, g5⟩ := add64 s2 t2 s3 t3 (hst.trans hbig)
    have hab : rho ^ (a + b) = rho ^ (a + b - 1) * rho := by
      obtain ⟨c, hc⟩ : ∃ c, a + b = c + 1 := ⟨a + b - 1, by omega⟩
      rw [hc, Nat.add_sub_cancel, pow_succ]
    refine ⟨y, by rw [s1, t1]; exact g1, g2, g3, ?_, ?_⟩
    · have h1 : s * rho ^ a ≤ s * rho ^ (a + b - 1) :=
        mul_le_mul_of_nonneg_left (hmono _ _ (by omega)) s3
      have h2 : t * rho ^ b ≤ t * rho ^ (a + b - 1) :=
        mul_le_mul_of_nonneg_left (hmono _ _ (by omega)) t3
      calc A + B ≤ (s + t) * rho ^ (a + b - 1) := by rw [add_mul]; linarith
        _ ≤ y * rho * rho ^ (a + b - 1) := mul_le_mul_of_nonneg_right g4 (rho_pow_pos _).le
        _ = y * rho ^ (a + b) := by rw [hab]; ring
    · calc y ≤ (s + t) * rho := g5
        _ ≤ (A + B) * rho ^ (a + b - 1) * rho := mul_le_mul_of_nonneg_right hst rho_pos.le
        _ = (A + B) * rho ^ (a + b) := by rw [hab]; ring

/-- Error of a sum in any order. -/
theorem sum_spec {k : Nat} {t : Order k} (ht : t.Ok) {f : Fin k → XR} {x : Fin k → ℚ}
    (hf : ∀ i, f i = fin (x i) ∧ IsDouble (x i) ∧ 0 ≤ x i)
    (hB : (∑ i, x i) * rho ^ k ≤ 2 ^ 1000) :
    ∃ s, t.sum f = fin s ∧ IsDouble s ∧ 0 ≤ s ∧ ∑ i, x i ≤ s * rho ^ k ∧
      s ≤ (∑ i, x i) * rho ^ k := by
  have h1 : (t.leaves.map x).sum = ∑ i, x i := by
    rw [(ht.map x).sum_eq, ← List.ofFn_eq_map, List.sum_ofFn]
  have h2 : t.leaves.length = k := by rw [ht.length_eq, List.length_finRange]
  have := sum_leaves t hf (by rw [h1, h2]; exact hB)
  rwa [h1, h2] at this

/-! ## Quotients -/

/-- A quotient of `double`s that is at most 1. -/
theorem div64_spec {a b : ℚ} (a0 : 0 ≤ a) (hab : a ≤ b) (b0 : 0 < b) :
    ∃ q, div64 (fin a) (fin b) = fin q ∧ IsDouble q ∧ 0 ≤ q ∧ q ≤ 1 ∧
      |q - a / b| ≤ a / b / 2 ^ 53 + tiny := by
  have h0 : 0 ≤ a / b := div_nonneg a0 b0.le
  have h1 : a / b ≤ 1 := (div_le_one b0).2 hab
  obtain ⟨q, g1, g2, g3, g4⟩ := round64_rel h0 (h1.trans (one_le_pow₀ (by norm_num)))
  have e1 : round64 1 = fin 1 := by
    have := Verif.RTreeF.round64_pow (k := 0) (by norm_num)
    simpa using this
  refine ⟨q, ?_, g2, g3, round64_mono g1 e1 h1, g4⟩
  exact (if_neg b0.ne').trans g1

end Verif.HypF

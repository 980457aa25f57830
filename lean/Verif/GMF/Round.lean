import Verif.GMF.Model
import Verif.GM.Join
import Verif.HypF.Err

/-! Helper lemmas: rounded sums of weights. -/

namespace Verif.GMF

open Verif.Lap Verif.LapF Verif.GM Verif.HypF XR
open Verif.RTreeF (round64_fin round64_mono isDouble_zero isDouble_one)

theorem fl_of {x r : ℚ} (h : round64 x = fin r) : fl x = r := by unfold fl; rw [h]

/-- No overflow up to `2 ^ 1000`. -/
theorem fl_fin {x : ℚ} (hx : |x| ≤ 2 ^ 1000) : round64 x = fin (fl x) ∧ IsDouble (fl x) := by
  obtain ⟨r, h1, h2⟩ := round64_fin hx
  rw [fl_of h1]
  exact ⟨h1, h2⟩

theorem big_of_le {x : ℚ} {k : Nat} (hk : k ≤ 1000) (hx : |x| ≤ 2 ^ k) : |x| ≤ 2 ^ 1000 :=
  hx.trans (pow_le_pow_right₀ (by norm_num) hk)

theorem fl_err {x : ℚ} (hx : |x| ≤ 2 ^ 1000) : |fl x - x| ≤ |x| / 2 ^ 53 + tiny :=
  round64_err (fl_fin hx).1

theorem fl_mono {x y : ℚ} (hx : |x| ≤ 2 ^ 1000) (hy : |y| ≤ 2 ^ 1000) (h : x ≤ y) : fl x ≤ fl y :=
  round64_mono (fl_fin hx).1 (fl_fin hy).1 h

theorem fl_double {d : ℚ} (hd : IsDouble d) (hb : |d| ≤ 2 ^ 1000) : fl d = d :=
  fl_of (round64_double hd (hb.trans_lt (pow_lt_pow_right₀ (by norm_num) (by norm_num))))

theorem fl_zero : fl 0 = 0 := fl_of round64_zero

theorem fl_one : fl 1 = 1 := fl_double isDouble_one (by
  rw [abs_one]; exact one_le_pow₀ (by norm_num))

theorem abs_small {x : ℚ} (h0 : 0 ≤ x) (h1 : x ≤ 1) : |x| ≤ 2 ^ 1000 := by
  rw [abs_of_nonneg h0]
  exact h1.trans (one_le_pow₀ (by norm_num))

theorem fl_unit {x : ℚ} (h0 : 0 ≤ x) (h1 : x ≤ 1) :
    IsDouble (fl x) ∧ 0 ≤ fl x ∧ fl x ≤ 1 ∧ |fl x - x| ≤ x / 2 ^ 53 + tiny := by
  have hb := abs_small h0 h1
  have hz : |(0 : ℚ)| ≤ 2 ^ 1000 := abs_small le_rfl zero_le_one
  have ho : |(1 : ℚ)| ≤ 2 ^ 1000 := abs_small zero_le_one le_rfl
  refine ⟨(fl_fin hb).2, fl_zero ▸ fl_mono hz hb h0, fl_one ▸ fl_mono hb ho h1, ?_⟩
  have := fl_err hb
  rwa [abs_of_nonneg h0] at this

theorem fsum_append (ws : List ℚ) (w : ℚ) : fsum (ws ++ [w]) = fl (fsum ws + w) := by
  simp [fsum]

theorem fsum_of_fs {ws : List ℚ} {s : ℚ} (h : fs ws = fin s) : fsum ws = s := by
  induction ws using List.reverseRecOn generalizing s with
  | nil => exact XR.fin.inj h
  | append_singleton ws w ih =>
    rw [fs_append] at h
    cases hf : fs ws with
    | fin r =>
      rw [hf] at h
      rw [fsum_append, ih hf]
      exact fl_of h
    | nan => rw [hf] at h; cases h
    | ninf => rw [hf] at h; cases h
    | pinf => rw [hf] at h; cases h

/-- The weights of a mixture: finite, not negative. -/
def Weights (ws : List ℚ) : Prop := ∀ w ∈ ws, IsDouble w ∧ 0 ≤ w ∧ w ≤ 2 ^ 500

theorem sum_le_card {ws : List ℚ} {B : ℚ} (h : ∀ w ∈ ws, w ≤ B) : ws.sum ≤ ws.length * B := by
  have := List.sum_le_card_nsmul ws B h
  rwa [nsmul_eq_mul] at this

theorem rho_len {n : Nat} (hn : n ≤ 2 ^ 20) : rho ^ n ≤ 1 + n / 2 ^ 51 ∧ rho ^ n ≤ 2 := by
  have hq : (n : ℚ) ≤ 2 ^ 20 := by exact_mod_cast hn
  have h := rho_pow_le (T := n) (hq.trans (by norm_num))
  have e : 2 * (n : ℚ) / 2 ^ 52 = n / 2 ^ 51 := by
    rw [show (2:ℚ) ^ 52 = 2 * 2 ^ 51 by norm_num, mul_div_mul_left _ _ (by norm_num)]
  rw [e] at h
  refine ⟨h, h.trans ?_⟩
  have : (n : ℚ) / 2 ^ 51 ≤ 1 := by
    rw [div_le_iff₀ (by norm_num)]; exact hq.trans (by norm_num)
  linarith

theorem weights_bound {ws : List ℚ} (hw : Weights ws) (hn : ws.length ≤ 2 ^ 20) :
    ws.sum ≤ 2 ^ 520 ∧ ws.sum * rho ^ ws.length ≤ 2 ^ 521 := by
  have h1 := sum_le_card fun w h => (hw w h).2.2
  have hq : (ws.length : ℚ) ≤ 2 ^ 20 := by exact_mod_cast hn
  have h2 : (ws.length : ℚ) * 2 ^ 500 ≤ 2 ^ 520 := by
    rw [show (2:ℚ) ^ 520 = 2 ^ 20 * 2 ^ 500 by rw [← pow_add]]
    exact mul_le_mul_of_nonneg_right hq (by positivity)
  have h3 : ws.sum ≤ 2 ^ 520 := h1.trans h2
  have h4 : 0 ≤ ws.sum := List.sum_nonneg fun w h => (hw w h).2.1
  refine ⟨h3, ?_⟩
  rw [show (2:ℚ) ^ 521 = 2 ^ 520 * 2 by rw [← pow_succ]]
  exact mul_le_mul h3 (rho_len hn).2 (rho_pow_pos _).le (by positivity)

/-- The rounded sum: a `double`, within a factor of the sum, not below any of its terms. -/
theorem fsum_spec {ws : List ℚ} (hw : Weights ws) (hn : ws.length ≤ 2 ^ 20) :
    IsDouble (fsum ws) ∧ 0 ≤ fsum ws ∧ ws.sum ≤ fsum ws * rho ^ ws.length ∧
      fsum ws ≤ ws.sum * rho ^ ws.length ∧ fsum ws ≤ 2 ^ 521 ∧ ∀ w ∈ ws, w ≤ fsum ws := by
  have hb := weights_bound hw hn
  have hB : ws.sum * rho ^ ws.length ≤ 2 ^ 1000 :=
    hb.2.trans (pow_le_pow_right₀ (by norm_num) (by norm_num))
  obtain ⟨s, h1, h2, h3, h4, h5⟩ := fs_spec ws (fun w h => ⟨(hw w h).1, (hw w h).2.1⟩) hB
  rw [fsum_of_fs h1]
  refine ⟨h2, h3, h4, h5, h5.trans hb.2, ?_⟩
  clear h2 h3 h4 h5 hB hb
  induction ws using List.reverseRecOn generalizing s with
  | nil => simp
  | append_singleton ws w ih =>
    have hw' : Weights ws := fun x hx => hw x (by simp [hx])
    have hn' : ws.length ≤ 2 ^ 20 := by
      rw [List.length_append] at hn; omega
    have hb' := weights_bound hw' hn'
    obtain ⟨t, t1, t2, t3, t4, t5⟩ := fs_spec ws (fun x hx => ⟨(hw' x hx).1, (hw' x hx).2.1⟩)
      (hb'.2.trans (pow_le_pow_right₀ (by norm_num) (by norm_num)))
    have ht : t ≤ 2 ^ 521 := t5.trans hb'.2
    obtain ⟨d1, d2, d3⟩ := hw w (by simp)
    rw [fs_append, t1] at h1
    have hsw : |t + w| ≤ 2 ^ 1000 := by
      rw [abs_of_nonneg (add_nonneg t3 d2)]
      have e1 : (2:ℚ) ^ 500 ≤ 2 ^ 521 := pow_le_pow_right₀ (by norm_num) (by norm_num)
      have e2 : (2:ℚ) ^ 522 ≤ 2 ^ 1000 := pow_le_pow_right₀ (by norm_num) (by norm_num)
      have e3 : (2:ℚ) ^ 522 = 2 ^ 521 * 2 := by rw [← pow_succ]
      refine le_trans ?_ e2
      rw [e3]
      generalize (2:ℚ) ^ 521 = B at *
      generalize (2:ℚ) ^ 500 = C at *
      linarith
    have hs : fl (t + w) = s := fl_of h1
    intro x hx
    rw [← hs]
    rcases List.mem_append.1 hx with hx | hx
    · refine (ih hw' hn' t t1 x hx).trans ?_
      have := fl_mono (x := t) (y := t + w)
        (big_of_le (k := 521) (by decide) ((abs_of_nonneg t3).le.trans ht)) hsw (le_add_of_nonneg_right d2)
      rwa [fl_double t2 (big_of_le (k := 521) (by decide) ((abs_of_nonneg t3).le.trans ht))] at this
    · rw [List.mem_singleton] at hx
      subst hx
      have hx2 : |x| ≤ 2 ^ 1000 :=
        big_of_le (k := 500) (by decide) ((abs_of_nonneg d2).le.trans d3)
      have := fl_mono (x := x) (y := t + x) hx2 hsw (le_add_of_nonneg_left t3)
      rwa [fl_double d1 hx2] at this

end Verif.GMF

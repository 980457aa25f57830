import Verif.KalmanF.Weight
import Verif.GMF.Missed
import Verif.Hyp.Bayes

/-!
# C119: the costs of a target in `double` arithmetic

`Target::match` and `Target::false_target` (`include/target.hpp:112-141`, `183-189`) on a mixture, with every
operation from the components up to the logarithm rounded, and what follows for the posterior probabilities.
-/

namespace Verif.KalmanF

open Verif.GMF (fl fl_err fl_zero fl_unit fl_fin fsum fsum_spec Weights negLog missCost missed eps)
open Verif.Lap Verif.LapF Verif.HypF Verif.Murty XR

/-! ## The model -/

/-- `Gaussian`, `gaussian.hpp:17-20`: weight, mean and covariance. -/
abbrev Comp := GM.Cmp ((Fin 4 → ℚ) × Cov4) ℚ

/-- `Gaussian_::correct`, `gaussian.hpp:30-42`; `pD` is the detection probability used for the component. -/
def correctC (ex sq : ℚ → ℚ) (c kz : ℚ) (pD : Comp → ℚ) (z : Fin 2 → ℚ) (R : Cov2) (g : Comp) : Comp :=
  ⟨(correctX g.x.1 g.x.2 z R, correctP g.x.2 R), correctW ex sq c g.w (pD g) kz g.x.1 g.x.2 z R⟩

/-- The value returned by `GM::correct`, `gm.hpp:92-104`. -/
def etaF (ex sq : ℚ → ℚ) (c kz : ℚ) (pD : Comp → ℚ) (z : Fin 2 → ℚ) (R : Cov2) (l : List Comp) : ℚ :=
  (GMF.normalize ⟨l.map (correctC ex sq c kz pD z R), 0⟩).eta

/-- `res(0, j) = -std::log(r * pdfs[j].correct(*reports[j], sensor))`, `target.hpp:129`. -/
def detCost (lg ex sq : ℚ → ℚ) (c kz r : ℚ) (pD : Comp → ℚ) (z : Fin 2 → ℚ) (R : Cov2) (l : List Comp) : XR :=
  negLog lg (fl (r * etaF ex sq c kz pD z R l))

/-- `false_target`, `target.hpp:183-189`. -/
def falseCost (lg : ℚ → ℚ) (r : ℚ) : XR := if r < 1 then negLog lg (fl (1 - r)) else .pinf

/-! ## The library -/

/-- What is assumed of `log` (`target.hpp:129`, `140`, `185`): one unit in the last place. -/
def LogUlp (lg : ℚ → ℚ) : Prop := ∀ q : ℚ, 0 < q → |(lg q : ℝ) - Real.log q| ≤ |Real.log q| / 2 ^ 52

/-- There is such a function. -/
theorem log_exists : ∃ lg, LogUlp lg := by
  have h : ∀ q : ℚ, ∃ p : ℚ, |(p : ℝ) - Real.log q| ≤ |Real.log q| / 2 ^ 52 := by
    intro q
    rcases le_total 0 (Real.log q) with h0 | h0
    · obtain ⟨p, hp⟩ := approx_exists _ h0
      exact ⟨p, by rwa [abs_of_nonneg h0]⟩
    · obtain ⟨p, hp⟩ := approx_exists (-Real.log q) (by linarith)
      refine ⟨-p, ?_⟩
      rw [abs_of_nonpos h0]
      have : (((-p : ℚ)) : ℝ) - Real.log q = -((p : ℝ) - -Real.log q) := by push_cast; ring
      rwa [this, abs_neg]
  choose f hf using h
  exact ⟨f, fun q _ => hf q⟩

/-! ## Sums -/

theorem near_iff {e a b : ℝ} (hb : 0 < b) :
    Near e a b ↔ 0 < a ∧ |Real.log a - Real.log b| ≤ e := by
  constructor
  · rintro ⟨d, h, rfl⟩
    have := Real.exp_pos d
    refine ⟨by positivity, ?_⟩
    rw [Real.log_mul hb.ne' this.ne', Real.log_exp]
    simpa using h
  · rintro ⟨ha, h⟩
    refine ⟨_, h, ?_⟩
    rw [Real.exp_sub, Real.exp_log ha, Real.exp_log hb]
    field_simp

theorem near_two {e a b : ℝ} (he : 0 ≤ e) (hb : 0 ≤ b) :
    Near e a b ↔ b * Real.exp (-e) ≤ a ∧ a ≤ b * Real.exp e := by
  constructor
  · rintro ⟨d, h, rfl⟩
    obtain ⟨h1, h2⟩ := abs_le.1 h
    exact ⟨mul_le_mul_of_nonneg_left (Real.exp_le_exp.2 h1) hb, mul_le_mul_of_nonneg_left (Real.exp_le_exp.2 h2) hb⟩
  · rintro ⟨h1, h2⟩
    rcases hb.eq_or_lt with rfl | hb
    · rw [zero_mul] at h1 h2
      exact ⟨0, by simpa using he, by rw [zero_mul]; exact le_antisymm h2 h1⟩
    · have ha : 0 < a := lt_of_lt_of_le (mul_pos hb (Real.exp_pos _)) h1
      rw [near_iff hb]
      refine ⟨ha, abs_le.2 ⟨?_, ?_⟩⟩
      · have := Real.log_le_log (mul_pos hb (Real.exp_pos _)) h1
        rw [Real.log_mul hb.ne' (Real.exp_pos _).ne', Real.log_exp] at this
        linarith
      · have := Real.log_le_log ha h2
        rw [Real.log_mul hb.ne' (Real.exp_pos _).ne', Real.log_exp] at this
        linarith

theorem near_sum {α : Type*} {e : ℝ} (he : 0 ≤ e) (l : List α) (a b : α → ℝ) (hb : ∀ g ∈ l, 0 ≤ b g)
    (h : ∀ g ∈ l, Near e (a g) (b g)) : Near e (l.map a).sum (l.map b).sum := by
  induction l with
  | nil => exact ⟨0, by simpa using he, by simp⟩
  | cons g l ih =>
    have i1 := (near_two he (hb g List.mem_cons_self)).1 (h g List.mem_cons_self)
    have hs : 0 ≤ (l.map b).sum := List.sum_nonneg fun x hx => by
      obtain ⟨y, hy, rfl⟩ := List.mem_map.1 hx
      exact hb y (List.mem_cons_of_mem _ hy)
    have i2 := (near_two he hs).1 (ih (fun y hy => hb y (List.mem_cons_of_mem _ hy))
      fun y hy => h y (List.mem_cons_of_mem _ hy))
    simp only [List.map_cons, List.sum_cons]
    rw [near_two he (add_nonneg (hb g List.mem_cons_self) hs), add_mul, add_mul]
    exact ⟨add_le_add i1.1 i2.1, add_le_add i1.2 i2.2⟩

/-- The rounded sum. -/
theorem near_fsum {ws : List ℚ} (hw : Weights ws) (hn : ws.length ≤ 2 ^ 20) :
    Near (ws.length * (u : ℚ)) (fsum ws : ℚ) (ws.sum : ℚ) := by
  obtain ⟨-, f0, h1, h2, -, -⟩ := fsum_spec hw hn
  have hR := rho_pow_pos ws.length
  have W0 : 0 ≤ ws.sum := List.sum_nonneg fun w h => (hw w h).2.1
  have hu : ((u : ℚ) : ℝ) = 1 / 2 ^ 52 := by unfold u; norm_num
  have he : Real.log ((rho ^ ws.length : ℚ) : ℝ) ≤ ws.length * (u : ℚ) := by
    push_cast
    rw [Real.log_pow]
    refine mul_le_mul_of_nonneg_left ?_ (Nat.cast_nonneg _)
    have : ((rho : ℚ) : ℝ) = 1 + (u : ℚ) := by rw [hu]; unfold rho; norm_num
    rw [this]
    have := Real.log_le_sub_one_of_pos (x := 1 + ((u : ℚ) : ℝ)) (by rw [hu]; positivity)
    linarith
  have he0 : 0 ≤ (ws.length : ℝ) * (u : ℚ) := by rw [hu]; positivity
  have hRr : (0 : ℝ) < ((rho ^ ws.length : ℚ) : ℝ) := by exact_mod_cast hR
  have hRe : ((rho ^ ws.length : ℚ) : ℝ) ≤ Real.exp (ws.length * (u : ℚ)) := by
    rw [← Real.log_le_iff_le_exp hRr]
    exact he
  have hW0 : (0 : ℝ) ≤ (ws.sum : ℚ) := by exact_mod_cast W0
  have hf0 : (0 : ℝ) ≤ (fsum ws : ℚ) := by exact_mod_cast f0
  rw [near_two he0 hW0]
  constructor
  · rw [Real.exp_neg, ← div_eq_mul_inv, div_le_iff₀ (Real.exp_pos _)]
    have : ((ws.sum : ℚ) : ℝ) ≤ (fsum ws : ℚ) * ((rho ^ ws.length : ℚ) : ℝ) := by exact_mod_cast h1
    exact this.trans (mul_le_mul_of_nonneg_left hRe hf0)
  · have : ((fsum ws : ℚ) : ℝ) ≤ (ws.sum : ℚ) * ((rho ^ ws.length : ℚ) : ℝ) := by exact_mod_cast h2
    exact this.trans (mul_le_mul_of_nonneg_left hRe hW0)

/-- The logarithm of a number of moderate size. -/
theorem log_bound {p : ℚ} (h1 : 1 / 2 ^ 1000 ≤ p) (h2 : p ≤ 2 ^ 1000) : |Real.log p| ≤ 1000 := by
  have hp : 0 < p := lt_of_lt_of_le (by positivity) h1
  have l2 := Real.log_two_lt_d9
  have l20 := Real.log_two_gt_d9
  have hp' : (0 : ℝ) < p := by exact_mod_cast hp
  rw [abs_le]
  constructor
  · have : ((1 / 2 ^ 1000 : ℚ) : ℝ) ≤ p := Rat.cast_le.2 h1
    have := Real.log_le_log (by push_cast; positivity) this
    push_cast at this
    rw [Real.log_div one_ne_zero (by positivity), Real.log_one, Real.log_pow] at this
    push_cast at this
    linarith
  · have : (p : ℝ) ≤ ((2 ^ 1000 : ℚ) : ℝ) := Rat.cast_le.2 h2
    have := Real.log_le_log hp' this
    push_cast at this
    rw [Real.log_pow] at this
    push_cast at this
    linarith

/-- From a factor to a cost. -/
theorem cost_near {lg : ℚ → ℚ} (hlg : LogUlp lg) {p : ℚ} {v e : ℝ} (h1 : 1 / 2 ^ 1000 ≤ p) (h2 : p ≤ 2 ^ 1000)
    (hv : 0 < v) (h : Near e p v) : Hyp.Near (e + 1000 / 2 ^ 52) (negLog lg p) v := by
  have hp : 0 < p := lt_of_lt_of_le (by positivity) h1
  refine .inr ⟨hv, -lg p, ?_, ?_⟩
  · unfold negLog
    rw [if_neg (not_lt.2 hp.le), if_neg hp.ne']
  · have a1 := hlg p hp
    have a2 := ((near_iff hv).1 h).2
    have a3 := log_bound h1 h2
    have e1 : (((-lg p : ℚ)) : ℝ) + Real.log v = -((lg p : ℝ) - Real.log p) - (Real.log p - Real.log v) := by
      push_cast; ring
    rw [e1]
    refine (abs_sub _ _).trans ?_
    rw [abs_neg]
    have : |Real.log p| / 2 ^ 52 ≤ 1000 / 2 ^ 52 := div_le_div_of_nonneg_right a3 (by positivity)
    linarith

/-! ## Detection -/

/-- The exact likelihood ratio of a report: the sum of the weights that the exact update gives (specification). -/
noncomputable def etaX (kz : ℚ) (pD : Comp → ℚ) (z : Fin 2 → ℚ) (R : Cov2) (l : List Comp) : ℝ :=
  (l.map fun g => (Kalman.correct Kalman.posH (pD g) (reportOf z R kz) (gaussOf g.x.1 g.x.2 g.w)).w).sum

/-- What C118 needs of one component and a report, with common bounds `k` and `m` for condition and distance. -/
structure Tame (ex sq : ℚ → ℚ) (c kz : ℚ) (pD : Comp → ℚ) (z : Fin 2 → ℚ) (R : Cov2) (k m : ℚ) (g : Comp) :
    Prop where
  cov : IsCov g.x.2
  pos : 0 < det g.x.2 R
  cond : kappa g.x.2 R ≤ k
  near : maha g.x.1 g.x.2 z R ≤ m
  upd : SafeUpdate g.x.2 R
  wgt : SafeWeight ex sq c g.w (pD g) kz g.x.1 g.x.2 z R
  w0 : 0 ≤ g.w
  p0 : 0 ≤ pD g
  big : correctW ex sq c g.w (pD g) kz g.x.1 g.x.2 z R ≤ 2 ^ 500

theorem exact_nonneg {pD kz w : ℝ} (h1 : 0 ≤ pD) (h2 : 0 < kz) (h3 : 0 ≤ w) (x : Fin 4 → ℚ) (P : Cov4)
    (z : Fin 2 → ℚ) (R : Cov2) :
    0 ≤ (Kalman.correct Kalman.posH pD (reportOf z R kz) (gaussOf x P w)).w := by
  show 0 ≤ w * (pD * Kalman.likelihood _ _ / kz)
  have : 0 ≤ Kalman.likelihood (Kalman.innov Kalman.posH (reportOf z R kz) (gaussOf x P w))
      (Kalman.dinv Kalman.posH (reportOf z R kz) (gaussOf x P w)) := by
    unfold Kalman.likelihood
    exact mul_nonneg (Real.exp_pos _).le (Real.sqrt_nonneg _)
  positivity

/-- **C119 (detection).**  The cost of giving a report to a target is, within `((33 m + 53) k + n + 1002) / 2^52`,
the negative logarithm of the existence probability times the exact likelihood ratio - if the computed ratio is
above `1e-8`; otherwise it is infinite. -/
theorem C119_detect {lg ex sq : ℚ → ℚ} (hlg : LogUlp lg) (hex : ExpUlp ex) (hsq : SqrtUlp sq) {c kz r k m : ℚ}
    (hc : PowUlp c) (hkz : 0 < kz) (hr : 1 / 2 ^ 400 ≤ r ∧ r ≤ 1) (hk : k ≤ 2 ^ 40) (hm0 : 0 ≤ m) (hm : m ≤ 1000)
    {pD : Comp → ℚ} {z : Fin 2 → ℚ} {R : Cov2} (hR : IsCov R) {l : List Comp} (hn : l.length ≤ 2 ^ 20)
    (hl : ∀ g ∈ l, Tame ex sq c kz pD z R k m g) :
    (etaF ex sq c kz pD z R l ≠ 0 → Hyp.Near (((33 * m + 53) * k + l.length + 1002) / 2 ^ 52 : ℚ)
      (detCost lg ex sq c kz r pD z R l) (r * etaX kz pD z R l)) ∧
    (etaF ex sq c kz pD z R l = 0 → detCost lg ex sq c kz r pD z R l = .pinf) := by
  constructor
  · intro h
    have hu52 : ((u : ℚ) : ℝ) = 1 / 2 ^ 52 := by unfold u; norm_num
    set ws := (l.map (correctC ex sq c kz pD z R)).map GM.Cmp.w with hws
    have hwe : ws = l.map fun g => correctW ex sq c g.w (pD g) kz g.x.1 g.x.2 z R := by
      rw [hws, List.map_map]; rfl
    have heps : eps < fsum ws := by
      by_contra hlt
      apply h
      unfold etaF GMF.normalize
      simp only
      rw [if_neg hlt]
      rfl
    have heta : etaF ex sq c kz pD z R l = fsum ws := by
      unfold etaF GMF.normalize
      simp only
      rw [if_pos heps]
    have hl0 : l ≠ [] := by
      rintro rfl
      rw [hwe] at heps
      exact absurd (show eps < fsum [] from heps) (by decide +kernel)
    obtain ⟨g0, hg0⟩ := List.exists_mem_of_ne_nil l hl0
    have hk1 : 1 ≤ k := (kappa_ge (hl g0 hg0).pos).trans (hl g0 hg0).cond
    have hek : ∀ g ∈ l, (33 * maha g.x.1 g.x.2 z R + 53) * kappa g.x.2 R / 2 ^ 52 ≤ (33 * m + 53) * k / 2 ^ 52 := by
      intro g hg
      have t := hl g hg
      have b0 := maha_nonneg (x := g.x.1) (z := z) t.cov hR t.pos
      have b1 := kappa_ge t.pos
      apply div_le_div_of_nonneg_right _ (by positivity)
      exact mul_le_mul (by linarith [t.near]) t.cond (by linarith) (by linarith)
    have hW : ∀ g ∈ l, Near (((33 * m + 53) * k / 2 ^ 52 : ℚ) : ℝ)
        ((correctW ex sq c g.w (pD g) kz g.x.1 g.x.2 z R : ℚ) : ℝ)
        (Kalman.correct Kalman.posH (pD g) (reportOf z R kz) (gaussOf g.x.1 g.x.2 g.w)).w := by
      intro g hg
      have t := hl g hg
      refine (C118_weight t.cov hR t.pos (t.cond.trans hk) t.upd hex hsq hc (t.near.trans hm) t.wgt).up ?_
      exact Rat.cast_le.2 (hek g hg)
    have hX : ∀ g ∈ l,
        0 ≤ (Kalman.correct Kalman.posH (pD g) (reportOf z R kz) (gaussOf g.x.1 g.x.2 g.w)).w := by
      intro g hg
      have t := hl g hg
      exact exact_nonneg (by exact_mod_cast t.p0) (by exact_mod_cast hkz) (by exact_mod_cast t.w0) _ _ _ _
    have he0 : (0 : ℝ) ≤ (((33 * m + 53) * k / 2 ^ 52 : ℚ) : ℝ) := by
      have : (0 : ℚ) ≤ (33 * m + 53) * k / 2 ^ 52 := by positivity
      exact_mod_cast this
    have hS := near_sum he0 l _ _ hX hW
    have hws' : Weights ws := by
      intro w hw
      rw [hwe] at hw
      obtain ⟨g, hg, rfl⟩ := List.mem_map.1 hw
      have t := hl g hg
      have h0 : 0 ≤ correctW ex sq c g.w (pD g) kz g.x.1 g.x.2 z R := by
        have := ((near_two he0 (hX g hg)).1 (hW g hg)).1
        have h2 := mul_nonneg (hX g hg) (Real.exp_pos (-(((33 * m + 53) * k / 2 ^ 52 : ℚ) : ℝ))).le
        exact_mod_cast h2.trans this
      refine ⟨?_, h0, t.big⟩
      obtain ⟨-, -, -, -, -, -, -, s6⟩ := t.wgt
      refine (fl_fin ?_).2
      rcases s6 with h | h
      · rw [h, abs_zero]; positivity
      · exact h.2
    have hlen : ws.length = l.length := by rw [hwe, List.length_map]
    have hF := near_fsum hws' (by rw [hlen]; exact hn)
    obtain ⟨-, -, -, -, hb, -⟩ := fsum_spec hws' (by rw [hlen]; exact hn)
    rw [hlen] at hF
    have hsum : ((ws.sum : ℚ) : ℝ) = (l.map fun g =>
        ((correctW ex sq c g.w (pD g) kz g.x.1 g.x.2 z R : ℚ) : ℝ)).sum := by
      rw [hwe, Rat.cast_list_sum, List.map_map]
      rfl
    rw [hsum] at hF
    have hA := hF.trans hS
    have e8 : (1 : ℚ) / 2 ^ 30 ≤ eps := by decide +kernel
    have ha : 1 / 2 ^ 30 ≤ fsum ws := e8.trans heps.le
    have hap : 0 < fsum ws := lt_of_lt_of_le (by positivity) ha
    have hr0 : 0 < r := lt_of_lt_of_le (by positivity) hr.1
    have hrr : (0 : ℝ) < r := by exact_mod_cast hr0
    have hX0 : 0 < etaX kz pD z R l := by
      obtain ⟨d, -, hd⟩ := hA
      have h1 : (0 : ℝ) < (fsum ws : ℚ) := by exact_mod_cast hap
      rw [hd] at h1
      exact pos_of_mul_pos_left h1 (Real.exp_pos _).le
    have q1 : 1 / 2 ^ 430 ≤ r * fsum ws := by
      have := mul_le_mul hr.1 ha (by positivity) hr0.le
      refine le_trans ?_ this
      rw [one_div_mul_one_div, ← pow_add]
    have q2 : r * fsum ws ≤ 2 ^ 521 := by
      have := mul_le_mul hr.2 hb hap.le zero_le_one
      linarith
    have hs : Safe (r * fsum ws) := .inr (by
      rw [abs_of_pos (mul_pos hr0 hap)]
      exact ⟨(one_div_le_one_div_of_le (by positivity) (pow_le_pow_right₀ (by norm_num) (by norm_num))).trans q1,
        q2.trans (pow_le_pow_right₀ (by norm_num) (by norm_num))⟩)
    have hP := (fl_near hs).trans (by rw [Rat.cast_mul]; exact (Near.refl (r : ℝ)).mul hA)
    obtain ⟨f, hf, ef⟩ := fl_fac hs
    have hf' : |f - 1| ≤ 1 / 2 := hf.trans (by unfold u; norm_num)
    obtain ⟨f1, f2⟩ := abs_le.1 hf'
    have p1 : 1 / 2 ^ 1000 ≤ fl (r * fsum ws) := by
      rw [ef]
      have h1 : 1 / 2 ^ 430 * (1 / 2) ≤ r * fsum ws * f :=
        mul_le_mul q1 (by linarith) (by norm_num) (by linarith [show (0:ℚ) ≤ 1 / 2 ^ 430 by positivity])
      refine le_trans ?_ h1
      rw [one_div_mul_one_div, ← pow_succ]
      exact one_div_le_one_div_of_le (by positivity) (pow_le_pow_right₀ (by norm_num) (by norm_num))
    have p2 : fl (r * fsum ws) ≤ 2 ^ 1000 := by
      rw [ef]
      have h1 : r * fsum ws * f ≤ 2 ^ 521 * 2 := mul_le_mul q2 (by linarith) (by linarith) (by positivity)
      refine h1.trans ?_
      rw [← pow_succ]
      exact pow_le_pow_right₀ (by norm_num) (by norm_num)
    have hC := cost_near hlg p1 p2 (mul_pos hrr hX0) hP
    unfold detCost
    rw [heta]
    rcases hC with ⟨h1, -⟩ | ⟨h1, q, h2, h3⟩
    · exact absurd h1 (mul_pos hrr hX0).ne'
    · refine .inr ⟨h1, q, h2, h3.trans (le_of_eq ?_)⟩
      rw [hu52]
      push_cast
      ring
  · intro h
    unfold detCost negLog
    rw [h, mul_zero, fl_zero]
    simp

/-! ## No detection, no target -/

/-- From a safe product to a cost. -/
theorem fl_cost {lg : ℚ → ℚ} (hlg : LogUlp lg) {x : ℚ} {v e : ℝ} (h1 : 1 / 2 ^ 900 ≤ x) (h2 : x ≤ 1)
    (hv : 0 < v) (h : Near e x v) : Hyp.Near (e + 1002 / 2 ^ 52) (negLog lg (fl x)) v := by
  have hu52 : ((u : ℚ) : ℝ) = 1 / 2 ^ 52 := by unfold u; norm_num
  have hx : 0 < x := lt_of_lt_of_le (by positivity) h1
  have hs : Safe x := .inr (by
    rw [abs_of_pos hx]
    exact ⟨(one_div_le_one_div_of_le (by positivity) (pow_le_pow_right₀ (by norm_num) (by norm_num))).trans h1,
      h2.trans (one_le_pow₀ (by norm_num))⟩)
  obtain ⟨f, hf, ef⟩ := fl_fac hs
  have hf' : |f - 1| ≤ 1 / 2 := hf.trans (by unfold u; norm_num)
  obtain ⟨f1, f2⟩ := abs_le.1 hf'
  have p1 : 1 / 2 ^ 1000 ≤ fl x := by
    rw [ef]
    have h1 : 1 / 2 ^ 900 * (1 / 2) ≤ x * f := mul_le_mul h1 (by linarith) (by norm_num) hx.le
    refine le_trans ?_ h1
    rw [one_div_mul_one_div, ← pow_succ]
    exact one_div_le_one_div_of_le (by positivity) (pow_le_pow_right₀ (by norm_num) (by norm_num))
  have p2 : fl x ≤ 2 ^ 1000 := by
    have := (fl_unit hx.le h2).2.2.1
    exact this.trans (one_le_pow₀ (by norm_num))
  have hC := cost_near hlg p1 p2 hv ((fl_near hs).trans h)
  rcases hC with ⟨h1, -⟩ | ⟨h1, q, h2, h3⟩
  · exact absurd h1 hv.ne'
  · refine .inr ⟨h1, q, h2, h3.trans (le_of_eq ?_)⟩
    rw [hu52]
    ring

/-- **C119 (missed).**  For a mixture as `normalize` leaves it, and an exact probability of a missed detection of
at least `q0`, the cost of a missed detection is within `(3 n + 4) / (2^50 q0) + 1002 / 2^52` of the negative
logarithm. -/
theorem C119_missed {lg : ℚ → ℚ} (hlg : LogUlp lg) {r q0 : ℚ} (hr : 1 / 2 ^ 400 ≤ r ∧ r ≤ 1) (pD : Comp → ℚ)
    (l : List Comp) (hn : l.length ≤ 2 ^ 20) (hw : ∀ g ∈ l, 0 ≤ g.w ∧ g.w ≤ 1)
    (hp : ∀ g ∈ l, 0 ≤ pD g ∧ pD g ≤ 1)
    (h1 : |(l.map GM.Cmp.w).sum - 1| ≤ (l.length + 1) / 2 ^ 51 + l.length * (1 / 2 ^ 1074))
    (hq0 : (3 * l.length + 4) / 2 ^ 50 ≤ q0) (hq : q0 ≤ 1 - (l.map fun g => g.w * pD g).sum) :
    Hyp.Near ((3 * l.length + 4) / (2 ^ 50 * q0) + 1002 / 2 ^ 52 : ℚ) (missCost lg r pD l)
      (r * (1 - (l.map fun g => g.w * pD g).sum : ℚ)) := by
  obtain ⟨m1, m2, -⟩ := GMF.C83_missed pD l hn hw hp h1
  set q := 1 - (l.map fun g => g.w * pD g).sum with hqd
  have n0 : (0 : ℚ) < (3 * l.length + 4) / 2 ^ 50 := by positivity
  have hq0' : 0 < q0 := n0.trans_le hq0
  have hqp : 0 < q := hq0'.trans_le hq
  have hr0 : 0 < r := lt_of_lt_of_le (by positivity) hr.1
  have e51 : ((3 * l.length + 4) / 2 ^ 51 : ℚ) = (3 * l.length + 4) / 2 ^ 50 / 2 := by ring
  have hrel : |missed pD l - q| ≤ |q| * ((3 * l.length + 4) / (2 ^ 51 * q0)) := by
    refine m2.trans ?_
    rw [abs_of_pos hqp, ← div_div, mul_div_assoc', le_div_iff₀ hq0', mul_comm q]
    exact mul_le_mul_of_nonneg_left hq (by positivity)
  have hN : Near (2 * (((3 * l.length + 4) / (2 ^ 51 * q0) : ℚ) : ℝ)) (missed pD l : ℚ) (q : ℚ) := by
    apply near_of_rel
    · exact Rat.cast_nonneg.2 (by positivity)
    · have : (3 * l.length + 4) / (2 ^ 51 * q0) ≤ 1 / 2 := by
        rw [← div_div, e51, div_le_iff₀ hq0']
        linarith
      refine (Rat.cast_le.2 this).trans_eq (by norm_num)
    · have := (Rat.cast_le (K := ℝ)).2 hrel
      push_cast at this ⊢
      exact this
  have hml : q / 2 ≤ missed pD l := by
    have := (abs_le.1 m2).1
    rw [e51] at this
    linarith
  have hm0 : 0 ≤ missed pD l := by linarith
  have hb : 1 / 2 ^ 900 ≤ r * missed pD l := by
    have h2 : (1 : ℚ) / 2 ^ 51 ≤ missed pD l := by
      have : (1 : ℚ) / 2 ^ 50 ≤ q := by
        refine le_trans ?_ (hq0.trans hq)
        apply div_le_div_of_nonneg_right _ (by positivity)
        have : (0 : ℚ) ≤ l.length := Nat.cast_nonneg _
        linarith
      linarith [show (1 : ℚ) / 2 ^ 51 = 1 / 2 ^ 50 / 2 by norm_num]
    have := mul_le_mul hr.1 h2 (by positivity) hr0.le
    refine le_trans ?_ this
    rw [one_div_mul_one_div, ← pow_add]
    exact one_div_le_one_div_of_le (by positivity) (pow_le_pow_right₀ (by norm_num) (by norm_num))
  have hrr : (0 : ℝ) < r := by exact_mod_cast hr0
  have hqr : (0 : ℝ) < q := by exact_mod_cast hqp
  have hC := fl_cost hlg hb (mul_le_one₀ hr.2 hm0 m1) (mul_pos hrr hqr) (by
    rw [Rat.cast_mul]; exact (Near.refl (r : ℝ)).mul hN)
  unfold missCost
  rcases hC with ⟨h1, -⟩ | ⟨h1, p, h2, h3⟩
  · exact absurd h1 (mul_pos hrr hqr).ne'
  · refine .inr ⟨h1, p, h2, h3.trans (le_of_eq ?_)⟩
    push_cast
    have : (q0 : ℝ) ≠ 0 := by exact_mod_cast hq0'.ne'
    field_simp
    ring

/-- No `double` below 1 is closer to it than `2^-53`. -/
theorem double_gap {r : ℚ} (hd : IsDouble r) (h1 : r ≤ 1) : 1 - r = 0 ∨ 1 / 2 ^ 900 ≤ 1 - r := by
  rcases h1.eq_or_lt with rfl | h1
  · exact .inl (by norm_num)
  right
  have h900 : (1 : ℚ) / 2 ^ 900 ≤ 1 / 2 ^ 53 :=
    one_div_le_one_div_of_le (by positivity) (pow_le_pow_right₀ (by norm_num) (by norm_num))
  refine h900.trans ?_
  obtain ⟨y, e, rfl, hy, -, -⟩ := hd
  rcases lt_or_ge e (-53) with he | he
  · have h2 : (2 : ℚ) ^ e ≤ 2 ^ (-54 : ℤ) := zpow_le_zpow_right₀ (by norm_num) (by omega)
    have h3 : (y : ℚ) ≤ 2 ^ 53 := by exact_mod_cast ((abs_lt.1 hy).2).le
    have h4 : (y : ℚ) * 2 ^ e ≤ 2 ^ 53 * 2 ^ (-54 : ℤ) := by
      calc (y : ℚ) * 2 ^ e ≤ 2 ^ 53 * 2 ^ e := mul_le_mul_of_nonneg_right h3 (by positivity)
        _ ≤ _ := mul_le_mul_of_nonneg_left h2 (by positivity)
    norm_num at h4 ⊢
    linarith
  · obtain ⟨t, ht⟩ := Int.eq_ofNat_of_zero_le (show 0 ≤ e + 53 by omega)
    have h2 : (2 : ℚ) ^ e = 2 ^ t / 2 ^ 53 := by
      rw [show e = (t : ℤ) - 53 by omega, zpow_sub₀ (by norm_num)]
      norm_cast
    rw [h2] at h1 ⊢
    have h3 : (y : ℚ) * 2 ^ t < 2 ^ 53 := by
      rw [← mul_div_assoc, div_lt_one (by positivity)] at h1
      exact h1
    have h4 : y * 2 ^ t + 1 ≤ 2 ^ 53 := by exact_mod_cast h3
    have h5 : (y : ℚ) * 2 ^ t + 1 ≤ 2 ^ 53 := by exact_mod_cast h4
    rw [← mul_div_assoc, le_sub_iff_add_le, ← add_div, div_le_one (by positivity)]
    linarith

/-- **C119 (absent).**  For an existence probability that is a `double` in [0, 1], the cost of the target being
absent is within `1002 / 2^52` of the negative logarithm. -/
theorem C119_absent {lg : ℚ → ℚ} (hlg : LogUlp lg) {r : ℚ} (hd : IsDouble r) (h0 : 0 ≤ r) (h1 : r ≤ 1) :
    Hyp.Near (1002 / 2 ^ 52 : ℚ) (falseCost lg r) (1 - r : ℚ) := by
  unfold falseCost
  rcases double_gap hd h1 with h | h
  · rw [if_neg (by linarith), h]
    exact .inl ⟨by norm_num, rfl⟩
  · have hp : (0 : ℚ) < 1 - r := lt_of_lt_of_le (by positivity) h
    rw [if_pos (by linarith)]
    have := fl_cost hlg (v := ((1 - r : ℚ) : ℝ)) h (by linarith) (by exact_mod_cast hp) (Near.refl _)
    rw [zero_add] at this
    convert this using 1
    push_cast
    rfl

/-! ## The posterior -/

theorem near_up {δ δ' : ℝ} {x : XR} {v : ℝ} (h : Hyp.Near δ x v) (hd : δ ≤ δ') : Hyp.Near δ' x v := by
  rcases h with h | ⟨h1, q, h2, h3⟩
  · exact .inl h
  · exact .inr ⟨h1, q, h2, h3.trans hd⟩

/-- **C119 (posterior).**  In a cluster of `M` targets and `N` reports, with the costs the program computes, the
posterior probability of anything about the joint events is the exact one up to a factor `exp (2 M δ)`, where the
exact one rules out, as the program does, reports with a likelihood ratio of `1e-8` or less. -/
theorem C119_posterior {M N : Nat} {lg ex sq : ℚ → ℚ} (hlg : LogUlp lg) (hex : ExpUlp ex) (hsq : SqrtUlp sq)
    {c k m q0 : ℚ} {n : Nat} (hc : PowUlp c) (hk1 : 1 ≤ k) (hk : k ≤ 2 ^ 40) (hm0 : 0 ≤ m) (hm : m ≤ 1000)
    (hn : n ≤ 2 ^ 20) (hq0 : (3 * n + 4) / 2 ^ 50 ≤ q0)
    (z : Fin N → Fin 2 → ℚ) (R : Fin N → Cov2) (kz : Fin N → ℚ) (hR : ∀ j, IsCov (R j)) (hkz : ∀ j, 0 < kz j)
    (r : Fin M → ℚ) (l : Fin M → List Comp) (pD : Fin M → Fin N → Comp → ℚ) (pM : Fin M → Comp → ℚ)
    (hr : ∀ i, IsDouble (r i) ∧ 1 / 2 ^ 400 ≤ r i ∧ r i ≤ 1) (hlen : ∀ i, (l i).length ≤ n)
    (hl : ∀ i j, ∀ g ∈ l i, Tame ex sq c (kz j) (pD i j) (z j) (R j) k m g)
    (hw : ∀ i, ∀ g ∈ l i, 0 ≤ g.w ∧ g.w ≤ 1) (hp : ∀ i, ∀ g ∈ l i, 0 ≤ pM i g ∧ pM i g ≤ 1)
    (h1 : ∀ i, |((l i).map GM.Cmp.w).sum - 1| ≤ ((l i).length + 1) / 2 ^ 51 + (l i).length * (1 / 2 ^ 1074))
    (hq : ∀ i, q0 ≤ 1 - ((l i).map fun g => g.w * pM i g).sum) (Q : (Fin M → Hyp.Fate N) → Prop) :
    let W := Hyp.weights (fun i j => detCost lg ex sq c (kz j) (r i) (pD i j) (z j) (R j) (l i))
      (fun i => missCost lg (r i) (pM i) (l i)) fun i => falseCost lg (r i)
    let V := Hyp.lmbWeights (fun i => r i)
      (fun i j => if etaF ex sq c (kz j) (pD i j) (z j) (R j) (l i) = 0 then 0
        else etaX (kz j) (pD i j) (z j) (R j) (l i))
      fun i => ((1 - ((l i).map fun g => g.w * pM i g).sum : ℚ) : ℝ)
    let δ : ℝ := (((33 * m + 53) * k + n + 1002) / 2 ^ 52 + (3 * n + 4) / (2 ^ 50 * q0) : ℚ)
    Hyp.bayes W Q ≤ Real.exp (2 * M * δ) * Hyp.bayes V Q ∧ Hyp.bayes V Q ≤ Real.exp (2 * M * δ) * Hyp.bayes W Q := by
  intro W V δ
  have n0 : (0 : ℚ) ≤ n := Nat.cast_nonneg _
  have hq0' : 0 < q0 := lt_of_lt_of_le (by positivity) hq0
  have hr0 : ∀ i, 0 < r i := fun i => lt_of_lt_of_le (by positivity) (hr i).2.1
  have hln : ∀ i, ((l i).length : ℚ) ≤ n := fun i => by exact_mod_cast hlen i
  have hmk : 0 ≤ (33 * m + 53) * k := by positivity
  have d1 : ∀ i, ((33 * m + 53) * k + (l i).length + 1002) / 2 ^ 52 ≤
      ((33 * m + 53) * k + n + 1002) / 2 ^ 52 + (3 * n + 4) / (2 ^ 50 * q0) := by
    intro i
    have : (0 : ℚ) ≤ (3 * n + 4) / (2 ^ 50 * q0) := by positivity
    have h2 : ((33 * m + 53) * k + (l i).length + 1002) / 2 ^ 52 ≤ ((33 * m + 53) * k + n + 1002) / 2 ^ 52 :=
      div_le_div_of_nonneg_right (by linarith [hln i]) (by positivity)
    linarith
  have d2 : ∀ i, (3 * (l i).length + 4) / (2 ^ 50 * q0) + 1002 / 2 ^ 52 ≤
      ((33 * m + 53) * k + n + 1002) / 2 ^ 52 + (3 * n + 4) / (2 ^ 50 * q0) := by
    intro i
    have h2 : (3 * ((l i).length : ℚ) + 4) / (2 ^ 50 * q0) ≤ (3 * n + 4) / (2 ^ 50 * q0) :=
      div_le_div_of_nonneg_right (by linarith [hln i]) (by positivity)
    have h3 : (1002 : ℚ) / 2 ^ 52 ≤ ((33 * m + 53) * k + n + 1002) / 2 ^ 52 :=
      div_le_div_of_nonneg_right (by linarith) (by positivity)
    linarith
  have d3 : (1002 : ℚ) / 2 ^ 52 ≤ ((33 * m + 53) * k + n + 1002) / 2 ^ 52 + (3 * n + 4) / (2 ^ 50 * q0) := by
    have : (0 : ℚ) ≤ (3 * n + 4) / (2 ^ 50 * q0) := by positivity
    have h3 : (1002 : ℚ) / 2 ^ 52 ≤ ((33 * m + 53) * k + n + 1002) / 2 ^ 52 :=
      div_le_div_of_nonneg_right (by linarith) (by positivity)
    linarith
  apply Hyp.C65_rounding (δ := δ)
  · exact fun i => by exact_mod_cast (hr0 i).le
  · exact fun i => by exact_mod_cast (hr i).2.2
  · intro i j
    split
    · exact le_rfl
    · refine List.sum_nonneg fun x hx => ?_
      obtain ⟨g, hg, rfl⟩ := List.mem_map.1 hx
      have t := hl i j g hg
      exact exact_nonneg (by exact_mod_cast t.p0) (by exact_mod_cast hkz j) (by exact_mod_cast t.w0) _ _ _ _
  · exact fun i => by exact_mod_cast (hq0'.trans_le (hq i)).le
  · intro i
    apply lt_max_of_lt_right
    have a : (0 : ℝ) < r i := by exact_mod_cast hr0 i
    have b : (0 : ℝ) < ((1 - ((l i).map fun g => g.w * pM i g).sum : ℚ) : ℝ) := by
      exact_mod_cast hq0'.trans_le (hq i)
    exact mul_pos a b
  · intro i j
    obtain ⟨a, b⟩ := C119_detect hlg hex hsq hc (hkz j) (hr i).2 hk hm0 hm (hR j) ((hlen i).trans hn) (hl i j)
    by_cases he : etaF ex sq c (kz j) (pD i j) (z j) (R j) (l i) = 0
    · rw [if_pos he, mul_zero]
      exact .inl ⟨rfl, b he⟩
    · rw [if_neg he]
      exact near_up (a he) (Rat.cast_le.2 (d1 i))
  · intro i
    refine near_up (C119_missed hlg (hr i).2 (pM i) (l i) ((hlen i).trans hn) (hw i) (hp i) (h1 i) (q0 := q0) ?_
      (hq i)) (Rat.cast_le.2 (d2 i))
    refine le_trans ?_ hq0
    exact div_le_div_of_nonneg_right (by linarith [hln i]) (by positivity)
  · intro i
    have := near_up (C119_absent hlg (hr i).1 (hr0 i).le (hr i).2.2) (Rat.cast_le.2 d3)
    rw [Rat.cast_sub, Rat.cast_one] at this
    exact this

/-! ## A concrete case -/

/-- Nothing over- or underflows for moderate values, whatever the library functions. -/
theorem safe_case {ex sq : ℚ → ℚ} (hex : ExpUlp ex) (hsq : SqrtUlp sq) {q v w pD kz : ℚ} (q1 : -(1 / 2) ≤ q)
    (q2 : q ≤ 0) (v1 : (1 / 2 ^ 10) ^ 2 ≤ v) (v2 : v ≤ 1) (w1 : 1 / 4 ≤ w) (w2 : w ≤ 1) (p1 : 1 / 4 ≤ pD)
    (p2 : pD ≤ 1) (k1 : 1 / 2 ^ 10 ≤ kz) (k2 : kz ≤ 1) :
    Safe (ex q * sq v) ∧ Safe (pD * fl (ex q * sq v)) ∧ Safe (fl (pD * fl (ex q * sq v)) / kz) ∧
      Safe (w * fl (fl (pD * fl (ex q * sq v)) / kz)) ∧
      fl (w * fl (fl (pD * fl (ex q * sq v)) / kz)) ≤ 2 ^ 500 ∧
      1 / 2 ^ 21 ≤ fl (w * fl (fl (pD * fl (ex q * sq v)) / kz)) ∧
      fl (w * fl (fl (pD * fl (ex q * sq v)) / kz)) ≤ 2 ^ 17 := by
  have e1 : 1 / 2 ≤ Real.exp q := by
    have := Real.add_one_le_exp (q : ℝ)
    have h : ((-(1 / 2) : ℚ) : ℝ) ≤ q := Rat.cast_le.2 q1
    push_cast at h
    linarith
  have e2 : Real.exp q ≤ 1 := Real.exp_le_one_iff.2 (Rat.cast_nonpos.2 q2)
  have s1 : 1 / 2 ^ 10 ≤ Real.sqrt v := Real.le_sqrt_of_sq_le (by
    have : (((1 / 2 ^ 10) ^ 2 : ℚ) : ℝ) ≤ v := Rat.cast_le.2 v1
    push_cast at this
    exact this)
  have s2 : Real.sqrt v ≤ 1 := Real.sqrt_le_one.2 (by exact_mod_cast v2)
  have x1 := abs_le.1 (hex q (by linarith) q2)
  have x2 := abs_le.1 (hsq v ((sq_nonneg _).trans v1))
  have a1 : 1 / 4 ≤ ex q := by
    have : ((1 / 4 : ℚ) : ℝ) ≤ ex q := by push_cast; linarith [x1.1]
    exact_mod_cast this
  have a2 : ex q ≤ 2 := by
    have : (ex q : ℝ) ≤ ((2 : ℚ) : ℝ) := by push_cast; linarith [x1.2]
    exact_mod_cast this
  have b1 : 1 / 2 ^ 11 ≤ sq v := by
    have : ((1 / 2 ^ 11 : ℚ) : ℝ) ≤ sq v := by push_cast; linarith [x2.1]
    exact_mod_cast this
  have b2 : sq v ≤ 2 := by
    have : (sq v : ℝ) ≤ ((2 : ℚ) : ℝ) := by push_cast; linarith [x2.2]
    exact_mod_cast this
  have c1 : 1 / 2 ^ 13 ≤ ex q * sq v := by
    have := mul_le_mul a1 b1 (by norm_num) (by linarith)
    linarith
  have c2 : ex q * sq v ≤ 4 := by
    have := mul_le_mul a2 b2 (by linarith) (by norm_num)
    linarith
  obtain ⟨r1, r2, r3⟩ := safe_pos (x := ex q * sq v) (by linarith) (by linarith)
  set t := fl (ex q * sq v) with ht
  have d1 : 1 / 2 ^ 16 ≤ pD * t := by
    have := mul_le_mul p1 (show 1 / 2 ^ 14 ≤ t by linarith) (by norm_num) (by linarith)
    linarith
  have d2 : pD * t ≤ 8 := by
    have := mul_le_mul p2 (show t ≤ 8 by linarith) (by linarith) (by norm_num)
    linarith
  obtain ⟨r4, r5, r6⟩ := safe_pos (x := pD * t) (by linarith) (by linarith)
  have k0 : 0 < kz := lt_of_lt_of_le (by norm_num) k1
  have f1 : 1 / 2 ^ 17 ≤ fl (pD * t) / kz := by
    rw [le_div_iff₀ k0]
    have := mul_le_mul_of_nonneg_left k2 (show (0 : ℚ) ≤ 1 / 2 ^ 17 by norm_num)
    linarith
  have f2 : fl (pD * t) / kz ≤ 2 ^ 14 := by
    rw [div_le_iff₀ k0]
    have := mul_le_mul_of_nonneg_left k1 (show (0 : ℚ) ≤ 2 ^ 14 by norm_num)
    linarith
  obtain ⟨r7, r8, r9⟩ := safe_pos (x := fl (pD * t) / kz) (by linarith) (by linarith)
  have g1 : 1 / 2 ^ 20 ≤ w * fl (fl (pD * t) / kz) := by
    have := mul_le_mul w1 (show 1 / 2 ^ 18 ≤ fl (fl (pD * t) / kz) by linarith) (by norm_num) (by linarith)
    linarith
  have g2 : w * fl (fl (pD * t) / kz) ≤ 2 ^ 15 := by
    have := mul_le_mul w2 (show fl (fl (pD * t) / kz) ≤ 2 ^ 15 by linarith) (by linarith) (by norm_num)
    linarith
  obtain ⟨r10, r11, r12⟩ := safe_pos (x := w * fl (fl (pD * t) / kz)) (by linarith) (by linarith)
  refine ⟨r1, r4, r7, r10, r12.trans (le_trans (b := 2 ^ 17) (by linarith) ?_), by linarith, by linarith⟩
  exact pow_le_pow_right₀ (by norm_num) (by norm_num)

/-- A target with two components of equal weight. -/
def exTarget : List Comp := [⟨(![0, 0, 1, 2], mk 100 50 4 9 50 10), 1 / 2⟩, ⟨(![1, 1, 0, 0], mk 64 64 4 9 0 0), 1 / 2⟩]

/-- Two reports. -/
def exRep (j : Fin 2) : Fin 2 → ℚ := if j = 0 then ![3, -4] else ![2, 5]

theorem exTame {ex sq : ℚ → ℚ} (hex : ExpUlp ex) (hsq : SqrtUlp sq) (j : Fin 2) :
    ∀ g ∈ exTarget, Tame ex sq 39.47841760435743 (1 / 1000) (fun _ => 9 / 10) (exRep j) (mkR 25) 2 1 g ∧
      1 / 2 ^ 21 ≤ correctW ex sq 39.47841760435743 g.w (9 / 10) (1 / 1000) g.x.1 g.x.2 (exRep j) (mkR 25) ∧
      correctW ex sq 39.47841760435743 g.w (9 / 10) (1 / 1000) g.x.1 g.x.2 (exRep j) (mkR 25) ≤ 2 ^ 17 := by
  intro g hg
  simp only [exTarget, List.mem_cons, List.not_mem_nil, or_false] at hg
  rcases hg with rfl | rfl
  · have q1 : -(1 / 2) ≤ fl (-quad (dzF ![0, 0, 1, 2] (exRep j)) (inv2 (innov (mk 100 50 4 9 50 10) (mkR 25))) *
        (1 / 2)) := by revert j; decide +kernel
    have q2 : fl (-quad (dzF ![0, 0, 1, 2] (exRep j)) (inv2 (innov (mk 100 50 4 9 50 10) (mkR 25))) *
        (1 / 2)) ≤ 0 := by revert j; decide +kernel
    obtain ⟨c1, c2, c3, c4, c5, c6, c7⟩ := safe_case hex hsq q1 q2
      (v := fl (det2 (inv2 (innov (mk 100 50 4 9 50 10) (mkR 25))) / 39.47841760435743)) (w := 1 / 2) (pD := 9 / 10)
      (kz := 1 / 1000) (by decide +kernel) (by decide +kernel) (by norm_num) (by norm_num) (by norm_num)
      (by norm_num) (by norm_num) (by norm_num)
    exact ⟨⟨mk_cov (by norm_num) (by norm_num) (by norm_num) (by norm_num), by decide +kernel, by decide +kernel,
      by clear c1 c2 c3 c4 c5 c6 c7 q1 q2; revert j; decide +kernel, by decide +kernel,
      ⟨by clear c1 c2 c3 c4 c5 c6 c7 q1 q2; revert j; decide +kernel,
      by clear c1 c2 c3 c4 c5 c6 c7 q1 q2; revert j; decide +kernel,
      by clear c1 c2 c3 c4 c5 c6 c7 q1 q2; revert j; decide +kernel, by decide +kernel, c1, c2, c3, c4⟩, by norm_num, by norm_num, c5⟩, c6, c7⟩
  · have q1 : -(1 / 2) ≤ fl (-quad (dzF ![1, 1, 0, 0] (exRep j)) (inv2 (innov (mk 64 64 4 9 0 0) (mkR 25))) *
        (1 / 2)) := by revert j; decide +kernel
    have q2 : fl (-quad (dzF ![1, 1, 0, 0] (exRep j)) (inv2 (innov (mk 64 64 4 9 0 0) (mkR 25))) *
        (1 / 2)) ≤ 0 := by revert j; decide +kernel
    obtain ⟨c1, c2, c3, c4, c5, c6, c7⟩ := safe_case hex hsq q1 q2
      (v := fl (det2 (inv2 (innov (mk 64 64 4 9 0 0) (mkR 25))) / 39.47841760435743)) (w := 1 / 2) (pD := 9 / 10)
      (kz := 1 / 1000) (by decide +kernel) (by decide +kernel) (by norm_num) (by norm_num) (by norm_num)
      (by norm_num) (by norm_num) (by norm_num)
    exact ⟨⟨mk_cov (by norm_num) (by norm_num) (by norm_num) (by norm_num), by decide +kernel, by decide +kernel,
      by clear c1 c2 c3 c4 c5 c6 c7 q1 q2; revert j; decide +kernel, by decide +kernel,
      ⟨by clear c1 c2 c3 c4 c5 c6 c7 q1 q2; revert j; decide +kernel,
      by clear c1 c2 c3 c4 c5 c6 c7 q1 q2; revert j; decide +kernel,
      by clear c1 c2 c3 c4 c5 c6 c7 q1 q2; revert j; decide +kernel, by decide +kernel, c1, c2, c3, c4⟩, by norm_num, by norm_num, c5⟩, c6, c7⟩

/-- No report is ruled out. -/
example {ex sq : ℚ → ℚ} (hex : ExpUlp ex) (hsq : SqrtUlp sq) (j : Fin 2) :
    etaF ex sq 39.47841760435743 (1 / 1000) (fun _ => 9 / 10) (exRep j) (mkR 25) exTarget ≠ 0 := by
  have hw : Weights ((exTarget.map (correctC ex sq 39.47841760435743 (1 / 1000) (fun _ => 9 / 10) (exRep j)
      (mkR 25))).map GM.Cmp.w) := by
    intro w hw
    rw [List.map_map] at hw
    obtain ⟨g, hg, rfl⟩ := List.mem_map.1 hw
    obtain ⟨t, h, -⟩ := exTame hex hsq j g hg
    obtain ⟨-, -, -, -, -, -, -, s6⟩ := t.wgt
    refine ⟨(fl_fin ?_).2, le_trans (by norm_num) h, t.big⟩
    rcases s6 with h | h
    · rw [h, abs_zero]; positivity
    · exact h.2
  obtain ⟨-, -, -, -, -, hs⟩ := fsum_spec hw (by rw [List.length_map, List.length_map]; decide +kernel)
  obtain ⟨g, hg⟩ : ∃ g, g ∈ exTarget := ⟨_, List.mem_cons_self⟩
  have h2 := (exTame hex hsq j g hg).2.1.trans (hs _ (List.mem_map_of_mem (List.mem_map_of_mem hg)))
  have h3 : eps < 1 / 2 ^ 21 := by decide +kernel
  unfold etaF GMF.normalize
  simp only
  rw [if_pos (h3.trans_le h2)]
  exact ((h3.trans_le h2).trans' (by decide +kernel)).ne'

/-- Three such targets of existence probability 1/2 and two reports: whatever the library functions, the posterior
probability of any event is right up to a factor of `exp (1 / 2^38)`. -/
example {lg ex sq : ℚ → ℚ} (hlg : LogUlp lg) (hex : ExpUlp ex) (hsq : SqrtUlp sq)
    (Q : (Fin 3 → Hyp.Fate 2) → Prop) :
    Hyp.bayes (Hyp.weights
      (fun _ j => detCost lg ex sq 39.47841760435743 (1 / 1000) (1 / 2) (fun _ => 9 / 10) (exRep j) (mkR 25) exTarget)
      (fun _ => missCost lg (1 / 2) (fun _ => 9 / 10) exTarget) fun _ => falseCost lg (1 / 2)) Q ≤
    Real.exp (1 / 2 ^ 38) * Hyp.bayes (Hyp.lmbWeights (fun _ => ((1 / 2 : ℚ) : ℝ))
      (fun _ j => if etaF ex sq 39.47841760435743 (1 / 1000) (fun _ => 9 / 10) (exRep j) (mkR 25) exTarget = 0 then 0
        else etaX (1 / 1000) (fun _ => 9 / 10) (exRep j) (mkR 25) exTarget)
      fun _ => ((1 - (exTarget.map fun g => g.w * (9 / 10)).sum : ℚ) : ℝ)) Q := by
  have h := (C119_posterior (M := 3) (N := 2) hlg hex hsq ulp_exists.2.2 (k := 2) (m := 1) (q0 := 1 / 10) (n := 2)
    (by norm_num) (by norm_num) (by norm_num) (by norm_num) (by norm_num) (by norm_num) exRep (fun _ => mkR 25)
    (fun _ => 1 / 1000) (fun _ => mkR_cov (by norm_num)) (fun _ => by norm_num) (fun _ => 1 / 2) (fun _ => exTarget)
    (fun _ _ _ => 9 / 10) (fun _ _ => 9 / 10)
    (fun _ => ⟨⟨1, -1, by norm_num, by norm_num, by norm_num, by norm_num⟩, by decide +kernel, by norm_num⟩)
    (fun _ => by decide +kernel) (fun _ j g hg => (exTame hex hsq j g hg).1) (fun _ => by decide +kernel)
    (fun _ => by decide +kernel) (fun _ => by decide +kernel) (fun _ => by decide +kernel) Q).1
  refine h.trans (mul_le_mul_of_nonneg_right (Real.exp_le_exp.2 ?_) ?_)
  · norm_num
  · have h0 : 0 ≤ Hyp.bayes (Hyp.weights (fun (_ : Fin 3) j => detCost lg ex sq 39.47841760435743 (1 / 1000) (1 / 2)
        (fun _ => 9 / 10) (exRep j) (mkR 25) exTarget) (fun _ => missCost lg (1 / 2) (fun _ => 9 / 10) exTarget)
        fun _ => falseCost lg (1 / 2)) Q :=
      div_nonneg (Hyp.evidence_nonneg (Hyp.weights_nonneg _ _ _) _) (Hyp.evidence_nonneg (Hyp.weights_nonneg _ _ _) _)
    exact nonneg_of_mul_nonneg_right (h0.trans h) (Real.exp_pos _)

end Verif.KalmanF

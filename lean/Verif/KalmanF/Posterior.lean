import Verif.KalmanF.Cost
import Verif.HypF.Posterior

/-!
# C120: from mixtures and reports to existence probabilities, all in `double` arithmetic

The costs of C119 given to the loop of C80: what `Cluster::solve` (`include/cluster.hpp:52-120`) computes in `double`
arithmetic, from the components of the targets to the existence and birth probabilities, against the exact posterior.
-/

namespace Verif.KalmanF

open Verif.GMF (fl fl_err fl_zero fl_unit fl_fin fsum fsum_spec Weights negLog missCost missed eps)
open Verif.Lap Verif.LapF Verif.HypF Verif.Murty XR

/-! ## The library -/

/-- `log` of a `double` is a `double` (`target.hpp:129`, `140`, `185`). -/
def LogDouble (lg : ℚ → ℚ) : Prop := ∀ q : ℚ, 0 < q → IsDouble q → IsDouble (lg q)

theorem double_range {q : ℚ} (hd : IsDouble q) (h0 : 0 < q) : 1 / 2 ^ 1074 ≤ q ∧ q ≤ 2 ^ 1024 := by
  obtain ⟨y, e, rfl, hy, e1, e2⟩ := hd
  have h2 : (0 : ℚ) < 2 ^ e := by positivity
  have hy0 : (0 : ℚ) < y := by
    by_contra h
    have := mul_nonpos_of_nonpos_of_nonneg (not_lt.1 h) h2.le
    linarith
  have hy1 : (1 : ℚ) ≤ y := by
    have : 0 < y := by exact_mod_cast hy0
    exact_mod_cast this
  have hy2 : (y : ℚ) ≤ 2 ^ 53 := by exact_mod_cast (abs_lt.1 hy).2.le
  constructor
  · have : (2 : ℚ) ^ (-1074 : ℤ) ≤ 2 ^ e := zpow_le_zpow_right₀ (by norm_num) e1
    have e3 : (2 : ℚ) ^ (-1074 : ℤ) = 1 / 2 ^ 1074 := by
      rw [zpow_neg, one_div]; norm_cast
    rw [e3] at this
    calc (1 : ℚ) / 2 ^ 1074 ≤ 2 ^ e := this
      _ = 1 * 2 ^ e := (one_mul _).symm
      _ ≤ y * 2 ^ e := mul_le_mul_of_nonneg_right hy1 h2.le
  · have : (2 : ℚ) ^ e ≤ 2 ^ (971 : ℤ) := zpow_le_zpow_right₀ (by norm_num) e2
    have e3 : (2 : ℚ) ^ (971 : ℤ) = 2 ^ 971 := zpow_natCast (2 : ℚ) 971
    rw [e3] at this
    calc (y : ℚ) * 2 ^ e ≤ 2 ^ 53 * 2 ^ 971 := mul_le_mul hy2 this h2.le (by positivity)
      _ = 2 ^ 1024 := (pow_add (2 : ℚ) 53 971).symm

theorem double_log {q : ℚ} (hd : IsDouble q) (h0 : 0 < q) : |Real.log q| ≤ 800 := by
  obtain ⟨h1, h2⟩ := double_range hd h0
  have l2 := Real.log_two_lt_d9
  have l20 := Real.log_two_gt_d9
  have hp' : (0 : ℝ) < q := by exact_mod_cast h0
  rw [abs_le]
  constructor
  · have : ((1 / 2 ^ 1074 : ℚ) : ℝ) ≤ q := Rat.cast_le.2 h1
    have := Real.log_le_log (by push_cast; positivity) this
    rw [Rat.cast_div, Rat.cast_one, Rat.cast_pow, Rat.cast_ofNat, Real.log_div one_ne_zero (by positivity),
      Real.log_one, Real.log_pow] at this
    push_cast at this
    linarith
  · have : (q : ℝ) ≤ ((2 ^ 1024 : ℚ) : ℝ) := Rat.cast_le.2 h2
    have := Real.log_le_log hp' this
    rw [Rat.cast_pow, Rat.cast_ofNat, Real.log_pow] at this
    push_cast at this
    linarith

/-- No `double` above 1 is closer to it than `2^-52`. -/
theorem double_gap' {r : ℚ} (hd : IsDouble r) (h1 : 1 < r) : 1 / 2 ^ 52 ≤ r - 1 := by
  obtain ⟨y, e, rfl, hy, -, -⟩ := hd
  have he : -52 ≤ e := by
    by_contra he
    have h2 : (2 : ℚ) ^ e ≤ 2 ^ (-53 : ℤ) := zpow_le_zpow_right₀ (by norm_num) (by omega)
    have h3 : (y : ℚ) ≤ 2 ^ 53 := by exact_mod_cast ((abs_lt.1 hy).2).le
    have h4 : (y : ℚ) * 2 ^ e ≤ 2 ^ 53 * 2 ^ (-53 : ℤ) := by
      calc (y : ℚ) * 2 ^ e ≤ 2 ^ 53 * 2 ^ e := mul_le_mul_of_nonneg_right h3 (by positivity)
        _ ≤ _ := mul_le_mul_of_nonneg_left h2 (by positivity)
    norm_num at h4
    linarith
  obtain ⟨t, ht⟩ := Int.eq_ofNat_of_zero_le (show 0 ≤ e + 52 by omega)
  have h2 : (2 : ℚ) ^ e = 2 ^ t / 2 ^ 52 := by
    rw [show e = (t : ℤ) - 52 by omega, zpow_sub₀ (by norm_num)]
    norm_cast
  rw [h2] at h1 ⊢
  have h3 : (2 : ℚ) ^ 52 < (y : ℚ) * 2 ^ t := by
    rw [← mul_div_assoc, one_lt_div (by positivity)] at h1
    exact h1
  have h4 : 2 ^ 52 + 1 ≤ y * 2 ^ t := by exact_mod_cast h3
  have h5 : (2 : ℚ) ^ 52 + 1 ≤ (y : ℚ) * 2 ^ t := by exact_mod_cast h4
  rw [← mul_div_assoc, le_sub_iff_add_le', le_div_iff₀ (by positivity), add_mul, div_mul_cancel₀ _ (by positivity)]
  linarith

theorem log_gap {q : ℚ} (hd : IsDouble q) (h0 : 0 < q) (h1 : q ≠ 1) : 1 / 2 ^ 900 ≤ |Real.log q| := by
  have hq : (0 : ℝ) < q := by exact_mod_cast h0
  have h900 : (1 : ℝ) / 2 ^ 900 ≤ 1 / 2 ^ 53 :=
    one_div_le_one_div_of_le (by positivity) (pow_le_pow_right₀ (by norm_num) (by norm_num))
  rcases lt_or_gt_of_ne h1 with h | h
  · have hlt : (q : ℝ) < 1 := by exact_mod_cast h
    have := Real.log_le_sub_one_of_pos hq
    rw [abs_of_nonpos (by linarith)]
    rcases double_gap hd h.le with h2 | h2
    · exact absurd (by linarith) h1
    · have h3 : ((1 / 2 ^ 900 : ℚ) : ℝ) ≤ ((1 - q : ℚ) : ℝ) := Rat.cast_le.2 h2
      rw [Rat.cast_div, Rat.cast_one, Rat.cast_pow, Rat.cast_ofNat, Rat.cast_sub, Rat.cast_one] at h3
      linarith
  · have hgt : (1 : ℝ) < q := by exact_mod_cast h
    have h2 := Real.one_sub_inv_le_log_of_pos hq
    have h3 : (1 : ℝ) / 2 ^ 52 ≤ q - 1 := by
      have := (Rat.cast_le (K := ℝ)).2 (double_gap' hd h)
      push_cast at this
      exact this
    refine le_trans ?_ (le_abs_self _)
    refine le_trans ?_ h2
    refine h900.trans ?_
    rw [le_sub_comm, inv_le_comm₀ hq (by norm_num)]
    refine le_trans ?_ (show (1 : ℝ) + 1 / 2 ^ 52 ≤ q by linarith)
    norm_num

/-- There is such a function. -/
theorem logDouble_exists : ∃ lg, LogUlp lg ∧ LogDouble lg := by
  have key : ∀ q : ℚ, ∃ p : ℚ, 0 < q →
      |(p : ℝ) - Real.log q| ≤ |Real.log q| / 2 ^ 52 ∧ (IsDouble q → IsDouble p) := by
    intro q
    by_cases hd : IsDouble q
    · by_cases h1 : q = 1
      · exact ⟨0, fun _ => ⟨by rw [h1]; simp, fun _ => RTreeF.isDouble_zero⟩⟩
      by_cases h0 : 0 < q
      swap
      · exact ⟨0, fun h => absurd h h0⟩
      have g1 := log_gap hd h0 h1
      have g2 := double_log hd h0
      set L := Real.log q with hL
      have hLp : 0 < |L| := lt_of_lt_of_le (by positivity) g1
      obtain ⟨y, y1, y2⟩ := exists_rat_btwn (show L < L + |L| / 2 ^ 54 by
        have : 0 < |L| / 2 ^ 54 := by positivity
        linarith)
      have hy : |(y : ℝ) - L| ≤ |L| / 2 ^ 54 := by rw [abs_le]; constructor <;> linarith
      have hya : |(y : ℝ)| ≤ |L| + |L| / 2 ^ 54 := by
        have := abs_sub_abs_le_abs_sub (y : ℝ) L
        linarith
      have hb : |y| ≤ 2 ^ 1000 := by
        have h3 : |L| / 2 ^ 54 ≤ |L| := div_le_self hLp.le (by norm_num)
        have h2 : ((|y| : ℚ) : ℝ) ≤ ((2 ^ 11 : ℚ) : ℝ) := by
          push_cast; linarith
        exact (Rat.cast_le.1 h2).trans (pow_le_pow_right₀ (by norm_num) (by norm_num))
      refine ⟨fl y, fun _ => ⟨?_, fun _ => (fl_fin hb).2⟩⟩
      have h4 : ((|fl y - y| : ℚ) : ℝ) ≤ ((|y| / 2 ^ 53 + tiny : ℚ) : ℝ) := Rat.cast_le.2 (fl_err hb)
      have ht : ((tiny : ℚ) : ℝ) ≤ |L| / 2 ^ 60 := by
        unfold tiny
        rw [Rat.cast_div, Rat.cast_one, Rat.cast_pow, Rat.cast_ofNat]
        have : (1 : ℝ) / 2 ^ 1074 ≤ 1 / 2 ^ 900 / 2 ^ 60 := by
          rw [div_div, ← pow_add]
          exact one_div_le_one_div_of_le (by positivity) (pow_le_pow_right₀ (by norm_num) (by norm_num))
        exact this.trans (div_le_div_of_nonneg_right g1 (by positivity))
      rw [Rat.cast_abs, Rat.cast_sub, Rat.cast_add, Rat.cast_div, Rat.cast_abs, Rat.cast_pow, Rat.cast_ofNat] at h4
      have h5 := abs_sub_le (fl y : ℝ) y L
      generalize |L| = A at *
      linarith
    · obtain ⟨lg, h⟩ := log_exists
      exact ⟨lg q, fun h0 => ⟨h q h0, fun h => absurd h hd⟩⟩
  choose f hf using key
  exact ⟨f, fun q h => (hf q h).1, fun q h => (hf q h).2⟩

/-! ## The costs are in range -/

/-- A computed cost is `+inf` or a `double` of moderate size. -/
theorem cost_double {lg : ℚ → ℚ} (hlg : LogUlp lg) (hld : LogDouble lg) {x : ℚ} (h0 : 0 ≤ x) (h1 : x ≤ 2 ^ 20) :
    negLog lg (fl x) = pinf ∨ ∃ q, negLog lg (fl x) = fin q ∧ IsDouble q ∧ |q| ≤ 2 ^ 15 ∧ -20 ≤ q := by
  have hb : |x| ≤ 2 ^ 1000 := by
    rw [abs_of_nonneg h0]
    exact h1.trans (pow_le_pow_right₀ (by norm_num) (by norm_num))
  have hd := (fl_fin hb).2
  have hz : |(0 : ℚ)| ≤ 2 ^ 1000 := by rw [abs_zero]; positivity
  have f0 : 0 ≤ fl x := fl_zero ▸ GMF.fl_mono hz hb h0
  unfold negLog
  rw [if_neg (not_lt.2 f0)]
  rcases f0.eq_or_lt with h | h
  · exact .inl (if_pos h.symm)
  · right
    rw [if_neg h.ne']
    refine ⟨_, rfl, ?_, ?_, ?_⟩
    · obtain ⟨z, e, h2, h3, h4⟩ := hld _ h hd
      exact ⟨-z, e, by rw [h2]; push_cast; ring, by rwa [abs_neg], h4⟩
    · have a := hlg _ h
      have b := double_log hd h
      have : |((lg (fl x) : ℚ) : ℝ)| ≤ ((2 ^ 15 : ℚ) : ℝ) := by
        have h5 := abs_sub_abs_le_abs_sub (lg (fl x) : ℝ) (Real.log (fl x))
        have : |Real.log (fl x)| / 2 ^ 52 ≤ 800 := (div_le_self (abs_nonneg _) (by norm_num)).trans b
        push_cast
        linarith
      rw [abs_neg]
      rw [← Rat.cast_abs] at this
      exact Rat.cast_le.1 this
    · have hf : fl x ≤ 2 ^ 21 := by
        have h3 := fl_err hb
        rw [abs_of_nonneg h0] at h3
        have h4 := (abs_le.1 h3).2
        have h5 : x / 2 ^ 53 ≤ x := div_le_self h0 (by norm_num)
        have h6 : tiny ≤ 1 := GMF.tiny_le.trans (by norm_num)
        have h7 : x / 2 ^ 53 ≤ 1 := by rw [div_le_one (by norm_num)]; linarith
        linarith
      have hr : (0 : ℝ) < (fl x : ℚ) := by exact_mod_cast h
      have h2 : Real.log (fl x : ℚ) ≤ 15 := by
        have h3 : ((fl x : ℚ) : ℝ) ≤ ((2 ^ 21 : ℚ) : ℝ) := Rat.cast_le.2 hf
        have h4 := Real.log_le_log hr h3
        rw [Rat.cast_pow, Rat.cast_ofNat, Real.log_pow] at h4
        push_cast at h4
        have := Real.log_two_lt_d9
        linarith
      have a := (abs_le.1 (hlg _ h)).2
      have b := double_log hd h
      have : |Real.log (fl x : ℚ)| / 2 ^ 52 ≤ 1 := by rw [div_le_one (by norm_num)]; linarith
      have : ((-20 : ℚ) : ℝ) ≤ ((-lg (fl x) : ℚ) : ℝ) := by push_cast; linarith
      exact Rat.cast_le.1 this

theorem etaF_nonneg (ex sq : ℚ → ℚ) (c kz : ℚ) (pD : Comp → ℚ) (z : Fin 2 → ℚ) (R : Cov2) (l : List Comp) :
    0 ≤ etaF ex sq c kz pD z R l := by
  unfold etaF GMF.normalize
  simp only
  split
  · next h => exact ((show (0 : ℚ) < eps by decide +kernel).trans h).le
  · exact le_rfl

/-- A cost close to the negative logarithm of a weight of at least 1/1024. -/
theorem near_le {δ : ℝ} {x : XR} {v : ℝ} (h : Hyp.Near δ x v) (hv : 1 / 2 ^ 10 ≤ v) (hd : δ ≤ 1) :
    ∃ q, x = fin q ∧ q ≤ 8 := by
  rcases h with ⟨h, -⟩ | ⟨h1, q, h2, h3⟩
  · rw [h] at hv
    norm_num at hv
  · refine ⟨q, h2, ?_⟩
    have h4 := Real.log_le_log (by norm_num) hv
    rw [Real.log_div one_ne_zero (by positivity), Real.log_one, Real.log_pow] at h4
    push_cast at h4
    have := Real.log_two_lt_d9
    have h5 := (abs_le.1 h3).2
    have : ((q : ℚ) : ℝ) ≤ ((8 : ℚ) : ℝ) := by push_cast; linarith
    exact Rat.cast_le.1 this

/-- From a factor to a difference. -/
theorem bayes_diff {M N : Nat} {W V : Fin M → Hyp.Fate N → ℝ} (hW : ∀ i f, 0 ≤ W i f) (hV : ∀ i f, 0 ≤ V i f)
    {E : ℝ} (hE : 1 ≤ E) {Q : (Fin M → Hyp.Fate N) → Prop}
    (h : Hyp.bayes W Q ≤ E * Hyp.bayes V Q ∧ Hyp.bayes V Q ≤ E * Hyp.bayes W Q) :
    |Hyp.bayes W Q - Hyp.bayes V Q| ≤ E - 1 := by
  have le1 : ∀ {U : Fin M → Hyp.Fate N → ℝ}, (∀ i f, 0 ≤ U i f) → 0 ≤ Hyp.bayes U Q ∧ Hyp.bayes U Q ≤ 1 := by
    intro U hU
    classical
    have a := Hyp.evidence_nonneg hU Q
    have b := Hyp.evidence_nonneg hU fun _ => True
    refine ⟨div_nonneg a b, div_le_one_of_le₀ ?_ b⟩
    unfold Hyp.evidence
    refine Finset.sum_le_sum fun e _ => ?_
    have : 0 ≤ Hyp.joint U e := Finset.prod_nonneg fun i _ => hU i _
    split
    · next h => rw [if_pos ⟨h.1, trivial⟩]
    · split
      · exact this
      · exact le_rfl
  obtain ⟨w0, w1⟩ := le1 hW
  obtain ⟨v0, v1⟩ := le1 hV
  have hE0 : 0 ≤ E - 1 := by linarith
  have a := mul_le_mul_of_nonneg_left w1 hE0
  have b := mul_le_mul_of_nonneg_left v1 hE0
  rw [abs_le]
  constructor <;> linarith [h.1, h.2]

/-! ## The result -/

/-- **C120 (from the mixtures).**  A cluster of `M` targets and `N` reports, everything computed in `double`
arithmetic with library functions of one unit in the last place: Kalman gains, weights, likelihood ratios, logarithms,
the assignment problems, the exponentials and the normalisation.  The existence probability of each target (or 0, if it
is below `1e-6`) and the weight of a birth from each report are those of the exact posterior of the LMB filter - which
rules out, as the program does, reports with a likelihood ratio of `1e-8` or less - up to the error `8 costErr + …` of
the loop, `exp (2 M δ) - 1` for the costs, `spur` (the price of writing 30000 for infinity), and the weight `T` of what
was not drawn. -/
theorem C120_program {M N : Nat} {lg ex sq : ℚ → ℚ} (hlg : LogUlp lg) (hld : LogDouble lg) (hex : ExpUlp ex)
    (hsq : SqrtUlp sq) {c k m : ℚ} {n : Nat} (hc : PowUlp c) (hk1 : 1 ≤ k) (hk : k ≤ 2 ^ 40) (hm0 : 0 ≤ m)
    (hm : m ≤ 1000) (hn : n ≤ 2 ^ 20)
    (z : Fin N → Fin 2 → ℚ) (R : Fin N → Cov2) (kz : Fin N → ℚ) (hR : ∀ j, IsCov (R j)) (hkz : ∀ j, 0 < kz j)
    (r : Fin M → ℚ) (l : Fin M → List Comp) (pD : Fin M → Fin N → Comp → ℚ) (pM : Fin M → Comp → ℚ)
    (hr : ∀ i, IsDouble (r i) ∧ 1 / 2 ^ 400 ≤ r i ∧ r i < 1) (hlen : ∀ i, (l i).length ≤ n)
    (hl : ∀ i j, ∀ g ∈ l i, Tame ex sq c (kz j) (pD i j) (z j) (R j) k m g)
    (hw : ∀ i, ∀ g ∈ l i, 0 ≤ g.w ∧ g.w ≤ 1) (hp : ∀ i, ∀ g ∈ l i, 0 ≤ pM i g ∧ pM i g ≤ 1)
    (h1 : ∀ i, |((l i).map GM.Cmp.w).sum - 1| ≤ ((l i).length + 1) / 2 ^ 51 + (l i).length * (1 / 2 ^ 1074))
    (hq : ∀ i, 1 / 512 ≤ 1 - ((l i).map fun g => g.w * pM i g).sum)
    (hE : ∀ i j, etaF ex sq c (kz j) (pD i j) (z j) (R j) (l i) ≤ 2 ^ 20)
    (hM0 : 0 < M) (hM : M ≤ 30) (hN : N + 2 * M ≤ 2 ^ 16) (ho : orderErr M N ≤ 300)
    {pick : List (Node M (N + 2 * M)) → Nat} (hpk : PickOk pick) {en : ℚ → XR} (hen : ExpOk en)
    (wlim nmax : ℚ) (hnm : nmax ≤ 2 ^ 20) :
    let C := Hyp.costMatrix (fun i j => detCost lg ex sq c (kz j) (r i) (pD i j) (z j) (R j) (l i))
      (fun i => missCost lg (r i) (pM i) (l i)) fun i => falseCost lg (r i)
    let V := Hyp.lmbWeights (fun i => r i)
      (fun i j => if etaF ex sq c (kz j) (pD i j) (z j) (R j) (l i) = 0 then 0
        else etaX (kz j) (pD i j) (z j) (R j) (l i))
      fun i => ((1 - ((l i).map fun g => g.w * pM i g).sum : ℚ) : ℝ)
    let δ : ℝ := (((33 * m + 53) * k + n + 1002) / 2 ^ 52 + (3 * n + 4) / (2 ^ 50 * (1 / 512)) : ℚ)
    ∃ (F : Nat) (a : Acc M N) (T : ℝ),
      (∀ fuel, F ≤ fuel → hypotheses pick fuel en wlim nmax C = some a) ∧
      0 < a.n ∧ a.n ≤ max 1 ⌈nmax⌉₊ ∧
      (∀ i j, ∃ x : ℚ, a.norm i j = fin x ∧
        |(x : ℝ) - Hyp.bayes V fun e => e i = Hyp.fateOf j| ≤
          8 * costErr M N + (7 * a.n + 14) / 2 ^ 52 + Hyp.spur M 8 + T + (Real.exp (2 * M * δ) - 1)) ∧
      (∀ t : Order (N + 1), t.Ok → ∀ i, ∃ s r' : ℚ, a.posterior t i = fin r' ∧
        (r' = s ∨ (r' = 0 ∧ s < 1 / 1000000 + 1 / 2 ^ 60)) ∧
        |(s : ℝ) - Hyp.bayes V fun e => e i ≠ .absent| ≤
          8 * costErr M N + (7 * a.n + 3 * N + 14) / 2 ^ 52 + Hyp.spur M 8 + T + (Real.exp (2 * M * δ) - 1)) ∧
      (∀ t : Order M, t.Ok → ∀ j, ∃ b : ℚ, a.rB t j = fin b ∧
        |(b : ℝ) - Hyp.bayes V fun e => ∀ i, e i ≠ .report j| ≤
          8 * costErr M N + (7 * a.n + 3 * M + 12) / 2 ^ 52 + Hyp.spur M 8 + T + (Real.exp (2 * M * δ) - 1)) ∧
      T ≤ ((N + 2 : Nat) : ℝ) ^ M * (Real.exp (orderErr M N) / a.n) ∧
      ((a.n : ℚ) < nmax → T ≤ ((N + 2 : Nat) : ℝ) ^ M * (Real.exp (orderErr M N) *
        (max 0 (wlim : ℝ) + 8 * costErr M N + (7 * a.n + 14) / 2 ^ 52))) ∧
      (wlim ≤ 0 → ((N + 2 * M : Nat) : ℚ) ^ M < nmax → T = 0) := by
  intro C V δ
  have n0 : (0 : ℚ) ≤ n := Nat.cast_nonneg _
  have n1 : (n : ℚ) ≤ 2 ^ 20 := by exact_mod_cast hn
  have hq0 : (3 * (n : ℚ) + 4) / 2 ^ 50 ≤ 1 / 512 := by
    rw [div_le_div_iff₀ (by norm_num) (by norm_num)]
    linarith
  have hr0 : ∀ i, 0 < r i := fun i => lt_of_lt_of_le (by positivity) (hr i).2.1
  have hln : ∀ i, ((l i).length : ℚ) ≤ n := fun i => by exact_mod_cast hlen i
  -- the entries
  have hdet : ∀ i j, detCost lg ex sq c (kz j) (r i) (pD i j) (z j) (R j) (l i) = pinf ∨
      ∃ q, detCost lg ex sq c (kz j) (r i) (pD i j) (z j) (R j) (l i) = fin q ∧ IsDouble q ∧ |q| ≤ 2 ^ 15 ∧
        -20 ≤ q := by
    intro i j
    have e0 := etaF_nonneg ex sq c (kz j) (pD i j) (z j) (R j) (l i)
    refine cost_double hlg hld (mul_nonneg (hr0 i).le e0) ?_
    have := mul_le_mul (hr i).2.2.le (hE i j) e0 zero_le_one
    linarith
  have hmiss : ∀ i, missCost lg (r i) (pM i) (l i) = pinf ∨
      ∃ q, missCost lg (r i) (pM i) (l i) = fin q ∧ IsDouble q ∧ |q| ≤ 2 ^ 15 ∧ -20 ≤ q := by
    intro i
    obtain ⟨m1, -, m3⟩ := GMF.C83_missed (pM i) (l i) ((hlen i).trans hn) (hw i) (hp i) (h1 i)
    have hpos : 0 < missed (pM i) (l i) := by
      refine m3 (lt_of_lt_of_le ?_ (hq i))
      rw [div_lt_div_iff₀ (by norm_num) (by norm_num)]
      linarith [hln i]
    refine cost_double hlg hld (mul_pos (hr0 i) hpos).le ?_
    have := mul_le_mul (hr i).2.2.le m1 hpos.le zero_le_one
    linarith
  have hfls : ∀ i, ∃ q, falseCost lg (r i) = fin q ∧ IsDouble q ∧ |q| ≤ 2 ^ 15 ∧ -20 ≤ q := by
    intro i
    have hN := C119_absent hlg (hr i).1 (hr0 i).le (hr i).2.2.le
    have hfin : ∃ q, falseCost lg (r i) = fin q := by
      rcases hN with ⟨h, -⟩ | ⟨-, q, h, -⟩
      · have : (1 - r i : ℚ) = 0 := by exact_mod_cast h
        linarith [(hr i).2.2]
      · exact ⟨q, h⟩
    obtain ⟨q, hq⟩ := hfin
    have e : falseCost lg (r i) = negLog lg (fl (1 - r i)) := if_pos (hr i).2.2
    rcases cost_double hlg hld (x := 1 - r i) (by linarith [(hr i).2.2]) (by linarith [hr0 i]) with h | h
    · rw [e, h] at hq
      cases hq
    · rw [e]
      exact h
  have hent : ∀ i j, C i j = pinf ∨ ∃ q, C i j = fin q ∧ IsDouble q ∧ |q| ≤ 2 ^ 15 ∧ -20 ≤ q := by
    intro i j
    show Hyp.costMatrix _ _ _ i j = pinf ∨ ∃ q, Hyp.costMatrix _ _ _ i j = fin q ∧ _
    unfold Hyp.costMatrix
    split
    · exact hdet _ _
    split
    · exact hmiss _
    split
    · exact .inr (hfls _)
    · exact .inr ⟨30000, rfl, ⟨30000, 0, by norm_num, by norm_num, by norm_num, by norm_num⟩, by norm_num, by norm_num⟩
  have hC : Doubles C (2 ^ 15) := by
    intro i j
    rcases hent i j with h | ⟨q, a, b, d, -⟩
    · exact .inl h
    · exact .inr ⟨q, a, b, d⟩
  have hlow : ∀ τ, Feasible C τ → -600 ≤ total C τ := by
    refine low_of_entries hM fun i j q h => ?_
    rcases hent i j with h' | ⟨p, a, -, -, d⟩
    · rw [h] at h'; cases h'
    · rw [h] at a; cases a; exact d
  -- something cheap
  have hcheap : ∀ i, (r i ≤ 1 / 2 ∧ ∃ q, falseCost lg (r i) = fin q ∧ q ≤ 8) ∨
      (1 / 2 < r i ∧ ∃ q, missCost lg (r i) (pM i) (l i) = fin q ∧ q ≤ 8) := by
    intro i
    rcases le_or_gt (r i) (1 / 2) with h | h
    · refine .inl ⟨h, near_le (C119_absent hlg (hr i).1 (hr0 i).le (hr i).2.2.le) ?_ ?_⟩
      · have : (((1 / 2 : ℚ)) : ℝ) ≤ ((1 - r i : ℚ) : ℝ) := Rat.cast_le.2 (by linarith)
        refine le_trans ?_ this
        norm_num
      · norm_num
    · refine .inr ⟨h, near_le (C119_missed hlg ⟨(hr i).2.1, (hr i).2.2.le⟩ (pM i) (l i) ((hlen i).trans hn) (hw i) (hp i)
        (h1 i) (q0 := 1 / 512) ?_ (hq i)) ?_ ?_⟩
      · refine le_trans ?_ hq0
        exact div_le_div_of_nonneg_right (by linarith [hln i]) (by positivity)
      · have := mul_le_mul h.le (hq i) (by norm_num) (hr0 i).le
        have : ((1 / 2 * (1 / 512) : ℚ) : ℝ) ≤ ((r i * (1 - ((l i).map fun g => g.w * pM i g).sum) : ℚ) : ℝ) :=
          Rat.cast_le.2 this
        rw [Rat.cast_mul (r i)] at this
        refine le_trans ?_ this
        norm_num
      · have h3 : ((3 * (l i).length + 4) / (2 ^ 50 * (1 / 512)) + 1002 / 2 ^ 52 : ℚ) ≤ 1 := by
          have : (3 * ((l i).length : ℚ) + 4) / (2 ^ 50 * (1 / 512)) ≤ 1 / 2 := by
            rw [div_le_div_iff₀ (by norm_num) (by norm_num)]
            linarith [hln i]
          norm_num at this ⊢
          linarith
        exact_mod_cast h3
  have hhigh : ∃ τ, Feasible C τ ∧ total C τ + orderErr M N ≤ 600 := by
    have hτ : ∀ i : Fin M, ∃ j : Fin (N + 2 * M), (j.val = N + i.val ∨ j.val = N + M + i.val) ∧
        ∃ q, C i j = fin q ∧ q ≤ 8 := by
      intro i
      have hi := i.2
      rcases hcheap i with ⟨-, q, a, b⟩ | ⟨-, q, a, b⟩
      · refine ⟨⟨N + M + i.val, by omega⟩, .inr rfl, q, ?_, b⟩
        show Hyp.costMatrix _ _ _ i _ = _
        unfold Hyp.costMatrix
        rw [dif_neg (by show ¬ N + M + i.val < N; omega), if_neg (by show ¬ N + M + i.val = N + i.val; omega), if_pos rfl]
        exact a
      · refine ⟨⟨N + i.val, by omega⟩, .inl rfl, q, ?_, b⟩
        show Hyp.costMatrix _ _ _ i _ = _
        unfold Hyp.costMatrix
        rw [dif_neg (by show ¬ N + i.val < N; omega), if_pos rfl]
        exact a
    choose τ t1 q t2 t3 using hτ
    refine ⟨τ, ⟨fun i j h => ?_, fun i => ⟨_, t2 i⟩⟩, ?_⟩
    · have a := t1 i
      have b := t1 j
      rw [h] at a
      have hi := i.2
      have hj := j.2
      exact Fin.ext (by omega)
    · have : total C τ ≤ 240 := by
        unfold total
        have h2 : ∀ i ∈ (Finset.univ : Finset (Fin M)), (C i (τ i)).val ≤ 8 := fun i _ => by rw [t2 i]; exact t3 i
        have h3 := Finset.sum_le_sum h2
        have h4 : (M : ℚ) ≤ 30 := by exact_mod_cast hM
        rw [Finset.sum_const, Finset.card_univ, Fintype.card_fin, nsmul_eq_mul] at h3
        linarith
      linarith
  obtain ⟨F, a, T, g1, g2, g3, g4, g5, g6, g7, g8, g9⟩ := C120_posterior (B := 8) hC
    (fun i => ⟨_, (hfls i).choose_spec.1⟩) (by
      intro i
      rcases hcheap i with ⟨-, q, a, b⟩ | ⟨-, q, a, b⟩
      · exact ⟨q, .inl a, b⟩
      · exact ⟨q, .inr a, b⟩) hlow hhigh hM0 hM hN hpk hen wlim nmax hnm
  -- the costs
  have hpost := C119_posterior (q0 := 1 / 512) hlg hex hsq hc hk1 hk hm0 hm hn hq0 z R kz hR hkz r l pD pM
    (fun i => ⟨(hr i).1, (hr i).2.1, (hr i).2.2.le⟩) hlen hl hw hp h1 hq
  have hδ : 0 ≤ δ := by
    have : (0 : ℚ) ≤ ((33 * m + 53) * k + n + 1002) / 2 ^ 52 + (3 * n + 4) / (2 ^ 50 * (1 / 512)) := by positivity
    exact Rat.cast_nonneg.2 this
  have hV : ∀ i f, 0 ≤ V i f := by
    intro i f
    have a : (0 : ℝ) ≤ r i := by exact_mod_cast (hr0 i).le
    cases f with
    | report j =>
      refine mul_nonneg a ?_
      show 0 ≤ if etaF ex sq c (kz j) (pD i j) (z j) (R j) (l i) = 0 then 0 else etaX (kz j) (pD i j) (z j) (R j) (l i)
      split
      · exact le_rfl
      · refine List.sum_nonneg fun x hx => ?_
        obtain ⟨g, hg, rfl⟩ := List.mem_map.1 hx
        have t := hl i j g hg
        exact exact_nonneg (by exact_mod_cast t.p0) (by exact_mod_cast hkz j) (by exact_mod_cast t.w0) _ _ _ _
    | missed =>
      have : (0 : ℚ) ≤ 1 - ((l i).map fun g => g.w * pM i g).sum := le_trans (by norm_num) (hq i)
      exact mul_nonneg a (Rat.cast_nonneg.2 this)
    | absent =>
      have : (r i : ℝ) ≤ 1 := by exact_mod_cast (hr i).2.2.le
      exact (by linarith : (0 : ℝ) ≤ 1 - r i)
  have hd : ∀ Q : (Fin M → Hyp.Fate N) → Prop, |Hyp.bayes (Hyp.weights
      (fun i j => detCost lg ex sq c (kz j) (r i) (pD i j) (z j) (R j) (l i))
      (fun i => missCost lg (r i) (pM i) (l i)) fun i => falseCost lg (r i)) Q - Hyp.bayes V Q| ≤
      Real.exp (2 * M * δ) - 1 := fun Q =>
    bayes_diff (Hyp.weights_nonneg _ _ _) hV (Real.one_le_exp (by positivity)) (hpost Q)
  have hsplit : ∀ {x y z u v : ℝ}, |x - y| ≤ u → |y - z| ≤ v → |x - z| ≤ u + v := by
    intro x y z u v h1 h2
    have := abs_sub_le x y z
    linarith
  refine ⟨F, a, T, g1, g2, g3, ?_, ?_, ?_, g7, g8, g9⟩
  · intro i j
    obtain ⟨x, x1, x2⟩ := g4 i j
    exact ⟨x, x1, hsplit x2 (hd _)⟩
  · intro t ht i
    obtain ⟨s, r', s1, s2, s3⟩ := g5 t ht i
    exact ⟨s, r', s1, s2, hsplit s3 (hd _)⟩
  · intro t ht j
    obtain ⟨b, b1, b2⟩ := g6 t ht j
    exact ⟨b, b1, hsplit b2 (hd _)⟩

/-! ## A concrete case -/

theorem exEta {ex sq : ℚ → ℚ} (hex : ExpUlp ex) (hsq : SqrtUlp sq) (j : Fin 2) :
    etaF ex sq 39.47841760435743 (1 / 1000) (fun _ => 9 / 10) (exRep j) (mkR 25) exTarget ≤ 2 ^ 20 := by
  have hw : Weights ((exTarget.map (correctC ex sq 39.47841760435743 (1 / 1000) (fun _ => 9 / 10) (exRep j)
      (mkR 25))).map GM.Cmp.w) := by
    intro w hw
    rw [List.map_map] at hw
    obtain ⟨g, hg, rfl⟩ := List.mem_map.1 hw
    obtain ⟨t, h, -⟩ := exTame hex hsq j g hg
    obtain ⟨-, -, -, -, -, -, -, s6⟩ := t.wgt
    refine ⟨(fl_fin ?_).2, le_trans (by norm_num) h, t.big⟩
    rcases s6 with h | h
    · rw [h, abs_zero]; positivity
    · exact h.2
  have hlen : ((exTarget.map (correctC ex sq 39.47841760435743 (1 / 1000) (fun _ => 9 / 10) (exRep j)
      (mkR 25))).map GM.Cmp.w).length = 2 := by rw [List.length_map, List.length_map]; rfl
  obtain ⟨-, -, -, hs, -, -⟩ := fsum_spec hw (by rw [hlen]; norm_num)
  have hr := (GMF.rho_len (n := 2) (by norm_num)).2
  have hsum : ((exTarget.map (correctC ex sq 39.47841760435743 (1 / 1000) (fun _ => 9 / 10) (exRep j)
      (mkR 25))).map GM.Cmp.w).sum ≤ 2 * 2 ^ 17 := by
    have := GMF.sum_le_card (ws := (exTarget.map (correctC ex sq 39.47841760435743 (1 / 1000) (fun _ => 9 / 10) (exRep j)
      (mkR 25))).map GM.Cmp.w) (B := 2 ^ 17) (by
        intro w hw
        rw [List.map_map] at hw
        obtain ⟨g, hg, rfl⟩ := List.mem_map.1 hw
        exact (exTame hex hsq j g hg).2.2)
    rw [hlen] at this
    exact_mod_cast this
  rw [hlen] at hs
  unfold etaF GMF.normalize
  simp only
  split
  · refine hs.trans ?_
    have := mul_le_mul hsum hr (rho_pow_pos 2).le (by norm_num)
    exact this.trans (by norm_num)
  · show (0 : ℚ) ≤ 2 ^ 20
    norm_num

/-- Three such targets of existence probability 1/2 and two reports, no limits on the hypotheses: whatever the library
functions, the existence probabilities are those of the exact posterior up to `1e-6`. -/
example {lg ex sq : ℚ → ℚ} (hlg : LogUlp lg) (hld : LogDouble lg) (hex : ExpUlp ex) (hsq : SqrtUlp sq)
    {en : ℚ → XR} (hen : ExpOk en) :
    ∃ (F : Nat) (a : Acc 3 2), (∀ fuel, F ≤ fuel → hypotheses firstBest fuel en 0 1000 (Hyp.costMatrix
      (fun _ j => detCost lg ex sq 39.47841760435743 (1 / 1000) (1 / 2) (fun _ => 9 / 10) (exRep j) (mkR 25) exTarget)
      (fun _ => missCost lg (1 / 2) (fun _ => 9 / 10) exTarget) fun _ => falseCost lg (1 / 2)) = some a) ∧
    ∀ t : Order 3, t.Ok → ∀ i, ∃ s r' : ℚ, a.posterior t i = fin r' ∧
      (r' = s ∨ (r' = 0 ∧ s < 1 / 1000000 + 1 / 2 ^ 60)) ∧
      |(s : ℝ) - Hyp.bayes (Hyp.lmbWeights (fun _ => ((1 / 2 : ℚ) : ℝ))
        (fun _ j => if etaF ex sq 39.47841760435743 (1 / 1000) (fun _ => 9 / 10) (exRep j) (mkR 25) exTarget = 0 then 0
          else etaX (1 / 1000) (fun _ => 9 / 10) (exRep j) (mkR 25) exTarget)
        fun _ => ((1 - (exTarget.map fun g => g.w * (9 / 10)).sum : ℚ) : ℝ)) fun e => e i ≠ .absent| ≤
        1 / 10 ^ 6 := by
  obtain ⟨F, a, T, g1, g2, g3, -, g5, -, -, -, g9⟩ := C120_program (M := 3) (N := 2) hlg hld hex hsq
    ulp_exists.2.2 (k := 2) (m := 1) (n := 2)
    (by norm_num) (by norm_num) (by norm_num) (by norm_num) (by norm_num) exRep (fun _ => mkR 25)
    (fun _ => 1 / 1000) (fun _ => mkR_cov (by norm_num)) (fun _ => by norm_num) (fun _ => 1 / 2) (fun _ => exTarget)
    (fun _ _ _ => 9 / 10) (fun _ _ => 9 / 10)
    (fun _ => ⟨⟨1, -1, by norm_num, by norm_num, by norm_num, by norm_num⟩, by decide +kernel, by norm_num⟩)
    (fun _ => by decide +kernel) (fun _ j g hg => (exTame hex hsq j g hg).1) (fun _ => by decide +kernel)
    (fun _ => by decide +kernel) (fun _ => by decide +kernel) (fun _ => by decide +kernel)
    (fun _ j => exEta hex hsq j) (by norm_num) (by norm_num) (by norm_num) (by decide +kernel)
    MurtyF.firstBest_ok hen 0 1000 (by norm_num)
  refine ⟨F, a, g1, fun t ht i => ?_⟩
  obtain ⟨s, r', s1, s2, s3⟩ := g5 t ht i
  refine ⟨s, r', s1, s2, s3.trans ?_⟩
  rw [g9 le_rfl (by norm_num)]
  have hn : (a.n : ℝ) ≤ 1000 := by
    have : a.n ≤ 1000 := g3.trans (by norm_num)
    exact_mod_cast this
  have e1 : (costErr 3 2 : ℝ) ≤ 1 / 10 ^ 7 := by
    have : costErr 3 2 ≤ 1 / 10 ^ 7 := by unfold costErr; norm_num
    have := (Rat.cast_le (K := ℝ)).2 this
    push_cast at this
    exact this
  have e2 : Hyp.spur 3 8 ≤ 1 / 10 ^ 8 := by
    unfold Hyp.spur
    have h1 : Real.exp (((8 : ℚ) : ℝ) - 30000) ≤ 1 / 10 ^ 10 := by
      rw [show (((8 : ℚ) : ℝ) - 30000) = -(29992 : ℝ) by norm_num, Real.exp_neg, one_div]
      apply inv_anti₀ (by norm_num)
      have h2 : (2 : ℝ) ^ 40 ≤ Real.exp 40 := by
        have := Real.add_one_le_exp (1 : ℝ)
        have h3 : (2 : ℝ) ≤ Real.exp 1 := by linarith
        calc (2 : ℝ) ^ 40 ≤ Real.exp 1 ^ 40 := pow_le_pow_left₀ (by norm_num) h3 40
          _ = Real.exp 40 := by rw [← Real.exp_nat_mul]; norm_num
      have h3 : Real.exp 40 ≤ Real.exp 29992 := Real.exp_le_exp.2 (by norm_num)
      refine le_trans ?_ (h2.trans h3)
      norm_num
    have h0 := Real.exp_pos (((8 : ℚ) : ℝ) - 30000)
    have h4 : 1 + 2 * ((3 : ℕ) : ℝ) * Real.exp (((8 : ℚ) : ℝ) - 30000) ≤ 1 + 6 / 10 ^ 10 := by
      push_cast at h1 ⊢
      linarith
    have h5 := pow_le_pow_left₀ (by positivity) h4 3
    have h6 : (1 + 6 / 10 ^ 10 : ℝ) ^ 3 - 1 ≤ 1 / 10 ^ 8 := by norm_num
    linarith
  have e3 : Real.exp (2 * (3 : ℕ) * ((((33 * 1 + 53) * 2 + (2 : ℕ) + 1002) / 2 ^ 52 +
      (3 * (2 : ℕ) + 4) / (2 ^ 50 * (1 / 512)) : ℚ) : ℝ)) - 1 ≤ 1 / 10 ^ 8 := by
    have h1 : (2 * (3 : ℕ) * ((((33 * 1 + 53) * 2 + (2 : ℕ) + 1002) / 2 ^ 52 +
      (3 * (2 : ℕ) + 4) / (2 ^ 50 * (1 / 512)) : ℚ) : ℝ)) ≤ 1 / 10 ^ 9 := by norm_num
    have h2 := Real.exp_le_exp.2 h1
    have h3 := Real.exp_bound_div_one_sub_of_interval (x := 1 / 10 ^ 9) (by norm_num) (by norm_num)
    have h4 : (1 / (1 - 1 / 10 ^ 9) : ℝ) ≤ 1 + 1 / 10 ^ 8 := by norm_num
    linarith
  push_cast at e3 ⊢
  have e4 : (7 * (a.n : ℝ) + 3 * 2 + 14) / 2 ^ 52 ≤ 1 / 10 ^ 8 := by
    rw [div_le_div_iff₀ (by norm_num) (by norm_num)]
    linarith
  norm_num at e1 e2 e3 e4 ⊢
  linarith

end Verif.KalmanF

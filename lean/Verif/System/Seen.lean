import Verif.System.Watched
import Verif.System.Scan
import Verif.Tracker.Seen
import Verif.CF.Props

/-!
# C105: a target that is seen is confirmed

A scan with a report near a target raises the odds of its existence by the likelihood ratio of the
report.  It can raise the existence probability to exactly 1.
-/

namespace Verif.System

open Verif.Tracker Matrix
open Verif.Lap (XR)
open Verif.Murty (PickOk)
open Verif.Hyp

theorem ew_antitone : Antitone ew := by
  intro p q h
  unfold ew
  exact Real.exp_le_exp.2 (by exact_mod_cast neg_le_neg h)

/-- Report `z`, number `j` of the scan, and the target `t` at address `a` touch only each other. -/
def Pair (k : Opts) (s : St Pdf) (scan : List (Rep Rpt)) (a : Nat) (t : Tgt Pdf) (j : Nat)
    (z : Rep Rpt) : Prop :=
  s.heap a = some t ∧ scan[j]? = some z ∧ (k.rbox z.val).1.Touch t.pdf.box.1 ∧
  (∀ i z', scan[i]? = some z' → (k.rbox z'.val).1.Touch t.pdf.box.1 → i = j) ∧
  ∀ b t', s.heap b = some t' → (k.rbox z.val).1.Touch t'.pdf.box.1 → b = a

/-- The likelihood ratio of the report for the target, `target.hpp:129`, `cluster.hpp:56-60`: `eta` of the
corrected density in their common frame. -/
noncomputable def seenRatio (sn : PSens) (a : Nat) (t : Tgt Pdf) (z : Rpt) : ℝ :=
  let o := center [z.1.x, pos t.pdf]
  (correctMix (sn.pdDet a (rLocal o z)) (rLocal o z) (toLocal o t.pdf).mix).eta

/-- The probability to miss the target, `target.hpp:140`. -/
noncomputable def missProb (sn : PSens) (a : Nat) (t : Tgt Pdf) : ℝ :=
  1 - missedEta (sn.pdMiss a) t.pdf.mix

/-- The weight of "not there", `target.hpp:183-189`: `1 - r`, and the fixed cost 30000 for a target that
is certain. -/
noncomputable def absent (r : ℝ) : ℝ := if r < 1 then 1 - r else Real.exp (-30000)

theorem absent_lt {r : ℝ} (h : r < 1) : absent r = 1 - r := if_pos h

theorem absent_pos (r : ℝ) : 0 < absent r := by
  unfold absent
  split
  · linarith
  · exact Real.exp_pos _

/-- The cost of "not there" is finite, and its weight is `absent` up to the error of the logarithms. -/
theorem absent_cost {k : Opts} {sn : PSens} (hs : SensOk sn) {δ : ℝ}
    (hlog : ∀ x, 0 ≤ x → Near δ (sn.lg x) x) (r : ℝ) : ∃ q, (sensor k sn).flsCost r = XR.fin q ∧
      ew q ≤ Real.exp δ * absent r ∧ absent r ≤ Real.exp δ * ew q := by
  by_cases h : r < 1
  · have hnf := near_weight (hlog (1 - r) (by linarith))
    obtain ⟨q, hq⟩ : ∃ q, sn.lg (1 - r) = XR.fin q := hs.pos _ (by linarith)
    rw [hq] at hnf
    refine ⟨q, ?_, ?_⟩
    · change (if r < 1 then sn.lg (1 - r) else XR.fin 30000) = _
      rw [if_pos h, hq]
    · rw [absent_lt h]
      exact hnf
  · have hδ : 1 ≤ Real.exp δ := by
      rcases hlog 1 zero_le_one with ⟨h0, _⟩ | ⟨_, q, _, h1⟩
      · norm_num at h0
      · exact Real.one_le_exp ((abs_nonneg _).trans h1)
    have hw : ew 30000 = Real.exp (-30000) := by unfold ew; norm_num
    have ha : absent r = Real.exp (-30000) := if_neg h
    refine ⟨30000, ?_, ?_⟩
    · change (if r < 1 then sn.lg (1 - r) else XR.fin 30000) = _
      rw [if_neg h]
    · rw [hw, ha]
      have := mul_le_mul_of_nonneg_right hδ (Real.exp_pos (-30000)).le
      constructor <;> linarith

theorem seen_scan {k : Opts} (hk : OptsOk k) {prm : Params} (hB0 : 0 ≤ prm.rBmax)
    (hB1 : prm.rBmax ≤ 1) (hw : prm.wlim ≤ 1) (hn : 2 < prm.nhypMax) {δ : ℝ}
    {calls : List (Call Pdf Rpt)} (hc : ∀ c ∈ calls, SysCall k prm c) {fuel : Nat} {s : St Pdf}
    (e : run (env k) prm fuel calls St.empty = some s) {sn : PSens} (hs : SensOk sn)
    (hlog : ∀ x, 0 ≤ x → Near δ (sn.lg x) x) {ch : Choices} (hwt : ch.wt = ew)
    {scan : List (Rep Rpt)} {dflt : Rep Rpt} (hsys : SysCall k prm (.correct (sensor k sn) ch scan dflt))
    {a j : Nat} {t : Tgt Pdf} {z : Rep Rpt} (hpair : Pair k s scan a t j z)
    {s1 : St Pdf} {reps : Nat → Rep Rpt}
    (e1 : correct (env k) (sensor k sn) prm ch fuel scan dflt s = some (s1, reps)) :
    ∃ (u : Tgt Pdf) (d x y d' x' y' : ℝ), u.id = t.id ∧ Kept prm.wlim d x y d' x' y' ∧
      0 < d' + x' + y' ∧ 0 ≤ d ∧ 0 ≤ x ∧ 0 < y ∧
      t.r * seenRatio sn a t z.val ≤ Real.exp δ * d ∧
      x ≤ Real.exp δ * (t.r * missProb sn a t) ∧ t.r * missProb sn a t ≤ Real.exp δ * x ∧
      y ≤ Real.exp δ * absent t.r ∧
      (u.r = (d' + x') / (d' + x' + y') ∨
        ((d' + x') / (d' + x' + y') < 1 / 1000000 ∧ u.r = 0)) ∧
      (prm.rlim ≤ u.r → covNorm u.pdf ≤ prm.covlim → s1.heap a = some u) ∧
      (u.r < prm.rlim ∨ prm.covlim < covNorm u.pdf → ∀ w, s1.heap a = some w →
        ∃ i < scan.length, w.id = (s.idc + i) % 2 ^ 32) ∧
      ((d' + x') / (d' + x' + y') < 1 / 1000000 ∨
        u.pdf = toGlobal k (joinPdf k (toLocal (center [z.val.1.x, pos t.pdf]) t.pdf)
          [d' / (d' + x' + y'), x' / (d' + x' + y')]
          [(sensor k sn).upd a (toLocal (center [z.val.1.x, pos t.pdf]) t.pdf)
            (rLocal (center [z.val.1.x, pos t.pdf]) z.val),
           (sensor k sn).missPdf a (toLocal (center [z.val.1.x, pos t.pdf]) t.pdf)])) := by
  obtain ⟨ht, hj, hit, hone, hmine⟩ := hpair
  obtain ⟨⟨hr0, _⟩, _, _, hcmp, hsum, _⟩ := C66_densities_proper hk hB0 hB1 hc e a t ht
  set o := center [z.val.1.x, pos t.pdf] with ho
  set p := toLocal o t.pdf with hp
  set zl := rLocal o z.val with hzl
  have heta : seenRatio sn a t z.val = (correctMix (sn.pdDet a zl) zl p.mix).eta := rfl
  have heta0 : 0 ≤ seenRatio sn a t z.val := by
    rw [heta]
    unfold correctMix
    obtain ⟨h1, h2⟩ := GM.C37_normalize (⟨p.mix.c.mapIdx fun i g =>
      ofG (Kalman.correct Kalman.posH (sn.pdDet a zl i) zl.1 (toG g)), p.mix.eta⟩ : GM.Mix GX ℝ)
    rcases lt_or_ge (1 / 100000000 : ℝ) (((⟨p.mix.c.mapIdx fun i g =>
      ofG (Kalman.correct Kalman.posH (sn.pdDet a zl i) zl.1 (toG g)), p.mix.eta⟩ :
        GM.Mix GX ℝ).c.map GM.Cmp.w).sum) with h | h
    · rw [(h1 h).2.1]
      exact (lt_trans (by norm_num) h).le
    · rw [(h2 h).2]
  have hme : missedEta (sn.pdMiss a) p.mix = missedEta (sn.pdMiss a) t.pdf.mix :=
    missedEta_toLocal _ _ _
  have hm0 : 0 ≤ missProb sn a t := by
    have := (missedEta_bounds (hs.miss a) (m := t.pdf.mix) hcmp).2
    rw [hsum] at this
    unfold missProb
    linarith
  have hnd := hlog _ (mul_nonneg hr0 heta0)
  have hnm := hlog _ (mul_nonneg hr0 hm0)
  obtain ⟨qf, hfls, hy1, hy2⟩ := absent_cost (k := k) hs hlog t.r
  have weight : ∀ {c : XR} {w : ℝ}, Near δ c w → MissWeight ch.wt c (costWeight c) := by
    intro c w h
    rw [hwt]
    rcases h with ⟨_, h⟩ | ⟨_, q, h, _⟩
    · exact Or.inr ⟨h, by rw [h]; rfl⟩
    · exact Or.inl ⟨q, h, by rw [h]; rfl⟩
  have nonneg : ∀ {c : XR} {w : ℝ}, Near δ c w → 0 ≤ costWeight c := by
    intro c w h
    rcases h with ⟨_, h⟩ | ⟨_, q, h, _⟩
    · rw [h]; exact le_refl _
    · rw [h]; exact (ew_pos q).le
  have hdw : MissWeight ch.wt ((sensor k sn).detCost a t.r p zl)
      (costWeight (sn.lg (t.r * seenRatio sn a t z.val))) := weight hnd
  have hmw : MissWeight ch.wt ((sensor k sn).missCost a t.r p)
      (costWeight (sn.lg (t.r * missProb sn a t))) := by
    have : (sensor k sn).missCost a t.r p = sn.lg (t.r * missProb sn a t) := by
      change sn.lg (t.r * (1 - missedEta (sn.pdMiss a) p.mix)) = _
      rw [hme]
      rfl
    rw [this]
    exact weight hnm
  have hd0 := nonneg hnd
  have hx0 := nonneg hnm
  have hy0 : 0 < ew qf := ew_pos qf
  obtain ⟨u, d', x', y', u1, u2, u3, u4, u5, u6⟩ := C105_seen (env_box k) prm fuel calls
    (fun c h => sysCall_ok (hc c h)) s e (sensor k sn) ch scan dflt (sysCall_ok hsys) hsys.2.2.1
    (by rw [hwt]; exact ew_antitone) (by rw [hwt]; exact fun q => (ew_pos q).le) s1 reps e1 a t ht hj
    hit hone hmine hw hn (o := o) (p := p) (zl := zl) rfl rfl rfl hdw hmw ⟨hfls, by rw [hwt]⟩
    (by linarith)
  refine ⟨u, _, _, ew qf, d', x', y', u1, u2, u3, hd0, hx0, hy0, (near_weight hnd).2,
    (near_weight hnm).1, (near_weight hnm).2, hy1, ?_, fun h1 h2 => (u5 h1 h2).1, u6, ?_⟩
  · rcases u4 with ⟨_, h, _⟩ | ⟨h1, h2, _⟩
    · exact Or.inl h
    · exact Or.inr ⟨h1, h2⟩
  · rcases u4 with ⟨_, _, h, _⟩ | ⟨h1, _⟩
    · exact Or.inr h
    · exact Or.inl h1

/-- **C105** After any history, a scan with a report near a target raises the odds of its existence: if
the report and the target touch only each other, and the report is `lam` times as likely from the
target as from clutter, the odds are multiplied by at least `lam` (up to the error of the logarithms, and
in spite of the hypotheses that are left out).  So the target lives on, unless its covariance is too
large. -/
theorem C105_confirmed {k : Opts} (hk : OptsOk k) {prm : Params} (hB0 : 0 ≤ prm.rBmax)
    (hB1 : prm.rBmax ≤ 1) (hw : prm.wlim ≤ 1) (hn : 2 < prm.nhypMax) {δ : ℝ}
    {calls : List (Call Pdf Rpt)} (hc : ∀ c ∈ calls, SysCall k prm c) {fuel : Nat} {s : St Pdf}
    (e : run (env k) prm fuel calls St.empty = some s) {sn : PSens} (hs : SensOk sn)
    (hlog : ∀ x, 0 ≤ x → Near δ (sn.lg x) x) {ch : Choices} (hwt : ch.wt = ew)
    {scan : List (Rep Rpt)} {dflt : Rep Rpt} (hsys : SysCall k prm (.correct (sensor k sn) ch scan dflt))
    {a j : Nat} {t : Tgt Pdf} {z : Rep Rpt} (hpair : Pair k s scan a t j z) (hr1 : t.r < 1)
    (hr6 : 1 / 1000000 ≤ t.r) {s1 : St Pdf} {reps : Nat → Rep Rpt}
    (e1 : correct (env k) (sensor k sn) prm ch fuel scan dflt s = some (s1, reps))
    {lam : ℝ} (hlam : Real.exp (2 * δ) ≤ lam) (hseen : lam ≤ seenRatio sn a t z.val) :
    ∃ u : Tgt Pdf, u.id = t.id ∧ t.r ≤ u.r ∧ u.r ≤ 1 ∧
      lam * Real.exp (-(2 * δ)) * t.r * (1 - u.r) ≤ u.r * (1 - t.r) ∧
      (prm.rlim ≤ t.r → covNorm u.pdf ≤ prm.covlim → s1.heap a = some u) ∧
      (prm.covlim < covNorm u.pdf → ∀ w, s1.heap a = some w →
        ∃ i < scan.length, w.id = (s.idc + i) % 2 ^ 32) := by
  have ht := hpair.1
  obtain ⟨⟨hr0, _⟩, _, _, hcmp, hsum, _⟩ := C66_densities_proper hk hB0 hB1 hc e a t ht
  obtain ⟨u, d, x, y, d', x', y', u1, hK, hW, hd0, hx0, hy0, hd, hx, _, hy, hu, hlive, hgone, _⟩ :=
    seen_scan hk hB0 hB1 hw hn hc e hs hlog hwt hsys hpair e1
  rw [absent_lt hr1] at hy
  have hrpos : 0 < t.r := lt_of_lt_of_le (by norm_num) hr6
  have hm1 : missProb sn a t ≤ 1 := by
    have := (missedEta_bounds (hs.miss a) (m := t.pdf.mix) hcmp).1
    unfold missProb
    linarith
  have hE : 0 < Real.exp δ := Real.exp_pos _
  have hE2 : Real.exp (2 * δ) = Real.exp δ * Real.exp δ := by rw [← Real.exp_add]; ring_nf
  have hEi : Real.exp (-(2 * δ)) * (Real.exp δ * Real.exp δ) = 1 := by
    rw [← hE2, ← Real.exp_add]; simp
  set E := Real.exp δ with hEdef
  set c := lam * Real.exp (-(2 * δ)) with hc'
  have hc1 : 1 ≤ c := by
    have := mul_le_mul_of_nonneg_right hlam (Real.exp_pos (-(2 * δ))).le
    rw [hE2, mul_comm, hEi] at this
    exact this
  have hcE : lam = c * (E * E) := by
    rw [hc', mul_assoc, hEi, mul_one]
  -- detected weighs at least `c E r`
  have hd1 : c * E * t.r ≤ d := by
    have h1 : t.r * lam ≤ E * d := (mul_le_mul_of_nonneg_left hseen hr0).trans hd
    rw [hcE] at h1
    have h2 : E * (c * E * t.r) ≤ E * d := by
      calc E * (c * E * t.r) = t.r * (c * (E * E)) := by ring
        _ ≤ _ := h1
    exact le_of_mul_le_mul_left h2 hE
  have hxd : x ≤ d := by
    calc x ≤ E * (t.r * missProb sn a t) := hx
      _ ≤ E * (t.r * 1) := by gcongr
      _ = 1 * E * t.r := by ring
      _ ≤ c * E * t.r := by gcongr
      _ ≤ d := hd1
  -- what is kept
  have hkey : d * y' ≤ (d' + x') * y ∧ 0 ≤ y' ∧ 0 ≤ d' + x' := by
    rcases hK with ⟨rfl, rfl, rfl, _⟩ | ⟨rfl, rfl, rfl, h1, _⟩ | ⟨rfl, rfl, rfl, _⟩ | ⟨rfl, rfl, rfl, _⟩
    · refine ⟨?_, hy0.le, by linarith⟩
      exact mul_le_mul_of_nonneg_right (by linarith) hy0.le
    · refine ⟨?_, hy0.le, by linarith⟩
      exact mul_le_mul_of_nonneg_right (by linarith) hy0.le
    · refine ⟨?_, hy0.le, by linarith⟩
      exact mul_le_mul_of_nonneg_right (by linarith) hy0.le
    · refine ⟨?_, le_refl _, by linarith⟩
      rw [mul_zero]
      exact mul_nonneg (by linarith) hy0.le
  obtain ⟨k1, k2, k3⟩ := hkey
  have hodds : c * t.r * y' ≤ (d' + x') * (1 - t.r) := by
    -- multiply by `y E`
    have hyE : 0 < y := hy0
    have h1 : c * E * t.r * y' ≤ (d' + x') * y := (mul_le_mul_of_nonneg_right hd1 k2).trans k1
    have h2 : (d' + x') * y ≤ (d' + x') * (E * (1 - t.r)) := mul_le_mul_of_nonneg_left hy k3
    have h3 : E * (c * t.r * y') ≤ E * ((d' + x') * (1 - t.r)) := by
      calc E * (c * t.r * y') = c * E * t.r * y' := by ring
        _ ≤ _ := h1.trans h2
        _ = _ := by ring
    exact le_of_mul_le_mul_left h3 hE
  set q := (d' + x') / (d' + x' + y') with hq
  have hq1 : 1 - q = y' / (d' + x' + y') := by
    rw [hq, eq_div_iff hW.ne', sub_mul, div_mul_cancel₀ _ hW.ne']
    ring
  have hoq : c * t.r * (1 - q) ≤ q * (1 - t.r) := by
    rw [hq1, hq, ← mul_div_assoc, div_mul_eq_mul_div]
    exact div_le_div_of_nonneg_right hodds hW.le
  have hqle : q ≤ 1 := by
    rw [hq]
    exact div_le_one_of_le₀ (by linarith) hW.le
  have hrq : t.r ≤ q := by
    have : 1 * t.r * (1 - q) ≤ c * t.r * (1 - q) :=
      mul_le_mul_of_nonneg_right (mul_le_mul_of_nonneg_right hc1 hr0) (by linarith)
    linarith
  have hur : u.r = q := by
    rcases hu with h | ⟨h, _⟩
    · exact h
    · linarith
  refine ⟨u, u1, by rw [hur]; exact hrq, by rw [hur]; exact hqle, by rw [hur]; exact hoq, ?_,
    fun h => hgone (Or.inr h)⟩
  intro h1 h2
  exact hlive (by rw [hur]; linarith) h2

/-- **C105** But it can go too far.  If "not there" is less likely than "missed", and "missed" less
likely than `w_lim` times "detected", the loop leaves "not there" out, and the existence probability
becomes exactly 1, in exact arithmetic. -/
theorem C105_certain {k : Opts} (hk : OptsOk k) {prm : Params} (hB0 : 0 ≤ prm.rBmax)
    (hB1 : prm.rBmax ≤ 1) (hw0 : 0 ≤ prm.wlim) (hw : prm.wlim ≤ 1) (hn : 2 < prm.nhypMax) {δ : ℝ}
    {calls : List (Call Pdf Rpt)} (hc : ∀ c ∈ calls, SysCall k prm c) {fuel : Nat} {s : St Pdf}
    (e : run (env k) prm fuel calls St.empty = some s) {sn : PSens} (hs : SensOk sn)
    (hlog : ∀ x, 0 ≤ x → Near δ (sn.lg x) x) {ch : Choices} (hwt : ch.wt = ew)
    {scan : List (Rep Rpt)} {dflt : Rep Rpt} (hsys : SysCall k prm (.correct (sensor k sn) ch scan dflt))
    {a j : Nat} {t : Tgt Pdf} {z : Rep Rpt} (hpair : Pair k s scan a t j z) (hr1 : t.r < 1)
    {s1 : St Pdf} {reps : Nat → Rep Rpt}
    (e1 : correct (env k) (sensor k sn) prm ch fuel scan dflt s = some (s1, reps))
    (hthere : Real.exp (2 * δ) * (1 - t.r) < t.r * missProb sn a t)
    (hseen : Real.exp (2 * δ) * missProb sn a t < prm.wlim * seenRatio sn a t z.val) :
    ∃ u : Tgt Pdf, u.id = t.id ∧ u.r = 1 ∧
      (prm.rlim ≤ 1 → covNorm u.pdf ≤ prm.covlim → s1.heap a = some u) ∧
      (1 < prm.rlim ∨ prm.covlim < covNorm u.pdf → ∀ w, s1.heap a = some w →
        ∃ i < scan.length, w.id = (s.idc + i) % 2 ^ 32) ∧
      ∃ w x : ℝ, 0 < w ∧ 0 ≤ x ∧ w + x = 1 ∧ x ≤ prm.wlim * w ∧
        u.pdf = toGlobal k (joinPdf k (toLocal (center [z.val.1.x, pos t.pdf]) t.pdf) [w, x]
          [(sensor k sn).upd a (toLocal (center [z.val.1.x, pos t.pdf]) t.pdf)
            (rLocal (center [z.val.1.x, pos t.pdf]) z.val),
           (sensor k sn).missPdf a (toLocal (center [z.val.1.x, pos t.pdf]) t.pdf)]) := by
  have ht := hpair.1
  obtain ⟨⟨hr0, _⟩, _⟩ := C66_densities_proper hk hB0 hB1 hc e a t ht
  obtain ⟨u, d, x, y, d', x', y', u1, hK, hW, hd0, hx0, hy0, hd, hx, hx2, hy, hu, hlive, hgone, hpdf⟩ :=
    seen_scan hk hB0 hB1 hw hn hc e hs hlog hwt hsys hpair e1
  rw [absent_lt hr1] at hy
  have hE : 0 < Real.exp δ := Real.exp_pos _
  have hE2 : Real.exp (2 * δ) = Real.exp δ * Real.exp δ := by rw [← Real.exp_add]; ring_nf
  rw [hE2] at hthere hseen
  set E := Real.exp δ with hEdef
  have hrpos : 0 < t.r := by
    rcases hr0.lt_or_eq with h | h
    · exact h
    · rw [← h, zero_mul] at hthere
      have := mul_nonneg (mul_nonneg hE.le hE.le) (by linarith : (0 : ℝ) ≤ 1 - 0)
      linarith
  have hyx : y < x := by
    refine lt_of_mul_lt_mul_left ?_ hE.le
    calc E * y ≤ E * (E * (1 - t.r)) := by gcongr
      _ = E * E * (1 - t.r) := by ring
      _ < t.r * missProb sn a t := hthere
      _ ≤ E * x := hx2
  have hxw : x < prm.wlim * d := by
    refine lt_of_mul_lt_mul_left ?_ hE.le
    calc E * x ≤ E * (E * (t.r * missProb sn a t)) := by gcongr
      _ = t.r * (E * E * missProb sn a t) := by ring
      _ < t.r * (prm.wlim * seenRatio sn a t z.val) := by gcongr
      _ = prm.wlim * (t.r * seenRatio sn a t z.val) := by ring
      _ ≤ prm.wlim * (E * d) := by gcongr
      _ = E * (prm.wlim * d) := by ring
  have hxd : x < d := by
    have := mul_le_mul_of_nonneg_right hw hd0
    linarith
  have hcut : x < prm.wlim * (d + x) := by
    have := mul_nonneg hw0 hx0
    linarith
  have hkept : d' = d ∧ x' = x ∧ y' = 0 := by
    rcases hK with ⟨_, _, _, _, _, h⟩ | ⟨_, _, _, h, _⟩ | ⟨_, _, _, _, h, _⟩ | ⟨h1, h2, h3, _⟩
    · exact absurd ⟨by linarith, hyx, Or.inr hcut⟩ h
    · linarith
    · linarith
    · exact ⟨h1, h2, h3⟩
  obtain ⟨rfl, rfl, rfl⟩ := hkept
  have hq : (d' + x') / (d' + x' + 0) = 1 := by
    rw [add_zero]
    exact div_self (by linarith)
  rw [hq] at hu hpdf
  have hur : u.r = 1 := by
    rcases hu with h | ⟨h, _⟩
    · exact h
    · norm_num at h
  refine ⟨u, u1, hur, fun h1 h2 => hlive (by rw [hur]; exact h1) h2, fun h => hgone (by rw [hur]; exact h), _, _,
    ?_, ?_, ?_, ?_, hpdf.resolve_left (by norm_num)⟩
  · exact div_pos (by linarith) hW
  · exact div_nonneg hx0 hW.le
  · rw [← add_div]
    exact hq
  · rw [← mul_div_assoc]
    exact div_le_div_of_nonneg_right hxw.le hW.le

/-! ## A concrete case -/

theorem cov_same {c : List Cmp} {x0 : Fin 4 → ℝ} (hx : ∀ g ∈ c, g.x.1 = x0) (hw : ∀ g ∈ c, 0 ≤ g.w)
    (hs : c = [] ∨ (c.map GM.Cmp.w).sum = 1) {i j : Fin 4} (hP : ∀ g ∈ c, |g.x.2 i j| ≤ 1) :
    |Kalman.cov (c.map toG) i j| ≤ 1 := by
  rcases hs with rfl | hs
  · simp [Kalman.cov, Kalman.covAt]
  have hm : Kalman.mean (c.map toG) = x0 := by
    rw [Kalman.mean_eq, List.map_map]
    have : (c.map ((fun g : Kalman.Gauss 4 => g.w • g.x) ∘ toG)) = c.map fun g => g.w • x0 := by
      apply List.map_congr_left
      intro g hg
      show g.w • g.x.1 = _
      rw [hx g hg]
    rw [this]
    have h2 : ∀ l : List Cmp, (l.map fun g => g.w • x0).sum = (l.map GM.Cmp.w).sum • x0 := by
      intro l
      induction l with
      | nil => simp
      | cons g l ih => simp [ih, add_smul]
    rw [h2, hs, one_smul]
  unfold Kalman.cov
  rw [Kalman.covAt_eq, hm, List.map_map]
  have h1 : (c.map ((fun g : Kalman.Gauss 4 => g.w • (g.P + vecMulVec (g.x - x0) (g.x - x0))) ∘ toG)) =
      c.map fun g => g.w • g.x.2 := by
    apply List.map_congr_left
    intro g hg
    show g.w • (g.x.2 + vecMulVec (g.x.1 - x0) (g.x.1 - x0)) = _
    rw [hx g hg, sub_self]
    simp
  rw [h1]
  have h3 : ∀ l : List Cmp, (∀ g ∈ l, 0 ≤ g.w) → (∀ g ∈ l, |g.x.2 i j| ≤ 1) →
      |(l.map fun g => g.w • g.x.2).sum i j| ≤ (l.map GM.Cmp.w).sum := by
    intro l
    induction l with
    | nil => intro _ _; simp
    | cons g l ih =>
      intro h1 h2
      have := ih (fun g h => h1 g (List.mem_cons_of_mem _ h)) fun g h => h2 g (List.mem_cons_of_mem _ h)
      simp only [List.map_cons, List.sum_cons, Matrix.add_apply, Matrix.smul_apply, smul_eq_mul]
      refine (abs_add_le _ _).trans (add_le_add ?_ this)
      rw [abs_mul, abs_of_nonneg (h1 g List.mem_cons_self)]
      exact mul_le_of_le_one_right (h1 g List.mem_cons_self) (h2 g List.mem_cons_self)
  rw [← hs]
  exact h3 c hw hP

/-- A sensor that detects a target with probability 0.7. -/
noncomputable def exEye : PSens := { exSens with pdDet := fun _ _ _ => 7 / 10, pdMiss := fun _ _ => 7 / 10 }

theorem exEye_ok : SensOk exEye := by
  obtain ⟨h1, _, _, h4, h5, h6⟩ := exSens_ok
  refine ⟨h1, fun _ _ _ => ?_, fun _ _ => ⟨?_, ?_⟩, h4, h5, h6⟩ <;> norm_num [exEye]

/-- A report at a place where there is little clutter. -/
noncomputable def exClear (x : LL) : Rpt := ⟨⟨x, 1, 1 / 10000⟩, Matrix.PosDef.one, by norm_num⟩

/-- A scan with one report. -/
noncomputable def exLook (x : LL) : Call Pdf Rpt :=
  .correct (sensor exOpts2 exEye) exCh [⟨exClear x, none, 0⟩] ⟨exRpt 0 0, none, 0⟩

theorem exLook_ok (x : LL) : SysCall exOpts2 exPrm (exLook x) :=
  ⟨⟨_, exEye_ok, rfl⟩, exCh_ok, exCh_pick, fun q => (ew_pos q).le, by
    show (3 * ((1 : ℕ) : ℝ) + 4) / 100000000 < 1 / 20
    norm_num⟩

theorem exLook_costs (x : LL) : CallCosts (exLook x) := by
  have hl : ∀ x, XR.IsC (exEye.lg x) := by
    intro x
    by_cases h : 0 < x
    · exact Or.inr ⟨_, if_pos h⟩
    · exact Or.inl (if_neg h)
  refine ⟨⟨fun _ _ _ _ => hl _, fun _ _ _ => hl _, fun r => ?_⟩, exCh_pick⟩
  change XR.IsFin (if _ then _ else _)
  split
  · rename_i hr
    exact exEye_ok.pos _ (by linarith)
  · exact ⟨_, rfl⟩

theorem posH_self : Kalman.posH * (1 : Matrix (Fin 4) (Fin 4) ℝ) * Kalman.posHᵀ + 1 =
    (2 : ℝ) • (1 : Matrix (Fin 2) (Fin 2) ℝ) := by
  rw [Matrix.mul_one]
  ext i j
  fin_cases i <;> fin_cases j <;>
    simp [Kalman.posH, Matrix.vecMul, dotProduct, Fin.sum_univ_four] <;> norm_num

theorem half_inv : ((2 : ℝ) • (1 : Matrix (Fin 2) (Fin 2) ℝ))⁻¹ =
    (1 / 2 : ℝ) • (1 : Matrix (Fin 2) (Fin 2) ℝ) := by
  apply Matrix.inv_eq_right_inv
  rw [Matrix.smul_mul, Matrix.mul_smul, smul_smul, Matrix.mul_one]
  norm_num

/-- The target that one look starts. -/
theorem exBorn : ∃ s a t g, run (env exOpts2) exPrm 0 [exLook 0] St.empty = some s ∧
    s.heap a = some t ∧ s.targets = [a] ∧ t.r = 4 / 5 ∧ t.pdf.mix.c = [g] ∧ g.w = 1 ∧ g.x.2 = 1 ∧
    t.pdf.box = exBox := by
  have hok := sysCall_ok (exLook_ok 0)
  obtain ⟨s, reps, new, h1, h2, _, h3, h4, _⟩ := C58_unreached_scan (env_box exOpts2) exPrm 0 []
    (by simp) St.empty rfl (sensor exOpts2 exEye) exCh [⟨exClear 0, none, 0⟩] ⟨exRpt 0 0, none, 0⟩ hok
    (by rintro a ⟨t, ht, _⟩; simp [St.empty] at ht)
  have hl : new.length = 1 := h4 (by show (1 : ℝ) / 20 ≤ (1 : ℕ); norm_num)
    (by show (1 : ℝ) / 20 ≤ 1 / (1 : ℕ); norm_num)
  obtain ⟨a, rfl⟩ := List.length_eq_one_iff.1 hl
  obtain ⟨t, ht, hr⟩ := h3 a (by simp)
  obtain ⟨y, hy, o, ho⟩ := first_scan (env_box exOpts2) exPrm 0 (sensor exOpts2 exEye) exCh
    [⟨exClear 0, none, 0⟩] ⟨exRpt 0 0, none, 0⟩ hok s reps h1 a t ht
  rw [List.mem_singleton] at hy
  subst hy
  obtain ⟨g, hg, hw, hP⟩ : ∃ g : Cmp, t.pdf.mix.c = [g] ∧ g.w = 1 ∧
      g.x.2 = (Kalman.init1 1 (exClear 0).1).P := by
    rw [ho]
    exact ⟨_, rfl, rfl, rfl⟩
  refine ⟨s, a, t, g, ?_, ht, by simpa [St.empty] using h2, ?_, hg, hw, ?_, by rw [ho]; rfl⟩
  · simp only [exLook, run, step, h1, Option.map_some]
  · rw [hr]
    show min ((1 : ℝ) / (1 : ℕ)) (4 / 5) = 4 / 5
    norm_num
  · rw [hP]
    ext i j
    fin_cases i <;> fin_cases j <;> simp [Kalman.init1, exClear]

/-- The concrete case for `C105_seen`, `C105_confirmed` and `C105_certain`: a second report in the same
place, 400 times as likely from the target as from clutter.  The odds rise by 400, and the existence
probability goes from 0.8 to 1. -/
theorem exAgain : ∃ F s s2 a t u, run (env exOpts2) exPrm F [exLook 0] St.empty = some s ∧
    s.heap a = some t ∧ t.r = 4 / 5 ∧
    run (env exOpts2) exPrm F [exLook 0, exLook (pos t.pdf)] St.empty = some s2 ∧
    (∃ v : Tgt Pdf, v.id = t.id ∧
      400 * Real.exp (-(2 * (1 / 2 ^ 40))) * t.r * (1 - v.r) ≤ v.r * (1 - t.r)) ∧
    s2.heap a = some u ∧ u.r = 1 := by
  obtain ⟨s, a, t, g, h1, h2, h3, h4, h5, h6, h7, h8⟩ := exBorn
  obtain ⟨q, hq⟩ : ∃ q, q = pos t.pdf := ⟨_, rfl⟩
  have hqg : q = head g.x.1 := by
    rw [hq]
    unfold pos
    rw [Kalman.mean_eq, h5]
    simp [toG, h6]
  have hc1 : ∀ c ∈ [exLook 0], SysCall exOpts2 exPrm c := by
    intro c hc
    rw [List.mem_singleton] at hc
    subst hc
    exact exLook_ok 0
  have hc2 : ∀ c ∈ [exLook 0, exLook q], SysCall exOpts2 exPrm c := by
    intro c hc
    simp only [List.mem_cons, List.not_mem_nil, or_false] at hc
    rcases hc with rfl | rfl <;> exact exLook_ok _
  obtain ⟨F, s2, hF⟩ := C26_defined (env_box exOpts2) exPrm [exLook 0, exLook q]
    (fun c h => sysCall_ok (hc2 c h))
    (by
      intro c hc
      simp only [List.mem_cons, List.not_mem_nil, or_false] at hc
      rcases hc with rfl | rfl <;> exact exLook_costs _)
    (by simp [exLook, Call.reports])
  have hF := hF F (le_refl _)
  have hrun := run_mono (Nat.zero_le F) _ _ _ h1
  have hst : run (env exOpts2) exPrm F [exLook q] s = some s2 := by
    have : [exLook 0, exLook q] = [exLook 0] ++ [exLook q] := rfl
    rw [this, run_append, hrun, Option.bind_some] at hF
    exact hF
  obtain ⟨s2', reps, hcor, rfl⟩ : ∃ s2' reps, correct (env exOpts2) (sensor exOpts2 exEye) exPrm exCh F
      [⟨exClear q, none, 0⟩] ⟨exRpt 0 0, none, 0⟩ s = some (s2', reps) ∧ s2' = s2 := by
    simp only [exLook, run, step] at hst
    cases hx : correct (env exOpts2) (sensor exOpts2 exEye) exPrm exCh F
      [⟨exClear q, none, 0⟩] ⟨exRpt 0 0, none, 0⟩ s with
    | none => simp [hx] at hst
    | some y =>
      obtain ⟨y1, y2⟩ := y
      simp only [hx, Option.map_some, Option.some.injEq] at hst
      exact ⟨y1, y2, rfl, hst⟩
  have htouch : exBox.1.Touch exBox.1 := ⟨0, 0, by norm_num [exBox, RTree.Rect.Mem],
    by norm_num [exBox, RTree.Rect.Mem]⟩
  have hinv := run_inv (env_box exOpts2) (Inv.empty _) (fun c h => sysCall_ok (hc1 c h)) hrun
  have hpair : Pair exOpts2 s [⟨exClear q, none, 0⟩] a t 0 ⟨exClear q, none, 0⟩ := by
    refine ⟨h2, rfl, ?_, ?_, ?_⟩
    · rw [h8]; exact htouch
    · intro i z' hi _
      have := (List.getElem?_eq_some_iff.1 hi).1
      simpa using this
    · intro b t' hb _
      have := (hinv.ok.live b).1 ⟨t', hb⟩
      rw [h3] at this
      simpa using this
  -- the frame
  have hcen : center [(exClear q).1.x, pos t.pdf] = q := by
    show (1 / ((2 : ℕ) : ℝ)) • (q + (pos t.pdf + 0)) = q
    rw [← hq, add_zero]
    ext i
    simp
    ring
  have hzero : CF.ll2ne q q = 0 := (CF.C49_ne q q q).2.1
  set gl : Cmp := ⟨(setHead 0 g.x.1, 1), 1⟩ with hgl
  have hloc : (toLocal q t.pdf).mix.c = [gl] := by
    show cLocal q t.pdf.mix.c = _
    rw [h5]
    simp only [cLocal, List.map_cons, List.map_nil, ← hqg, hzero, hgl, h6, h7]
  have hinn : Kalman.innov Kalman.posH (rLocal q (exClear q)).1 (toG gl) = 0 := by
    unfold Kalman.innov
    have : (rLocal q (exClear q)).1.x = 0 := hzero
    rw [this]
    ext i
    fin_cases i <;> simp [Kalman.posH, toG, hgl, setHead, Matrix.mulVec, dotProduct, Fin.sum_univ_four]
  have hD : Kalman.dinv Kalman.posH (rLocal q (exClear q)).1 (toG gl) =
      (1 / 2 : ℝ) • (1 : Matrix (Fin 2) (Fin 2) ℝ) := by
    unfold Kalman.dinv
    have : Kalman.posH * (toG gl).P * Kalman.posHᵀ + (rLocal q (exClear q)).1.P =
        (2 : ℝ) • (1 : Matrix (Fin 2) (Fin 2) ℝ) := posH_self
    rw [this, half_inv]
  set gc := Kalman.correct Kalman.posH (7 / 10) (rLocal q (exClear q)).1 (toG gl) with hgc
  have hw : 400 ≤ gc.w := by
    have e1 : gc.w = 1 * (7 / 10 * Kalman.likelihood 0 ((1 / 2 : ℝ) • (1 : Matrix (Fin 2) (Fin 2) ℝ)) /
        (1 / 10000)) := by
      rw [hgc]
      unfold Kalman.correct
      rw [hinn, hD]
      rfl
    have e2 : 1 / 16 ≤ Kalman.likelihood 0 ((1 / 2 : ℝ) • (1 : Matrix (Fin 2) (Fin 2) ℝ)) := by
      unfold Kalman.likelihood
      have : ((1 / 2 : ℝ) • (1 : Matrix (Fin 2) (Fin 2) ℝ)).det = 1 / 4 := by
        rw [Matrix.det_smul]
        norm_num
      rw [this, zero_dotProduct, neg_zero, zero_mul, Real.exp_zero, one_mul]
      apply Real.le_sqrt_of_sq_le
      have h4 := Real.pi_le_four
      have h0 := Real.pi_pos
      rw [le_div_iff₀ (by positivity)]
      have : Real.pi ^ 2 ≤ 4 ^ 2 := pow_le_pow_left₀ h0.le h4 2
      calc (1 / 16 : ℝ) ^ 2 * (2 * Real.pi) ^ 2 = Real.pi ^ 2 / 64 := by ring
        _ ≤ 4 ^ 2 / 64 := by gcongr
        _ = _ := by norm_num
    rw [e1]
    linarith
  have hcm : ∀ pd : Nat → ℝ, pd 0 = 7 / 10 → correctMix pd (rLocal q (exClear q)) (toLocal q t.pdf).mix =
      GM.normalize ⟨[ofG gc], (toLocal q t.pdf).mix.eta⟩ := by
    intro pd hpd
    unfold correctMix
    rw [hloc]
    simp [hpd, hgc]
  have hbig : (1 : ℝ) / 100000000 < (([ofG gc] : List Cmp).map GM.Cmp.w).sum := by
    simp only [List.map_cons, List.map_nil, List.sum_cons, List.sum_nil, add_zero, ofG]
    linarith
  have hratio : 400 ≤ seenRatio exEye a t (exClear q) := by
    unfold seenRatio
    simp only [hcen]
    rw [hcm _ rfl, ((GM.C37_normalize _).1 hbig).2.1]
    simpa [ofG] using hw
  have hmiss : missProb exEye a t = 3 / 10 := by
    unfold missProb missedEta
    rw [h5]
    simp [exEye, h6]
    norm_num
  have hexp : Real.exp (2 * (1 / 2 ^ 40)) ≤ 11 / 10 := by
    have h := Real.add_one_le_exp (-(2 * (1 / 2 ^ 40 : ℝ)))
    have h0 := Real.exp_pos (2 * (1 / 2 ^ 40 : ℝ))
    have h1 : Real.exp (2 * (1 / 2 ^ 40 : ℝ)) * Real.exp (-(2 * (1 / 2 ^ 40 : ℝ))) = 1 := by
      rw [← Real.exp_add]; simp
    have h2 : Real.exp (2 * (1 / 2 ^ 40 : ℝ)) * (10 / 11) ≤ 1 := by
      refine le_of_le_of_eq (mul_le_mul_of_nonneg_left ?_ h0.le) h1
      refine le_trans ?_ h
      norm_num
    linarith
  obtain ⟨u, _, hu1, hlive, _, w, x, hw0, hx0, _, _, hpdf⟩ := C105_certain exOpts2_ok (prm := exPrm)
    (by show (0 : ℝ) ≤ 4 / 5; norm_num) (by show (4 / 5 : ℝ) ≤ 1; norm_num)
    (by show (0 : ℝ) ≤ 1 / 100; norm_num) (by show (1 / 100 : ℝ) ≤ 1; norm_num)
    (by show (2 : ℝ) < 100; norm_num) (δ := 1 / 2 ^ 40) hc1 hrun exEye_ok exSens_near rfl
    (exLook_ok q) hpair (by rw [h4]; norm_num) hcor
    (by rw [h4, hmiss]; linarith)
    (by
      rw [hmiss]
      show _ < (1 / 100 : ℝ) * _
      linarith)
  -- the covariance stays small
  have hsmall : covNorm u.pdf ≤ 150 := by
    rw [hpdf]
    simp only [hcen]
    have hupd : ((sensor exOpts2 exEye).upd a (toLocal q t.pdf) (rLocal q (exClear q))).mix.c =
        [⟨(gc.x, gc.P), 1⟩] := by
      show (correctMix (exEye.pdDet a (rLocal q (exClear q))) (rLocal q (exClear q))
        (toLocal q t.pdf).mix).c = _
      rw [hcm _ rfl, GM.normalize_c _ hbig]
      have : gc.w ≠ 0 := by linarith
      simp [ofG, this]
    have hmis : ((sensor exOpts2 exEye).missPdf a (toLocal q t.pdf)).mix.c = [gl] := hloc
    obtain ⟨m, kept, dropped, j1, j2, _, _, _, _, j3, j4⟩ := GM.C38_join exOpts2.srt exOpts2_ok.srt
      exOpts2.lim exOpts2.mx [w, x] [[⟨(gc.x, gc.P), 1⟩], [gl]] rfl
      (by simp [hw0.le, hx0])
    have hjoin : (joinPdf exOpts2 (toLocal q t.pdf) [w, x]
        [(sensor exOpts2 exEye).upd a (toLocal q t.pdf) (rLocal q (exClear q)),
         (sensor exOpts2 exEye).missPdf a (toLocal q t.pdf)]) = { toLocal q t.pdf with mix := m } := by
      unfold joinPdf
      rw [List.map_cons, List.map_cons, List.map_nil, hupd, hmis, j1]
    rw [hjoin]
    have hgx : gc.x = setHead 0 g.x.1 := by
      rw [hgc]
      unfold Kalman.correct
      rw [hinn]
      simp [toG, hgl]
    have hgP : ∀ i j : Fin 4, |gc.P i j| ≤ 1 := by
      intro i j
      have : gc.P = 1 - ((1 : Matrix (Fin 4) (Fin 4) ℝ) * Kalman.posHᵀ *
          ((1 / 2 : ℝ) • (1 : Matrix (Fin 2) (Fin 2) ℝ))) * Kalman.posH * 1 := by
        rw [hgc]
        unfold Kalman.correct Kalman.gain
        rw [hD]
        rfl
      rw [this]
      rw [Matrix.mul_smul, Matrix.mul_one, Matrix.one_mul, Matrix.mul_one, Matrix.smul_mul]
      fin_cases i <;> fin_cases j <;>
        norm_num [Kalman.posH, Matrix.mul_apply, Fin.sum_univ_two, Matrix.transpose_apply, Matrix.one_apply]
    have hmem : ∀ h ∈ m.c, h.x.1 = setHead 0 g.x.1 ∧ 0 ≤ h.w ∧ ∀ i j, |h.x.2 i j| ≤ 1 := by
      rcases lt_or_ge (1 / 100000000 : ℝ) ((kept.map GM.Cmp.w).sum) with hb | hb
      · rw [(j3 hb).1]
        intro h hh
        obtain ⟨b, hb1, rfl⟩ := List.mem_map.1 hh
        have : b ∈ ([w, x].zip [[(⟨(gc.x, gc.P), 1⟩ : Cmp)], [gl]]).flatMap
            fun y => y.2.map fun g => (⟨g.x, y.1 * g.w⟩ : Cmp) :=
          j2.mem_iff.1 (List.mem_append_left _ hb1)
        simp only [List.zip_cons_cons, List.zip_nil_right, List.flatMap_cons, List.flatMap_nil, List.map_cons,
          List.map_nil, List.append_nil, List.cons_append, List.nil_append, List.mem_cons,
          List.not_mem_nil, or_false, mul_one] at this
        have hpos : 0 < (kept.map GM.Cmp.w).sum := lt_trans (by norm_num) hb
        rcases this with rfl | rfl
        · exact ⟨hgx, div_nonneg hw0.le hpos.le, hgP⟩
        · refine ⟨rfl, div_nonneg (by simpa [hgl] using hx0) hpos.le, ?_⟩
          intro i j
          show |(1 : Matrix (Fin 4) (Fin 4) ℝ) i j| ≤ 1
          by_cases hij : i = j
          · subst hij; simp
          · simp [Matrix.one_apply_ne hij]
      · rw [(j4 hb).1]
        simp
    have hsum : m.c = [] ∨ (m.c.map GM.Cmp.w).sum = 1 := by
      rcases lt_or_ge (1 / 100000000 : ℝ) ((kept.map GM.Cmp.w).sum) with hb | hb
      · exact Or.inr (j3 hb).2.1
      · exact Or.inl (j4 hb).1
    have hent : ∀ i j, |Kalman.cov ((cGlobal q m.c).map toG) i j| ≤ 1 := by
      intro i j
      apply cov_same (x0 := setHead (CF.ne2ll (head (setHead 0 g.x.1)) q) (setHead 0 g.x.1))
      · intro h hh
        obtain ⟨b, hb, rfl⟩ := List.mem_map.1 hh
        show setHead (CF.ne2ll (head b.x.1) q) b.x.1 = _
        rw [(hmem b hb).1]
      · intro h hh
        obtain ⟨b, hb, rfl⟩ := List.mem_map.1 hh
        exact (hmem b hb).2.1
      · rcases hsum with h | h
        · left; simp [cGlobal, h]
        · right
          rw [← h]
          unfold cGlobal
          rw [List.map_map]
          rfl
      · intro h hh
        obtain ⟨b, hb, rfl⟩ := List.mem_map.1 hh
        exact (hmem b hb).2.2 i j
    show Real.sqrt _ ≤ 150
    apply Real.sqrt_le_iff.2
    refine ⟨by norm_num, ?_⟩
    have sq : ∀ i j, Kalman.cov ((cGlobal q m.c).map toG) i j * Kalman.cov ((cGlobal q m.c).map toG) i j ≤ 1 := by
      intro i j
      have := (sq_le_one_iff_abs_le_one _).2 (hent i j)
      rwa [sq] at this
    have := sq 0 0
    have := sq 0 1
    have := sq 1 0
    have := sq 1 1
    refine le_trans (add_le_add (add_le_add (add_le_add (sq 0 0) (sq 0 1)) (sq 1 0)) (sq 1 1)) ?_
    norm_num
  have hfin := hlive (by show (1 : ℝ) / 20 ≤ 1; norm_num) hsmall
  obtain ⟨u', k1, _, _, k2, _⟩ := C105_confirmed exOpts2_ok (prm := exPrm)
    (by show (0 : ℝ) ≤ 4 / 5; norm_num) (by show (4 / 5 : ℝ) ≤ 1; norm_num)
    (by show (1 / 100 : ℝ) ≤ 1; norm_num)
    (by show (2 : ℝ) < 100; norm_num) (δ := 1 / 2 ^ 40) hc1 hrun exEye_ok exSens_near rfl
    (exLook_ok q) hpair (by rw [h4]; norm_num) (by rw [h4]; norm_num) hcor (lam := 400)
    (by linarith) hratio
  refine ⟨F, s, _, a, t, u, hrun, h2, h4, hq ▸ hF, ⟨u', k1, k2⟩, hfin, hu1⟩

/-- **C105 refuted for the other direction** In exact arithmetic, with the default parameters, two reports
in the same place make the tracker certain that there is a target: its existence probability is 1, though
the sensor detects a target with probability 0.7 only and there is clutter. -/
theorem C105_doubt_refuted : ¬ ∀ (fuel : Nat) (calls : List (Call Pdf Rpt)) (s : St Pdf) (a : Nat)
    (t : Tgt Pdf), (∀ c ∈ calls, SysCall exOpts2 exPrm c) →
    run (env exOpts2) exPrm fuel calls St.empty = some s → s.heap a = some t → t.r < 1 := by
  intro H
  obtain ⟨F, s, s2, a, t, u, _, _, _, h1, _, h2, h3⟩ := exAgain
  have := H F _ _ a u (by
    intro c hc
    simp only [List.mem_cons, List.not_mem_nil, or_false] at hc
    rcases hc with rfl | rfl <;> exact exLook_ok _) h1 h2
  rw [h3] at this
  exact lt_irrefl _ this

end Verif.System

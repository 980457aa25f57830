import Verif.System.Seen
import Verif.Tracker.Explained

/-!
# C106: what a report that a target explains starts

A report that a target explains well starts no second target.  One that is explained a little less well
starts one, whose existence probability does not depend on how well the report is explained.
-/

namespace Verif.System

open Verif.Tracker Matrix
open Verif.Lap (XR)
open Verif.Murty (PickOk)
open Verif.Hyp

theorem seenRatio_nonneg (sn : PSens) (a : Nat) (t : Tgt Pdf) (z : Rpt) : 0 ≤ seenRatio sn a t z := by
  unfold seenRatio
  simp only
  set o := center [z.1.x, pos t.pdf]
  set p := toLocal o t.pdf
  set zl := rLocal o z
  unfold correctMix
  obtain ⟨h1, h2⟩ := GM.C37_normalize (⟨p.mix.c.mapIdx fun i g =>
    ofG (Kalman.correct Kalman.posH (sn.pdDet a zl i) zl.1 (toG g)), p.mix.eta⟩ : GM.Mix GX ℝ)
  rcases lt_or_ge (1 / 100000000 : ℝ) (((⟨p.mix.c.mapIdx fun i g =>
    ofG (Kalman.correct Kalman.posH (sn.pdDet a zl i) zl.1 (toG g)), p.mix.eta⟩ :
      GM.Mix GX ℝ).c.map GM.Cmp.w).sum) with h | h
  · rw [(h1 h).2.1]
    exact (lt_trans (by norm_num) h).le
  · rw [(h2 h).2]

/-- The share `rB` of a report that touches one target only, in terms of the likelihoods. -/
theorem share_scan {k : Opts} (hk : OptsOk k) {prm : Params} (hB0 : 0 ≤ prm.rBmax)
    (hB1 : prm.rBmax ≤ 1) (hw : prm.wlim ≤ 1) (hn : 2 < prm.nhypMax) {δ : ℝ}
    {calls : List (Call Pdf Rpt)} (hc : ∀ c ∈ calls, SysCall k prm c) {fuel : Nat} {s : St Pdf}
    (e : run (env k) prm fuel calls St.empty = some s) {sn : PSens} (hs : SensOk sn)
    (hlog : ∀ x, 0 ≤ x → Near δ (sn.lg x) x) {ch : Choices} (hwt : ch.wt = ew)
    {scan : List (Rep Rpt)} {dflt : Rep Rpt} (hsys : SysCall k prm (.correct (sensor k sn) ch scan dflt))
    {a j : Nat} {t : Tgt Pdf} {z : Rep Rpt} (hpair : Pair k s scan a t j z)
    {s1 : St Pdf} {reps : Nat → Rep Rpt}
    (e1 : correct (env k) (sensor k sn) prm ch fuel scan dflt s = some (s1, reps)) :
    ∃ d x y d' x' y' : ℝ, Kept prm.wlim d x y d' x' y' ∧
      0 < d' + x' + y' ∧ 0 ≤ d ∧ 0 ≤ x ∧ 0 < y ∧
      t.r * seenRatio sn a t z.val ≤ Real.exp δ * d ∧ d ≤ Real.exp δ * (t.r * seenRatio sn a t z.val) ∧
      x ≤ Real.exp δ * (t.r * missProb sn a t) ∧ t.r * missProb sn a t ≤ Real.exp δ * x ∧
      y ≤ Real.exp δ * absent t.r ∧ absent t.r ≤ Real.exp δ * y ∧
      (reps j).rB = some ((x' + y') / (d' + x' + y')) ∧
      ((x' + y') / (d' + x' + y') * sn.lambdaB /
          ((List.range scan.length).map fun i => ((reps i).rB).getD 0).sum < prm.rlim →
        ∃ old new, s1.targets = old ++ new ∧ old.Sublist s.targets ∧ Stay s s1 old ∧ ∀ b ∈ new,
          ∃ i w, i < scan.length ∧ i ≠ j ∧ s1.heap b = some w ∧
            w.pdf = (sensor k sn).init (reps i).val) := by
  obtain ⟨ht, hj, hit, hone, hmine⟩ := hpair
  obtain ⟨⟨hr0, _⟩, _, _, hcmp, hsum, _⟩ := C66_densities_proper hk hB0 hB1 hc e a t ht
  set o := center [z.val.1.x, pos t.pdf] with ho
  set p := toLocal o t.pdf with hp
  set zl := rLocal o z.val with hzl
  have heta0 := seenRatio_nonneg sn a t z.val
  have hme : missedEta (sn.pdMiss a) p.mix = missedEta (sn.pdMiss a) t.pdf.mix :=
    missedEta_toLocal _ _ _
  have hm0 : 0 ≤ missProb sn a t := by
    have := (missedEta_bounds (hs.miss a) (m := t.pdf.mix) hcmp).2
    rw [hsum] at this
    unfold missProb
    linarith
  have hnd := hlog _ (mul_nonneg hr0 heta0)
  have hnm := hlog _ (mul_nonneg hr0 hm0)
  obtain ⟨qf, hfls, hy1, hy2⟩ := absent_cost (k := k) hs hlog t.r
  have weight : ∀ {c : XR} {w : ℝ}, Near δ c w → MissWeight ch.wt c (costWeight c) := by
    intro c w h
    rw [hwt]
    rcases h with ⟨_, h⟩ | ⟨_, q, h, _⟩
    · exact Or.inr ⟨h, by rw [h]; rfl⟩
    · exact Or.inl ⟨q, h, by rw [h]; rfl⟩
  have nonneg : ∀ {c : XR} {w : ℝ}, Near δ c w → 0 ≤ costWeight c := by
    intro c w h
    rcases h with ⟨_, h⟩ | ⟨_, q, h, _⟩
    · rw [h]; exact le_refl _
    · rw [h]; exact (ew_pos q).le
  have hdw : MissWeight ch.wt ((sensor k sn).detCost a t.r p zl)
      (costWeight (sn.lg (t.r * seenRatio sn a t z.val))) := weight hnd
  have hmw : MissWeight ch.wt ((sensor k sn).missCost a t.r p)
      (costWeight (sn.lg (t.r * missProb sn a t))) := by
    have : (sensor k sn).missCost a t.r p = sn.lg (t.r * missProb sn a t) := by
      change sn.lg (t.r * (1 - missedEta (sn.pdMiss a) p.mix)) = _
      rw [hme]
      rfl
    rw [this]
    exact weight hnm
  have hd0 := nonneg hnd
  have hx0 := nonneg hnm
  have hy0 : 0 < ew qf := ew_pos qf
  obtain ⟨d', x', y', u2, u3, u4, u5⟩ := C106_share (env_box k) prm fuel calls
    (fun c h => sysCall_ok (hc c h)) s e (sensor k sn) ch scan dflt (sysCall_ok hsys) hsys.2.2.1
    (by rw [hwt]; exact ew_antitone) (by rw [hwt]; exact fun q => (ew_pos q).le) s1 reps e1 a t ht hj
    hit hone hmine hw hn (o := o) (p := p) (zl := zl) rfl rfl rfl hdw hmw ⟨hfls, by rw [hwt]⟩
    (by linarith)
  exact ⟨_, _, ew qf, d', x', y', u2, u3, hd0, hx0, hy0, (near_weight hnd).2, (near_weight hnd).1,
    (near_weight hnm).1, (near_weight hnm).2, hy1, hy2, u4, u5⟩

/-- The share is at most the odds against "detected". -/
theorem share_le {wlim d x y d' x' y' : ℝ} (hK : Kept wlim d x y d' x' y') (hd : 0 ≤ d) (hx : 0 ≤ x)
    (hy : 0 ≤ y) (hW : 0 < d' + x' + y') : (x' + y') / (d' + x' + y') * d ≤ x + y := by
  rw [div_mul_eq_mul_div, div_le_iff₀ hW]
  rcases hK with ⟨rfl, rfl, rfl, _⟩ | ⟨rfl, rfl, rfl, h1, h2, _⟩ | ⟨rfl, rfl, rfl, _⟩ | ⟨rfl, rfl, rfl, _⟩
  · nlinarith [mul_nonneg (add_nonneg hx hy) (add_nonneg hx hy)]
  · nlinarith [mul_nonneg (add_nonneg hx hy) (sub_nonneg.2 h1), mul_nonneg (add_nonneg hx hy) hy]
  · nlinarith [mul_nonneg hx hd, mul_nonneg hx hy, mul_nonneg hy hy]
  · nlinarith [mul_nonneg hy hd, mul_nonneg hx hy, mul_nonneg hx hx]

/-- The share is not small if the weights of "missed" and "not there" are not. -/
theorem share_ge {wlim lim d x y d' x' y' : ℝ} (hK : Kept wlim d x y d' x' y') (hd : 0 ≤ d) (hx : 0 ≤ x)
    (hy : 0 ≤ y) (hW : 0 < d' + x' + y') (h0 : 0 < lim) (h1 : 2 * wlim ≤ lim) (h2 : lim ≤ 1 - wlim)
    (h : lim * (d + x + y) ≤ x + y) : lim ≤ (x' + y') / (d' + x' + y') := by
  rw [le_div_iff₀ hW]
  rcases hK with ⟨rfl, rfl, rfl, _⟩ | ⟨rfl, rfl, rfl, g1, g2, g3, _⟩ | ⟨rfl, rfl, rfl, g1, g2, g3, g4⟩ |
    ⟨rfl, rfl, rfl, g1, g2, g3, g4⟩
  · exact h
  · have hw0 : lim ≤ 1 ∨ wlim < 0 := by
      by_cases hw : wlim < 0
      · exact Or.inr hw
      · left; linarith
    rcases hw0 with hl | hw
    · nlinarith [mul_nonneg (sub_nonneg.2 hl) (add_nonneg hx hy)]
    · nlinarith
  · rcases g4 with g | g
    · nlinarith [mul_nonneg (sub_nonneg.2 h2) g3.le]
    · exfalso
      nlinarith [mul_nonneg (sub_nonneg.2 h1) g3.le, mul_nonneg h0.le hx]
  · rcases g4 with g | g
    · nlinarith [mul_nonneg (sub_nonneg.2 h2) g3.le]
    · exfalso
      nlinarith [mul_nonneg (sub_nonneg.2 h1) g3.le, mul_nonneg h0.le hy]

/-- **C106** After any history, let a report and a target touch only each other.  If the report is much
more likely from the target than from clutter, compared with the chances that the target was missed or is
not there, then it starts no second target: every target that the scan starts is started by another
report. `σ` is the sum of `rB` over the scan. -/
theorem C106_explained {k : Opts} (hk : OptsOk k) {prm : Params} (hB0 : 0 ≤ prm.rBmax)
    (hB1 : prm.rBmax ≤ 1) (hw : prm.wlim ≤ 1) (hn : 2 < prm.nhypMax) {δ : ℝ}
    {calls : List (Call Pdf Rpt)} (hc : ∀ c ∈ calls, SysCall k prm c) {fuel : Nat} {s : St Pdf}
    (e : run (env k) prm fuel calls St.empty = some s) {sn : PSens} (hs : SensOk sn)
    (hlog : ∀ x, 0 ≤ x → Near δ (sn.lg x) x) {ch : Choices} (hwt : ch.wt = ew)
    {scan : List (Rep Rpt)} {dflt : Rep Rpt} (hsys : SysCall k prm (.correct (sensor k sn) ch scan dflt))
    {a j : Nat} {t : Tgt Pdf} {z : Rep Rpt} (hpair : Pair k s scan a t j z) (hr1 : t.r < 1)
    {s1 : St Pdf} {reps : Nat → Rep Rpt}
    (e1 : correct (env k) (sensor k sn) prm ch fuel scan dflt s = some (s1, reps)) (hl : 0 ≤ sn.lambdaB)
    {σ : ℝ} (hσ : σ = ((List.range scan.length).map fun i => ((reps i).rB).getD 0).sum) (hσ0 : 0 < σ)
    (hseen : Real.exp (2 * δ) * (t.r * missProb sn a t + (1 - t.r)) * sn.lambdaB <
      prm.rlim * σ * (t.r * seenRatio sn a t z.val)) :
    ∃ old new, s1.targets = old ++ new ∧ old.Sublist s.targets ∧ Stay s s1 old ∧ ∀ b ∈ new,
      ∃ i w, i < scan.length ∧ i ≠ j ∧ s1.heap b = some w ∧ w.pdf = (sensor k sn).init (reps i).val := by
  obtain ⟨d, x, y, d', x', y', hK, hW, hd0, hx0, hy0, hd, _, hx, _, hy, _, _, hno⟩ :=
    share_scan hk hB0 hB1 hw hn hc e hs hlog hwt hsys hpair e1
  rw [absent_lt hr1] at hy
  apply hno
  rw [← hσ, div_lt_iff₀ hσ0]
  have hE : 0 < Real.exp δ := Real.exp_pos _
  have hE2 : Real.exp (2 * δ) = Real.exp δ * Real.exp δ := by rw [← Real.exp_add]; ring_nf
  rw [hE2] at hseen
  set E := Real.exp δ
  set m := t.r * missProb sn a t
  set l := t.r * seenRatio sn a t z.val
  have hsh := share_le hK hd0 hx0 hy0.le hW
  set b := (x' + y') / (d' + x' + y')
  have h1 : b * sn.lambdaB * d ≤ (x + y) * sn.lambdaB := by
    calc b * sn.lambdaB * d = b * d * sn.lambdaB := by ring
      _ ≤ _ := mul_le_mul_of_nonneg_right hsh hl
  have h2 : (x + y) * sn.lambdaB ≤ E * (m + (1 - t.r)) * sn.lambdaB :=
    mul_le_mul_of_nonneg_right (by rw [mul_add]; exact add_le_add hx hy) hl
  by_cases hlim : prm.rlim * σ ≤ 0
  · -- the right hand side is not positive, so neither is the left
    exfalso
    have g1 : 0 ≤ E * (m + (1 - t.r)) * sn.lambdaB := by
      refine le_trans (mul_nonneg (add_nonneg hx0 hy0.le) hl) h2
    have g2 : 0 ≤ l := by
      obtain ⟨⟨hr0, _⟩, _⟩ := C66_densities_proper hk hB0 hB1 hc e a t hpair.1
      exact mul_nonneg hr0 (seenRatio_nonneg _ _ _ _)
    have g3 : E * E * (m + (1 - t.r)) * sn.lambdaB = E * (E * (m + (1 - t.r)) * sn.lambdaB) := by ring
    have g4 := mul_nonneg hE.le g1
    have g5 := mul_nonpos_of_nonpos_of_nonneg hlim g2
    linarith
  · have hlim : 0 < prm.rlim * σ := lt_of_not_ge hlim
    have h3 : E * ((x + y) * sn.lambdaB) < E * (prm.rlim * σ * d) := by
      calc E * ((x + y) * sn.lambdaB) ≤ E * (E * (m + (1 - t.r)) * sn.lambdaB) :=
            mul_le_mul_of_nonneg_left h2 hE.le
        _ = E * E * (m + (1 - t.r)) * sn.lambdaB := by ring
        _ < prm.rlim * σ * l := hseen
        _ ≤ prm.rlim * σ * (E * d) := mul_le_mul_of_nonneg_left hd hlim.le
        _ = _ := by ring
    have h4 := lt_of_mul_lt_mul_left h3 hE.le
    exact lt_of_mul_lt_mul_right (h1.trans_lt h4) hd0

/-- **C106, a single report** The same for a scan of one report: it starts no target at all. -/
theorem C106_alone {k : Opts} (hk : OptsOk k) {prm : Params} (hB0 : 0 ≤ prm.rBmax)
    (hB1 : prm.rBmax ≤ 1) (hw : prm.wlim ≤ 1) (hn : 2 < prm.nhypMax) {δ : ℝ}
    {calls : List (Call Pdf Rpt)} (hc : ∀ c ∈ calls, SysCall k prm c) {fuel : Nat} {s : St Pdf}
    (e : run (env k) prm fuel calls St.empty = some s) {sn : PSens} (hs : SensOk sn)
    (hlog : ∀ x, 0 ≤ x → Near δ (sn.lg x) x) {ch : Choices} (hwt : ch.wt = ew)
    {z dflt : Rep Rpt} (hsys : SysCall k prm (.correct (sensor k sn) ch [z] dflt))
    {a : Nat} {t : Tgt Pdf} (hpair : Pair k s [z] a t 0 z) (hr1 : t.r < 1) (hlim : 0 ≤ prm.rlim)
    {s1 : St Pdf} {reps : Nat → Rep Rpt}
    (e1 : correct (env k) (sensor k sn) prm ch fuel [z] dflt s = some (s1, reps))
    (hseen : Real.exp (2 * δ) * (t.r * missProb sn a t + (1 - t.r)) <
      prm.rlim * (t.r * seenRatio sn a t z.val)) : s1.targets.Sublist s.targets ∧ Stay s s1 s1.targets := by
  obtain ⟨d, x, y, d', x', y', hK, hW, hd0, hx0, hy0, hd, _, hx, _, hy, _, hrB, _⟩ :=
    share_scan hk hB0 hB1 hw hn hc e hs hlog hwt hsys hpair e1
  rw [absent_lt hr1] at hy
  have hE : 0 < Real.exp δ := Real.exp_pos _
  have hE2 : Real.exp (2 * δ) = Real.exp δ * Real.exp δ := by rw [← Real.exp_add]; ring_nf
  rw [hE2] at hseen
  set E := Real.exp δ
  set m := t.r * missProb sn a t
  set l := t.r * seenRatio sn a t z.val
  have hsh := share_le hK hd0 hx0 hy0.le hW
  have h3 : E * (x + y) < E * (prm.rlim * d) := by
    calc E * (x + y) ≤ E * (E * m + E * (1 - t.r)) :=
          mul_le_mul_of_nonneg_left (add_le_add hx hy) hE.le
      _ = E * E * (m + (1 - t.r)) := by ring
      _ < prm.rlim * l := hseen
      _ ≤ prm.rlim * (E * d) := mul_le_mul_of_nonneg_left hd hlim
      _ = _ := by ring
  have h4 := lt_of_mul_lt_mul_left h3 hE.le
  have h5 := lt_of_mul_lt_mul_right (hsh.trans_lt h4) hd0
  obtain ⟨old, new, idx, xs, b1, b2, _, _, _, _, _, b8, _, _, b9⟩ := C25_births (env_box k) prm fuel calls
    (fun c h => sysCall_ok (hc c h)) s e (sensor k sn) ch [z] dflt (sysCall_ok hsys) s1 reps e1
  have := b8 (Or.inl (by simpa [hrB] using h5))
  rw [b1, this, List.append_nil]
  exact ⟨b2, b9⟩

/-- **C106, the other side** If the share of a single report that its target does not explain reaches
`r_lim`, the report starts a second target, and the existence probability of that is
`min(lambdaB, rB_max)`: the same as if there were no target. -/
theorem C106_second {k : Opts} (hk : OptsOk k) {prm : Params} (hB0 : 0 ≤ prm.rBmax)
    (hB1 : prm.rBmax ≤ 1) (hw : prm.wlim ≤ 1) (hn : 2 < prm.nhypMax) {δ : ℝ}
    {calls : List (Call Pdf Rpt)} (hc : ∀ c ∈ calls, SysCall k prm c) {fuel : Nat} {s : St Pdf}
    (e : run (env k) prm fuel calls St.empty = some s) {sn : PSens} (hs : SensOk sn)
    (hlog : ∀ x, 0 ≤ x → Near δ (sn.lg x) x) {ch : Choices} (hwt : ch.wt = ew)
    {z dflt : Rep Rpt} (hsys : SysCall k prm (.correct (sensor k sn) ch [z] dflt))
    {a : Nat} {t : Tgt Pdf} (hpair : Pair k s [z] a t 0 z) (hr1 : t.r < 1)
    {s1 : St Pdf} {reps : Nat → Rep Rpt}
    (e1 : correct (env k) (sensor k sn) prm ch fuel [z] dflt s = some (s1, reps))
    (h0 : 0 < prm.rlim) (h1 : prm.rlim ≤ sn.lambdaB) (h2 : 2 * prm.wlim ≤ prm.rlim)
    (h3 : prm.rlim ≤ 1 - prm.wlim)
    (hseen : Real.exp (2 * δ) * (prm.rlim * (t.r * seenRatio sn a t z.val)) ≤
      (1 - prm.rlim) * (t.r * missProb sn a t + (1 - t.r))) :
    ∃ old b w, s1.targets = old ++ [b] ∧ old.Sublist s.targets ∧ Stay s s1 old ∧ s1.heap b = some w ∧
      w.r = min sn.lambdaB prm.rBmax ∧ w.pdf = (sensor k sn).init (reps 0).val := by
  obtain ⟨d, x, y, d', x', y', hK, hW, hd0, hx0, hy0, _, hd, _, hx, _, hy, hrB, _⟩ :=
    share_scan hk hB0 hB1 hw hn hc e hs hlog hwt hsys hpair e1
  rw [absent_lt hr1] at hy
  have hE : 0 < Real.exp δ := Real.exp_pos _
  have hE2 : Real.exp (2 * δ) = Real.exp δ * Real.exp δ := by rw [← Real.exp_add]; ring_nf
  rw [hE2] at hseen
  have hl1 : prm.rlim ≤ 1 := by
    by_contra hh
    have : prm.wlim < 0 := by linarith
    obtain ⟨⟨hr0, _⟩, _, _, hcmp, hsum, _⟩ := C66_densities_proper hk hB0 hB1 hc e a t hpair.1
    have hm : 0 ≤ t.r * missProb sn a t := by
      have := (missedEta_bounds (hs.miss a) (m := t.pdf.mix) hcmp).2
      rw [hsum] at this
      refine mul_nonneg hr0 ?_
      unfold missProb
      linarith
    have hl : 0 ≤ t.r * seenRatio sn a t z.val := by
      by_contra hneg
      have g := hd
      have : Real.exp δ * (t.r * seenRatio sn a t z.val) < 0 :=
        mul_neg_of_pos_of_neg hE (lt_of_not_ge hneg)
      linarith
    have g1 : 0 ≤ Real.exp δ * Real.exp δ * (prm.rlim * (t.r * seenRatio sn a t z.val)) := by
      positivity
    have g2 : (1 - prm.rlim) * (t.r * missProb sn a t + (1 - t.r)) < 0 :=
      mul_neg_of_neg_of_pos (by linarith) (by linarith)
    linarith
  set E := Real.exp δ
  set m := t.r * missProb sn a t
  set l := t.r * seenRatio sn a t z.val
  have hkey : prm.rlim * (d + x + y) ≤ x + y := by
    have g : E * (prm.rlim * d) ≤ E * ((1 - prm.rlim) * (x + y)) := by
      calc E * (prm.rlim * d) ≤ E * (prm.rlim * (E * l)) := by gcongr
        _ = E * E * (prm.rlim * l) := by ring
        _ ≤ (1 - prm.rlim) * (m + (1 - t.r)) := hseen
        _ ≤ (1 - prm.rlim) * (E * x + E * y) :=
          mul_le_mul_of_nonneg_left (add_le_add hx hy) (by linarith)
        _ = _ := by ring
    have := le_of_mul_le_mul_left g hE
    linarith
  have hge := share_ge hK hd0 hx0 hy0.le hW h0 h2 h3 hkey
  obtain ⟨old, new, idx, xs, b1, b2, b3, b4, b5, b6, b7, b8, _, b9, b10⟩ := C25_births (env_box k) prm fuel calls
    (fun c h => sysCall_ok (hc c h)) s e (sensor k sn) ch [z] dflt (sysCall_ok hsys) s1 reps e1
  set b := (x' + y') / (d' + x' + y')
  have hb0 : b ≠ 0 := by linarith
  have hsum : ((List.range [z].length).map fun i => ((reps i).rB).getD 0).sum = b := by
    simp [hrB]
  have hone : b * sn.lambdaB / b = sn.lambdaB := by field_simp
  have h0i : 0 ∈ idx := by
    refine b9 ?_ (by rw [hsum]; exact hge) 0 (by simp) b hrB ?_
    · intro i hi
      have : i = 0 := by simpa using hi
      subst this
      exact ⟨b, hrB⟩
    · rw [hsum]
      show _ ≤ b * sn.lambdaB / b
      rw [hone]
      exact h1
  have hidx : idx = [0] := by
    refine List.perm_singleton.1 ((List.perm_ext_iff_of_nodup b5 (by simp)).2 fun i => ?_)
    rw [List.mem_singleton]
    constructor
    · intro hi
      have := b6 i hi
      simpa using this
    · rintro rfl
      exact h0i
  subst hidx
  obtain ⟨c, rfl⟩ := List.length_eq_one_iff.1 b3
  obtain ⟨y0, rfl⟩ := List.length_eq_one_iff.1 b4
  obtain ⟨_, bb, w, w1, w2, w3, w4, _, w5⟩ := b7 0 c 0 y0 rfl rfl rfl
  refine ⟨old, c, w, b1, b2, b10, w3, ?_, w5⟩
  rw [hrB] at w1
  injection w1 with w1
  rw [w4, w2, hsum, ← w1]
  show min (b * sn.lambdaB / b) _ = _
  rw [hone]

/-! ## A concrete history -/

/-- A report with the given clutter density. -/
noncomputable def exAt (x : LL) (κ : ℝ) (hκ : 0 < κ) : Rpt := ⟨⟨x, 1, κ⟩, Matrix.PosDef.one, hκ⟩

open Classical in
/-- `exOpts2`, but reports from the place with clutter density 1/2 are far away from the others. -/
noncomputable def exOpts3 : Opts :=
  { exOpts2 with rbox := fun z => if z.1.kappa = 1 / 2 then exBoxAt 500 500 else exBox }

theorem exOpts3_ok : OptsOk exOpts3 :=
  ⟨exOpts_ok.srt, exOpts_ok.mx, exOpts_ok.lim, exOpts_ok.prod⟩

/-- A scan. -/
noncomputable def exScan3 (l : List Rpt) : Call Pdf Rpt :=
  .correct (sensor exOpts3 exEye) exCh (l.map fun z => ⟨z, none, 0⟩) ⟨exRpt 0 0, none, 0⟩

theorem exScan3_ok (l : List Rpt) (hl : l.length ≤ 10) : SysCall exOpts3 exPrm (exScan3 l) :=
  ⟨⟨_, exEye_ok, rfl⟩, exCh_ok, exCh_pick, fun q => (ew_pos q).le, by
    show (3 * (((l.map fun z => (⟨z, none, 0⟩ : Rep Rpt)).length : ℕ) : ℝ) + 4) / 100000000 < 1 / 20
    rw [List.length_map]
    have : (l.length : ℝ) ≤ 10 := by exact_mod_cast hl
    linarith⟩

theorem exScan3_costs (l : List Rpt) : CallCosts (exScan3 l) := by
  have hl : ∀ x, XR.IsC (exEye.lg x) := by
    intro x
    by_cases h : 0 < x
    · exact Or.inr ⟨_, if_pos h⟩
    · exact Or.inl (if_neg h)
  refine ⟨⟨fun _ _ _ _ => hl _, fun _ _ _ => hl _, fun r => ?_⟩, exCh_pick⟩
  change XR.IsFin (if _ then _ else _)
  split
  · rename_i hr
    exact exEye_ok.pos _ (by linarith)
  · exact ⟨_, rfl⟩

/-- The target that a first report starts. -/
theorem exBorn3 : ∃ s a t g, run (env exOpts3) exPrm 0 [exScan3 [exAt 0 1 one_pos]] St.empty = some s ∧
    s.heap a = some t ∧ s.targets = [a] ∧ t.r = 4 / 5 ∧ t.pdf.mix.c = [g] ∧ g.w = 1 ∧ g.x.2 = 1 ∧
    t.pdf.box = exBox := by
  have hok := sysCall_ok (exScan3_ok [exAt 0 1 one_pos] (by simp))
  obtain ⟨s, reps, new, h1, h2, _, h3, h4, _⟩ := C58_unreached_scan (env_box exOpts3) exPrm 0 []
    (by simp) St.empty rfl (sensor exOpts3 exEye) exCh [⟨exAt 0 1 one_pos, none, 0⟩]
    ⟨exRpt 0 0, none, 0⟩ hok
    (by rintro a ⟨t, ht, _⟩; simp [St.empty] at ht)
  have hl : new.length = 1 := h4 (by show (1 : ℝ) / 20 ≤ (1 : ℕ); norm_num)
    (by show (1 : ℝ) / 20 ≤ 1 / (1 : ℕ); norm_num)
  obtain ⟨a, rfl⟩ := List.length_eq_one_iff.1 hl
  obtain ⟨t, ht, hr⟩ := h3 a (by simp)
  obtain ⟨y, hy, o, ho⟩ := first_scan (env_box exOpts3) exPrm 0 (sensor exOpts3 exEye) exCh
    [⟨exAt 0 1 one_pos, none, 0⟩] ⟨exRpt 0 0, none, 0⟩ hok s reps h1 a t ht
  rw [List.mem_singleton] at hy
  subst hy
  obtain ⟨g, hg, hw, hP⟩ : ∃ g : Cmp, t.pdf.mix.c = [g] ∧ g.w = 1 ∧
      g.x.2 = (Kalman.init1 1 (exAt 0 1 one_pos).1).P := by
    rw [ho]
    exact ⟨_, rfl, rfl, rfl⟩
  refine ⟨s, a, t, g, ?_, ht, by simpa [St.empty] using h2, ?_, hg, hw, ?_, by rw [ho]; rfl⟩
  · simp only [exScan3, run, step, List.map_cons, List.map_nil, h1, Option.map_some]
  · rw [hr]
    show min ((1 : ℝ) / (1 : ℕ)) (4 / 5) = 4 / 5
    norm_num
  · rw [hP]
    ext i j
    fin_cases i <;> fin_cases j <;> simp [Kalman.init1, exAt]

/-- The corrected component of a target that is seen exactly where it is. -/
theorem here_component {g : Cmp} {t : Tgt Pdf} (h5 : t.pdf.mix.c = [g]) (h6 : g.w = 1) (h7 : g.x.2 = 1)
    {κ : ℝ} (hκ : 0 < κ) (hκ1 : κ ≤ 1) {q : LL} (hq : q = pos t.pdf) :
    center [(exAt q κ hκ).1.x, pos t.pdf] = q ∧
    (toLocal q t.pdf).mix.c = [⟨(setHead 0 g.x.1, 1), 1⟩] ∧
    ∃ gc : Kalman.Gauss 4, gc.x = setHead 0 g.x.1 ∧ (∀ i j : Fin 4, |gc.P i j| ≤ 1) ∧
      7 / 160 / κ ≤ gc.w ∧ gc.w ≤ 7 / 120 / κ ∧
      ∀ pd : Nat → ℝ, pd 0 = 7 / 10 → correctMix pd (rLocal q (exAt q κ hκ)) (toLocal q t.pdf).mix =
        GM.normalize ⟨[ofG gc], (toLocal q t.pdf).mix.eta⟩ := by
  have hqg : q = head g.x.1 := by
    rw [hq]
    unfold pos
    rw [Kalman.mean_eq, h5]
    simp [toG, h6]
  have hcen : center [(exAt q κ hκ).1.x, pos t.pdf] = q := by
    show (1 / ((2 : ℕ) : ℝ)) • (q + (pos t.pdf + 0)) = q
    rw [← hq, add_zero]
    ext i
    simp
    ring
  have hzero : CF.ll2ne q q = 0 := (CF.C49_ne q q q).2.1
  set gl : Cmp := ⟨(setHead 0 g.x.1, 1), 1⟩ with hgl
  have hloc : (toLocal q t.pdf).mix.c = [gl] := by
    show cLocal q t.pdf.mix.c = _
    rw [h5]
    simp only [cLocal, List.map_cons, List.map_nil, ← hqg, hzero, hgl, h6, h7]
  have hinn : Kalman.innov Kalman.posH (rLocal q (exAt q κ hκ)).1 (toG gl) = 0 := by
    unfold Kalman.innov
    have : (rLocal q (exAt q κ hκ)).1.x = 0 := hzero
    rw [this]
    ext i
    fin_cases i <;> simp [Kalman.posH, toG, hgl, setHead, Matrix.mulVec, dotProduct, Fin.sum_univ_four]
  have hD : Kalman.dinv Kalman.posH (rLocal q (exAt q κ hκ)).1 (toG gl) =
      (1 / 2 : ℝ) • (1 : Matrix (Fin 2) (Fin 2) ℝ) := by
    unfold Kalman.dinv
    have : Kalman.posH * (toG gl).P * Kalman.posHᵀ + (rLocal q (exAt q κ hκ)).1.P =
        (2 : ℝ) • (1 : Matrix (Fin 2) (Fin 2) ℝ) := posH_self
    rw [this, half_inv]
  refine ⟨hcen, hloc, Kalman.correct Kalman.posH (7 / 10) (rLocal q (exAt q κ hκ)).1 (toG gl), ?_, ?_, ?_⟩
  · unfold Kalman.correct
    rw [hinn]
    simp [toG, hgl]
  · intro i j
    have : (Kalman.correct Kalman.posH (7 / 10) (rLocal q (exAt q κ hκ)).1 (toG gl)).P =
        1 - ((1 : Matrix (Fin 4) (Fin 4) ℝ) * Kalman.posHᵀ *
        ((1 / 2 : ℝ) • (1 : Matrix (Fin 2) (Fin 2) ℝ))) * Kalman.posH * 1 := by
      unfold Kalman.correct Kalman.gain
      rw [hD]
      rfl
    rw [this]
    rw [Matrix.mul_smul, Matrix.mul_one, Matrix.one_mul, Matrix.mul_one, Matrix.smul_mul]
    fin_cases i <;> fin_cases j <;>
      norm_num [Kalman.posH, Matrix.mul_apply, Fin.sum_univ_two, Matrix.transpose_apply, Matrix.one_apply]
  set gc := Kalman.correct Kalman.posH (7 / 10) (rLocal q (exAt q κ hκ)).1 (toG gl) with hgc
  have e1 : gc.w = 1 * (7 / 10 * Kalman.likelihood 0 ((1 / 2 : ℝ) • (1 : Matrix (Fin 2) (Fin 2) ℝ)) / κ) := by
    rw [hgc]
    unfold Kalman.correct
    rw [hinn, hD]
    rfl
  have hdet : ((1 / 2 : ℝ) • (1 : Matrix (Fin 2) (Fin 2) ℝ)).det = 1 / 4 := by
    rw [Matrix.det_smul]
    norm_num
  have h0 := Real.pi_pos
  have e2 : 1 / 16 ≤ Kalman.likelihood 0 ((1 / 2 : ℝ) • (1 : Matrix (Fin 2) (Fin 2) ℝ)) := by
    unfold Kalman.likelihood
    rw [hdet, zero_dotProduct, neg_zero, zero_mul, Real.exp_zero, one_mul]
    apply Real.le_sqrt_of_sq_le
    have h4 := Real.pi_le_four
    rw [le_div_iff₀ (by positivity)]
    have : Real.pi ^ 2 ≤ 4 ^ 2 := pow_le_pow_left₀ h0.le h4 2
    calc (1 / 16 : ℝ) ^ 2 * (2 * Real.pi) ^ 2 = Real.pi ^ 2 / 64 := by ring
      _ ≤ 4 ^ 2 / 64 := by gcongr
      _ = _ := by norm_num
  have e3 : Kalman.likelihood 0 ((1 / 2 : ℝ) • (1 : Matrix (Fin 2) (Fin 2) ℝ)) ≤ 1 / 12 := by
    unfold Kalman.likelihood
    rw [hdet, zero_dotProduct, neg_zero, zero_mul, Real.exp_zero, one_mul]
    apply Real.sqrt_le_iff.2
    refine ⟨by norm_num, ?_⟩
    rw [div_le_iff₀ (by positivity)]
    have h3 := Real.pi_gt_three.le
    have : (3 : ℝ) ^ 2 ≤ Real.pi ^ 2 := pow_le_pow_left₀ (by norm_num) h3 2
    calc (1 / 4 : ℝ) = 3 ^ 2 / 36 := by norm_num
      _ ≤ Real.pi ^ 2 / 36 := by gcongr
      _ = _ := by ring
  refine ⟨?_, ?_, ?_⟩
  · rw [e1, one_mul]
    gcongr
    linarith
  · rw [e1, one_mul]
    gcongr
    linarith
  · intro pd hpd
    unfold correctMix
    rw [hloc]
    simp [hpd, hgc]

/-- Such a report is `0.7 / (4 π κ)` times as likely from the target as from clutter. -/
theorem here_ratio {g : Cmp} {t : Tgt Pdf} (h5 : t.pdf.mix.c = [g]) (h6 : g.w = 1) (h7 : g.x.2 = 1)
    {κ : ℝ} (hκ : 0 < κ) (hκ1 : κ ≤ 1) (a : Nat) :
    7 / 160 / κ ≤ seenRatio exEye a t (exAt (pos t.pdf) κ hκ) ∧
    seenRatio exEye a t (exAt (pos t.pdf) κ hκ) ≤ 7 / 120 / κ ∧ missProb exEye a t = 3 / 10 := by
  obtain ⟨hcen, hloc, gc, _, _, k1, k2, k3⟩ := here_component h5 h6 h7 hκ hκ1 rfl
  have hbig : (1 : ℝ) / 100000000 < (([ofG gc] : List Cmp).map GM.Cmp.w).sum := by
    simp only [List.map_cons, List.map_nil, List.sum_cons, List.sum_nil, add_zero, ofG]
    have : (7 : ℝ) / 160 ≤ 7 / 160 / κ := by
      rw [le_div_iff₀ hκ]
      nlinarith
    linarith
  have : seenRatio exEye a t (exAt (pos t.pdf) κ hκ) = gc.w := by
    unfold seenRatio
    simp only [hcen]
    rw [k3 _ rfl, ((GM.C37_normalize _).1 hbig).2.1]
    simp [ofG]
  refine ⟨by rw [this]; exact k1, by rw [this]; exact k2, ?_⟩
  unfold missProb missedEta
  rw [h5]
  simp [exEye, h6]
  norm_num

/-- The target stays well known, whatever the weights of the hypotheses are. -/
theorem here_small {g : Cmp} {t : Tgt Pdf} (h5 : t.pdf.mix.c = [g]) (h6 : g.w = 1) (h7 : g.x.2 = 1)
    {κ : ℝ} (hκ : 0 < κ) (hκ1 : κ ≤ 1) (a : Nat) {q : LL} (hq : q = pos t.pdf) {w x : ℝ} (hw0 : 0 ≤ w)
    (hx0 : 0 ≤ x) :
    covNorm (toGlobal exOpts3 (joinPdf exOpts3 (toLocal q t.pdf) [w, x]
      [(sensor exOpts3 exEye).upd a (toLocal q t.pdf) (rLocal q (exAt q κ hκ)),
       (sensor exOpts3 exEye).missPdf a (toLocal q t.pdf)])) ≤ 150 := by
  obtain ⟨hcen, hloc, gc, hgx, hgP, k1, _, hcm⟩ := here_component h5 h6 h7 hκ hκ1 hq
  have hgw : (7 : ℝ) / 160 ≤ gc.w := by
    have : (7 : ℝ) / 160 ≤ 7 / 160 / κ := by
      rw [le_div_iff₀ hκ]
      nlinarith
    linarith
  have hbig : (1 : ℝ) / 100000000 < (([ofG gc] : List Cmp).map GM.Cmp.w).sum := by
    simp only [List.map_cons, List.map_nil, List.sum_cons, List.sum_nil, add_zero, ofG]
    linarith
  set gl : Cmp := ⟨(setHead 0 g.x.1, 1), 1⟩ with hgl
  have hupd : ((sensor exOpts3 exEye).upd a (toLocal q t.pdf) (rLocal q (exAt q κ hκ))).mix.c =
      [⟨(gc.x, gc.P), 1⟩] := by
    show (correctMix (exEye.pdDet a (rLocal q (exAt q κ hκ))) (rLocal q (exAt q κ hκ))
      (toLocal q t.pdf).mix).c = _
    rw [hcm _ rfl, GM.normalize_c _ hbig]
    have : gc.w ≠ 0 := by linarith
    simp [ofG, this]
  have hmis : ((sensor exOpts3 exEye).missPdf a (toLocal q t.pdf)).mix.c = [gl] := hloc
  obtain ⟨m, kept, dropped, j1, j2, _, _, _, _, j3, j4⟩ := GM.C38_join exOpts3.srt exOpts3_ok.srt
    exOpts3.lim exOpts3.mx [w, x] [[⟨(gc.x, gc.P), 1⟩], [gl]] rfl
    (by simp [hw0, hx0])
  have hjoin : (joinPdf exOpts3 (toLocal q t.pdf) [w, x]
      [(sensor exOpts3 exEye).upd a (toLocal q t.pdf) (rLocal q (exAt q κ hκ)),
       (sensor exOpts3 exEye).missPdf a (toLocal q t.pdf)]) = { toLocal q t.pdf with mix := m } := by
    unfold joinPdf
    rw [List.map_cons, List.map_cons, List.map_nil, hupd, hmis, j1]
  rw [hjoin]
  have hmem : ∀ h ∈ m.c, h.x.1 = setHead 0 g.x.1 ∧ 0 ≤ h.w ∧ ∀ i j, |h.x.2 i j| ≤ 1 := by
    rcases lt_or_ge (1 / 100000000 : ℝ) ((kept.map GM.Cmp.w).sum) with hb | hb
    · rw [(j3 hb).1]
      intro h hh
      obtain ⟨b, hb1, rfl⟩ := List.mem_map.1 hh
      have : b ∈ ([w, x].zip [[(⟨(gc.x, gc.P), 1⟩ : Cmp)], [gl]]).flatMap
          fun y => y.2.map fun g => (⟨g.x, y.1 * g.w⟩ : Cmp) :=
        j2.mem_iff.1 (List.mem_append_left _ hb1)
      simp only [List.zip_cons_cons, List.zip_nil_right, List.flatMap_cons, List.flatMap_nil, List.map_cons,
        List.map_nil, List.append_nil, List.cons_append, List.nil_append, List.mem_cons,
        List.not_mem_nil, or_false, mul_one] at this
      have hpos : 0 < (kept.map GM.Cmp.w).sum := lt_trans (by norm_num) hb
      rcases this with rfl | rfl
      · exact ⟨hgx, div_nonneg hw0 hpos.le, hgP⟩
      · refine ⟨rfl, div_nonneg (by simpa [hgl] using hx0) hpos.le, ?_⟩
        intro i j
        show |(1 : Matrix (Fin 4) (Fin 4) ℝ) i j| ≤ 1
        by_cases hij : i = j
        · subst hij; simp
        · simp [Matrix.one_apply_ne hij]
    · rw [(j4 hb).1]
      simp
  have hsum : m.c = [] ∨ (m.c.map GM.Cmp.w).sum = 1 := by
    rcases lt_or_ge (1 / 100000000 : ℝ) ((kept.map GM.Cmp.w).sum) with hb | hb
    · exact Or.inr (j3 hb).2.1
    · exact Or.inl (j4 hb).1
  have hent : ∀ i j, |Kalman.cov ((cGlobal q m.c).map toG) i j| ≤ 1 := by
    intro i j
    apply cov_same (x0 := setHead (CF.ne2ll (head (setHead 0 g.x.1)) q) (setHead 0 g.x.1))
    · intro h hh
      obtain ⟨b, hb, rfl⟩ := List.mem_map.1 hh
      show setHead (CF.ne2ll (head b.x.1) q) b.x.1 = _
      rw [(hmem b hb).1]
    · intro h hh
      obtain ⟨b, hb, rfl⟩ := List.mem_map.1 hh
      exact (hmem b hb).2.1
    · rcases hsum with h | h
      · left; simp [cGlobal, h]
      · right
        rw [← h]
        unfold cGlobal
        rw [List.map_map]
        rfl
    · intro h hh
      obtain ⟨b, hb, rfl⟩ := List.mem_map.1 hh
      exact (hmem b hb).2.2 i j
  show Real.sqrt _ ≤ 150
  apply Real.sqrt_le_iff.2
  refine ⟨by norm_num, ?_⟩
  have sq : ∀ i j, Kalman.cov ((cGlobal q m.c).map toG) i j * Kalman.cov ((cGlobal q m.c).map toG) i j ≤ 1 := by
    intro i j
    have := (sq_le_one_iff_abs_le_one _).2 (hent i j)
    rwa [sq] at this
  refine le_trans (add_le_add (add_le_add (add_le_add (sq 0 0) (sq 0 1)) (sq 1 0)) (sq 1 1)) ?_
  norm_num

/-- A second scan after the first report, and what the reports of it touch. -/
theorem exNext (l : LL → List Rpt) (hl : ∀ q, (l q).length ≤ 10) : ∃ F s a t g,
    run (env exOpts3) exPrm F [exScan3 [exAt 0 1 one_pos]] St.empty = some s ∧
    s.heap a = some t ∧ s.targets = [a] ∧ t.r = 4 / 5 ∧ t.pdf.mix.c = [g] ∧ g.w = 1 ∧ g.x.2 = 1 ∧
    t.pdf.box = exBox ∧ (∀ b t', s.heap b = some t' → b = a) ∧
    ∃ s2 reps, correct (env exOpts3) (sensor exOpts3 exEye) exPrm exCh F
      ((l (pos t.pdf)).map fun z => ⟨z, none, 0⟩) ⟨exRpt 0 0, none, 0⟩ s = some (s2, reps) ∧
    run (env exOpts3) exPrm F [exScan3 [exAt 0 1 one_pos], exScan3 (l (pos t.pdf))] St.empty = some s2 := by
  obtain ⟨s, a, t, g, h1, h2, h3, h4, h5, h6, h7, h8⟩ := exBorn3
  have hc2 : ∀ c ∈ [exScan3 [exAt 0 1 one_pos], exScan3 (l (pos t.pdf))], SysCall exOpts3 exPrm c := by
    intro c hc
    simp only [List.mem_cons, List.not_mem_nil, or_false] at hc
    rcases hc with rfl | rfl
    · exact exScan3_ok _ (by simp)
    · exact exScan3_ok _ (hl _)
  obtain ⟨F, s2, hF⟩ := C26_defined (env_box exOpts3) exPrm
    [exScan3 [exAt 0 1 one_pos], exScan3 (l (pos t.pdf))]
    (fun c h => sysCall_ok (hc2 c h))
    (by
      intro c hc
      simp only [List.mem_cons, List.not_mem_nil, or_false] at hc
      rcases hc with rfl | rfl <;> exact exScan3_costs _)
    (by
      have := hl (pos t.pdf)
      simp [exScan3, Call.reports]
      omega)
  have hF := hF F (le_refl _)
  have hrun := run_mono (Nat.zero_le F) _ _ _ h1
  have hst : run (env exOpts3) exPrm F [exScan3 (l (pos t.pdf))] s = some s2 := by
    have : [exScan3 [exAt 0 1 one_pos], exScan3 (l (pos t.pdf))] =
      [exScan3 [exAt 0 1 one_pos]] ++ [exScan3 (l (pos t.pdf))] := rfl
    rw [this, run_append, hrun, Option.bind_some] at hF
    exact hF
  have hinv := run_inv (env_box exOpts3) (Inv.empty _)
    (fun c h => sysCall_ok (hc2 c (by rw [List.mem_singleton] at h; rw [h]; simp))) hrun
  refine ⟨F, s, a, t, g, hrun, h2, h3, h4, h5, h6, h7, h8, ?_, ?_⟩
  · intro b t' hb
    have := (hinv.ok.live b).1 ⟨t', hb⟩
    rw [h3] at this
    simpa using this
  · simp only [exScan3, run, step] at hst
    cases hx : correct (env exOpts3) (sensor exOpts3 exEye) exPrm exCh F
      ((l (pos t.pdf)).map fun z => ⟨z, none, 0⟩) ⟨exRpt 0 0, none, 0⟩ s with
    | none => simp [hx] at hst
    | some y =>
      obtain ⟨y1, y2⟩ := y
      simp only [hx, Option.map_some, Option.some.injEq] at hst
      exact ⟨y1, y2, rfl, hst ▸ hF⟩

theorem exBox_touch : exBox.1.Touch exBox.1 := ⟨0, 0, by norm_num [exBox, RTree.Rect.Mem],
    by norm_num [exBox, RTree.Rect.Mem]⟩

theorem exp_small : Real.exp (2 * (1 / 2 ^ 40)) ≤ 11 / 10 ∧ Real.exp (1 / 2 ^ 40) ≤ 11 / 10 := by
  have h : ∀ ε : ℝ, ε ≤ 1 / 11 → Real.exp ε ≤ 11 / 10 := by
    intro ε hε
    have h := Real.add_one_le_exp (-ε)
    have h0 := Real.exp_pos ε
    have h1 : Real.exp ε * Real.exp (-ε) = 1 := by
      rw [← Real.exp_add]; simp
    have h2 : Real.exp ε * (10 / 11) ≤ 1 := by
      refine le_of_le_of_eq (mul_le_mul_of_nonneg_left ?_ h0.le) h1
      refine le_trans ?_ h
      linarith
    linarith
  exact ⟨h _ (by norm_num), h _ (by norm_num)⟩

/-- The concrete case for `C106_alone`: a second report in the same place, where there is little clutter.
The tracker still has one target. -/
theorem exOnce : ∃ F s2 a, run (env exOpts3) exPrm F [exScan3 [exAt 0 1 one_pos],
      exScan3 [exAt a (1 / 10000) (by norm_num)]] St.empty = some s2 ∧ s2.targets.length ≤ 1 := by
  obtain ⟨F, s, a, t, g, hrun, h2, h3, h4, h5, h6, h7, h8, honly, s2, reps, hcor, hF⟩ :=
    exNext (fun q => [exAt q (1 / 10000) (by norm_num)]) (by simp)
  obtain ⟨r1, _, hm⟩ := here_ratio h5 h6 h7 (κ := 1 / 10000) (by norm_num) (by norm_num) a
  refine ⟨F, s2, pos t.pdf, hF, ?_⟩
  have := C106_alone exOpts3_ok (prm := exPrm)
    (by show (0 : ℝ) ≤ 4 / 5; norm_num) (by show (4 / 5 : ℝ) ≤ 1; norm_num)
    (by show (1 / 100 : ℝ) ≤ 1; norm_num) (by show (2 : ℝ) < 100; norm_num) (δ := 1 / 2 ^ 40)
    (by
      intro c hc
      rw [List.mem_singleton] at hc
      subst hc
      exact exScan3_ok _ (by simp)) hrun exEye_ok exSens_near rfl
    (exScan3_ok [exAt (pos t.pdf) (1 / 10000) (by norm_num)] (by simp))
    (a := a) (t := t)
    (by
      refine ⟨h2, rfl, ?_, ?_, fun b t' hb _ => honly b t' hb⟩
      · show (exOpts3.rbox _).1.Touch _
        rw [h8]
        have : exOpts3.rbox (exAt (pos t.pdf) (1 / 10000) (by norm_num)) = exBox := by
          simp only [exOpts3, exAt]
          rw [if_neg (by norm_num)]
        rw [this]
        exact exBox_touch
      · intro i z' hi _
        have := (List.getElem?_eq_some_iff.1 hi).1
        simpa using this)
    (by rw [h4]; norm_num) (by show (0 : ℝ) ≤ 1 / 20; norm_num) hcor
    (by
      rw [hm, h4]
      have := exp_small.1
      show _ < (1 / 20 : ℝ) * (4 / 5 * _)
      linarith)
  have := this.1.length_le
  rw [h3] at this
  simpa using this

/-- The concrete case for `C106_share`, `C106_free` and `C106_explained`: a report in the same place, and
another one far away.  Every target that the second scan starts is where the other report is. -/
theorem exOther : ∃ (F : Nat) (s2 : St Pdf) (q : LL) (reps : Nat → Rep Rpt) (old new : List Nat), run (env exOpts3) exPrm F
      [exScan3 [exAt 0 1 one_pos],
       exScan3 [exAt q (1 / 10000) (by norm_num), exAt 0 (1 / 2) (by norm_num)]] St.empty = some s2 ∧
    s2.targets = old ++ new ∧ old.length ≤ 1 ∧ (reps 1).rB = some 1 ∧
    ∀ b ∈ new, ∃ w, s2.heap b = some w ∧ w.pdf = (sensor exOpts3 exEye).init (reps 1).val := by
  obtain ⟨F, s, a, t, g, hrun, h2, h3, h4, h5, h6, h7, h8, honly, s2, reps, hcor, hF⟩ :=
    exNext (fun q => [exAt q (1 / 10000) (by norm_num), exAt 0 (1 / 2) (by norm_num)]) (by simp)
  obtain ⟨r1, _, hm⟩ := here_ratio h5 h6 h7 (κ := 1 / 10000) (by norm_num) (by norm_num) a
  have hc : ∀ c ∈ [exScan3 [exAt 0 1 one_pos]], SysCall exOpts3 exPrm c := by
    intro c hc
    rw [List.mem_singleton] at hc
    subst hc
    exact exScan3_ok _ (by simp)
  have hsys := exScan3_ok [exAt (pos t.pdf) (1 / 10000) (by norm_num), exAt 0 (1 / 2) (by norm_num)]
    (by simp)
  have hfar : ¬ (exOpts3.rbox (exAt 0 (1 / 2) (by norm_num))).1.Touch exBox.1 := by
    have : exOpts3.rbox (exAt 0 (1 / 2) (by norm_num)) = exBoxAt 500 500 := by
      simp only [exOpts3, exAt]
      rw [if_pos trivial]
    rw [this]
    rintro ⟨u, v, h, h'⟩
    norm_num [exBoxAt, exClamp, exBox, RTree.Rect.Mem] at h h'
    linarith
  have hfree := C106_free (env_box exOpts3) exPrm F _ (fun c h => sysCall_ok (hc c h)) s hrun _ exCh _ _
    (sysCall_ok hsys) s2 reps hcor (j := 1) rfl (by
      intro b t' hb
      obtain rfl := honly b t' hb
      rw [h2] at hb
      cases hb
      show ¬ (exOpts3.rbox _).1.Touch t.pdf.box.1
      rw [h8]
      exact hfar)
  have hpair : Pair exOpts3 s ([exAt (pos t.pdf) (1 / 10000) (by norm_num),
      exAt 0 (1 / 2) (by norm_num)].map fun z => ⟨z, none, 0⟩) a t 0
      ⟨exAt (pos t.pdf) (1 / 10000) (by norm_num), none, 0⟩ := by
    refine ⟨h2, rfl, ?_, ?_, fun b t' hb _ => honly b t' hb⟩
    · show (exOpts3.rbox _).1.Touch _
      rw [h8]
      have : exOpts3.rbox (exAt (pos t.pdf) (1 / 10000) (by norm_num)) = exBox := by
        simp only [exOpts3, exAt]
        rw [if_neg (by norm_num)]
      rw [this]
      exact exBox_touch
    · intro i z' hi ht
      rcases i with _ | _ | i
      · rfl
      · exfalso
        obtain rfl : z' = ⟨exAt 0 (1 / 2) (by norm_num), none, 0⟩ := (Option.some.inj hi).symm
        rw [h8] at ht
        exact hfar ht
      · simp at hi
  obtain ⟨d, x, y, d', x', y', hK, hW, hd0, hx0, hy0, _, _, _, _, _, _, hrB, _⟩ :=
    share_scan exOpts3_ok (prm := exPrm)
    (by show (0 : ℝ) ≤ 4 / 5; norm_num) (by show (4 / 5 : ℝ) ≤ 1; norm_num)
    (by show (1 / 100 : ℝ) ≤ 1; norm_num) (by show (2 : ℝ) < 100; norm_num) (δ := 1 / 2 ^ 40)
    hc hrun exEye_ok exSens_near rfl hsys hpair hcor
  have hb0 : 0 ≤ (x' + y') / (d' + x' + y') := by
    refine div_nonneg ?_ hW.le
    rcases hK with ⟨_, rfl, rfl, _⟩ | ⟨_, rfl, rfl, _⟩ | ⟨_, rfl, rfl, _⟩ | ⟨_, rfl, rfl, _⟩ <;> linarith
  have hσ : 1 ≤ ((List.range ([exAt (pos t.pdf) (1 / 10000) (by norm_num),
      exAt 0 (1 / 2) (by norm_num)].map fun z => (⟨z, none, 0⟩ : Rep Rpt)).length).map
        fun i => ((reps i).rB).getD 0).sum := by
    simp only [List.length_map, List.length_cons, List.length_nil, List.range_succ, List.range_zero,
      List.nil_append, List.cons_append, List.map_cons, List.map_nil, List.sum_cons, List.sum_nil,
      hrB, hfree, Option.getD_some]
    linarith
  obtain ⟨old, new, o1, o2, _, o3⟩ := C106_explained exOpts3_ok (prm := exPrm)
    (by show (0 : ℝ) ≤ 4 / 5; norm_num) (by show (4 / 5 : ℝ) ≤ 1; norm_num)
    (by show (1 / 100 : ℝ) ≤ 1; norm_num) (by show (2 : ℝ) < 100; norm_num) (δ := 1 / 2 ^ 40)
    hc hrun exEye_ok exSens_near rfl hsys hpair (by rw [h4]; norm_num) hcor
    (by show (0 : ℝ) ≤ 1; norm_num) rfl (by linarith)
    (by
      rw [hm, h4]
      have h1 := exp_small.1
      show _ * (1 : ℝ) < (1 / 20 : ℝ) * _ * (4 / 5 * seenRatio exEye a t (exAt (pos t.pdf) (1 / 10000) (by norm_num)))
      have h2 : (1 / 20 : ℝ) * 1 * (4 / 5 * (7 / 160 / (1 / 10000))) ≤ _ * _ :=
        mul_le_mul (mul_le_mul_of_nonneg_left hσ (by norm_num : (0 : ℝ) ≤ 1 / 20))
          (mul_le_mul_of_nonneg_left r1 (by norm_num : (0 : ℝ) ≤ 4 / 5)) (by norm_num) (by linarith)
      refine lt_of_lt_of_le ?_ h2
      linarith)
  refine ⟨F, s2, pos t.pdf, reps, old, new, hF, o1, ?_, hfree, fun b hb => ?_⟩
  · have := o2.length_le
    rw [h3] at this
    simpa using this
  · obtain ⟨i, w, i1, i2, i3, i4⟩ := o3 b hb
    have : i = 1 := by
      simp at i1
      omega
    subst this
    exact ⟨w, i3, i4⟩

/-- The concrete case for `C106_second`: a second report in the same place, with more clutter, five
times as likely from the target as from clutter.  The target is confirmed, the probability that the report
is not from it is below 1/6, and the report starts a second target with existence probability 0.8. -/
theorem exDouble : ∃ F s s2 q reps a b u w, run (env exOpts3) exPrm F [exScan3 [exAt 0 1 one_pos]] St.empty =
      some s ∧ s.targets = [a] ∧
    correct (env exOpts3) (sensor exOpts3 exEye) exPrm exCh F
      [⟨exAt q (1 / 100) (by norm_num), none, 0⟩] ⟨exRpt 0 0, none, 0⟩ s = some (s2, reps) ∧
    (∃ β, (reps 0).rB = some β ∧ β ≤ 1 / 6) ∧ s2.targets = [a, b] ∧ a ≠ b ∧
    s2.heap a = some u ∧ 9 / 10 ≤ u.r ∧ s2.heap b = some w ∧ w.r = 4 / 5 := by
  obtain ⟨F, s, a, t, g, hrun, h2, h3, h4, h5, h6, h7, h8, honly, s2, reps, hcor, hF⟩ :=
    exNext (fun q => [exAt q (1 / 100) (by norm_num)]) (by simp)
  obtain ⟨r1, r2, hm⟩ := here_ratio h5 h6 h7 (κ := 1 / 100) (by norm_num) (by norm_num) a
  have hc : ∀ c ∈ [exScan3 [exAt 0 1 one_pos]], SysCall exOpts3 exPrm c := by
    intro c hc
    rw [List.mem_singleton] at hc
    subst hc
    exact exScan3_ok _ (by simp)
  have hsys := exScan3_ok [exAt (pos t.pdf) (1 / 100) (by norm_num)] (by simp)
  have hpair : Pair exOpts3 s [⟨exAt (pos t.pdf) (1 / 100) (by norm_num), none, 0⟩] a t 0
      ⟨exAt (pos t.pdf) (1 / 100) (by norm_num), none, 0⟩ := by
    refine ⟨h2, rfl, ?_, ?_, fun b t' hb _ => honly b t' hb⟩
    · show (exOpts3.rbox _).1.Touch _
      rw [h8]
      have : exOpts3.rbox (exAt (pos t.pdf) (1 / 100) (by norm_num)) = exBox := by
        simp only [exOpts3, exAt]
        rw [if_neg (by norm_num)]
      rw [this]
      exact exBox_touch
    · intro i z' hi _
      have := (List.getElem?_eq_some_iff.1 hi).1
      simpa using this
  obtain ⟨old, b, w, o1, o2, _, o3, o4, _⟩ := C106_second exOpts3_ok (prm := exPrm)
    (by show (0 : ℝ) ≤ 4 / 5; norm_num) (by show (4 / 5 : ℝ) ≤ 1; norm_num)
    (by show (1 / 100 : ℝ) ≤ 1; norm_num) (by show (2 : ℝ) < 100; norm_num) (δ := 1 / 2 ^ 40)
    hc hrun exEye_ok exSens_near rfl hsys hpair (by rw [h4]; norm_num) hcor
    (by show (0 : ℝ) < 1 / 20; norm_num) (by show (1 / 20 : ℝ) ≤ 1; norm_num)
    (by show (2 : ℝ) * (1 / 100) ≤ 1 / 20; norm_num) (by show (1 / 20 : ℝ) ≤ 1 - 1 / 100; norm_num)
    (by
      rw [hm, h4]
      show _ * ((1 / 20 : ℝ) * (4 / 5 * seenRatio exEye a t (exAt (pos t.pdf) (1 / 100) (by norm_num)))) ≤
        (1 - (1 / 20 : ℝ)) * _
      have h1 := exp_small.1
      have h0 := seenRatio_nonneg exEye a t (exAt (pos t.pdf) (1 / 100) (by norm_num))
      refine le_trans (mul_le_mul h1 (mul_le_mul_of_nonneg_left (mul_le_mul_of_nonneg_left r2
        (by norm_num)) (by norm_num)) (by positivity) (by norm_num)) ?_
      norm_num)
  have hE := exp_small.2
  have hE0 := Real.exp_pos (1 / 2 ^ 40 : ℝ)
  have dlow : ∀ d : ℝ, 4 / 5 * seenRatio exEye a t (exAt (pos t.pdf) (1 / 100) (by norm_num)) ≤
      Real.exp (1 / 2 ^ 40) * d → 3 ≤ d := by
    intro d hd
    by_contra hh
    have h3 : d < 3 := lt_of_not_ge hh
    have : Real.exp (1 / 2 ^ 40 : ℝ) * d ≤ 11 / 10 * 3 :=
      mul_le_mul hE h3.le (by
        by_contra hn
        have : Real.exp (1 / 2 ^ 40 : ℝ) * d < 0 := mul_neg_of_pos_of_neg hE0 (lt_of_not_ge hn)
        linarith) (by norm_num)
    linarith
  -- the share
  obtain ⟨d, x, y, d', x', y', hK, hW, hd0, hx0, hy0, hd, _, hx, _, hy, _, hrB, _⟩ :=
    share_scan exOpts3_ok (prm := exPrm)
    (by show (0 : ℝ) ≤ 4 / 5; norm_num) (by show (4 / 5 : ℝ) ≤ 1; norm_num)
    (by show (1 / 100 : ℝ) ≤ 1; norm_num) (by show (2 : ℝ) < 100; norm_num) (δ := 1 / 2 ^ 40)
    hc hrun exEye_ok exSens_near rfl hsys hpair hcor
  rw [absent_lt (by rw [h4]; norm_num)] at hy
  rw [h4] at hd hx hy
  rw [hm] at hx
  have hd3 := dlow d hd
  have hβ : (x' + y') / (d' + x' + y') ≤ 1 / 6 := by
    have hsh := share_le hK hd0 hx0 hy0.le hW
    have hβ0 : 0 ≤ (x' + y') / (d' + x' + y') := by
      refine div_nonneg ?_ hW.le
      rcases hK with ⟨_, rfl, rfl, _⟩ | ⟨_, rfl, rfl, _⟩ | ⟨_, rfl, rfl, _⟩ | ⟨_, rfl, rfl, _⟩ <;> linarith
    have : (x' + y') / (d' + x' + y') * 3 ≤ x + y :=
      le_trans (mul_le_mul_of_nonneg_left hd3 hβ0) hsh
    linarith
  -- the old target lives
  obtain ⟨u, d, x, y, d', x', y', u1, hK, hW, hd0, hx0, hy0, hd, hx, _, hy, hu, hlive, _, hpdf⟩ :=
    seen_scan exOpts3_ok (prm := exPrm)
    (by show (0 : ℝ) ≤ 4 / 5; norm_num) (by show (4 / 5 : ℝ) ≤ 1; norm_num)
    (by show (1 / 100 : ℝ) ≤ 1; norm_num) (by show (2 : ℝ) < 100; norm_num) (δ := 1 / 2 ^ 40)
    hc hrun exEye_ok exSens_near rfl hsys hpair hcor
  rw [absent_lt (by rw [h4]; norm_num)] at hy
  rw [h4] at hd hx hy
  rw [hm] at hx
  have hd3 := dlow d hd
  have hq9 : 9 / 10 ≤ (d' + x') / (d' + x' + y') ∧ 0 ≤ d' ∧ 0 ≤ x' := by
    rw [le_div_iff₀ hW]
    rcases hK with ⟨rfl, rfl, rfl, _⟩ | ⟨rfl, rfl, rfl, h1, _⟩ | ⟨rfl, rfl, rfl, _⟩ | ⟨rfl, rfl, rfl, _⟩ <;>
      refine ⟨?_, ?_, ?_⟩ <;> linarith
  have hur : u.r = (d' + x') / (d' + x' + y') := by
    rcases hu with h | ⟨h, _⟩
    · exact h
    · linarith [hq9.1]
  have hcen := (here_component h5 h6 h7 (κ := 1 / 100) (by norm_num) (by norm_num) rfl).1
  have hsmall : covNorm u.pdf ≤ 150 := by
    rcases hpdf with h | h
    · linarith [hq9.1]
    · rw [h]
      simp only [hcen]
      exact here_small h5 h6 h7 (κ := 1 / 100) (by norm_num) (by norm_num) a rfl
        (div_nonneg hq9.2.1 hW.le) (div_nonneg hq9.2.2 hW.le)
  have hfin := hlive (by show (1 : ℝ) / 20 ≤ _; rw [hur]; linarith [hq9.1]) hsmall
  have hinv2 : Inv (env exOpts3) s2 := run_inv (env_box exOpts3) (Inv.empty _) (fun c h => sysCall_ok (by
    simp only [List.mem_cons, List.not_mem_nil, or_false] at h
    rcases h with rfl | rfl
    · exact exScan3_ok _ (by simp)
    · exact hsys)) hF
  have hw5 : w.r = 4 / 5 := by
    rw [o4]
    show min (1 : ℝ) (4 / 5) = _
    norm_num
  have hab : a ≠ b := by
    rintro rfl
    rw [hfin] at o3
    cases o3
    rw [hur] at hw5
    linarith [hq9.1]
  have hmem := (hinv2.ok.live a).1 ⟨u, hfin⟩
  have hold : old = [a] := by
    rw [o1] at hmem
    rw [h3] at o2
    rcases List.mem_append.1 hmem with h | h
    · have := List.sublist_singleton.1 o2
      rcases this with rfl | rfl
      · simp at h
      · rfl
    · exact absurd (List.mem_singleton.1 h) hab
  refine ⟨F, s, s2, pos t.pdf, reps, a, b, u, w, hrun, h3, hcor, ⟨_, hrB, hβ⟩, ?_, hab, hfin, ?_, o3, hw5⟩
  · rw [o1, hold]; rfl
  · rw [hur]; exact hq9.1

/-- **C106 refuted** A target that a report starts may have an existence probability far above the
probability that the report is not explained: the `rB` of the scan are divided by their sum, so what a
single report starts has existence probability `min(lambdaB, rB_max)` as soon as its `rB` reaches `r_lim`.
With the default parameters two reports in the same place are enough for two targets with existence
probabilities 0.9 and 0.8, where the tracker itself gives the second report less than one chance in six of
being something new. -/
theorem C106_newborn_refuted : ¬ ∀ (fuel : Nat) (calls : List (Call Pdf Rpt)) (s s1 : St Pdf) (sn : PSens)
    (ch : Choices) (z dflt : Rep Rpt) (reps : Nat → Rep Rpt), (∀ c ∈ calls, SysCall exOpts3 exPrm c) →
    SysCall exOpts3 exPrm (.correct (sensor exOpts3 sn) ch [z] dflt) →
    run (env exOpts3) exPrm fuel calls St.empty = some s →
    correct (env exOpts3) (sensor exOpts3 sn) exPrm ch fuel [z] dflt s = some (s1, reps) →
    ∀ b w, b ∉ s.targets → s1.heap b = some w → ∃ β, (reps 0).rB = some β ∧ w.r ≤ β := by
  intro H
  obtain ⟨F, s, s2, q, reps, a, b, u, w, h1, h2, h3, ⟨β, h4, h5⟩, _, h6, _, _, h7, h8⟩ := exDouble
  obtain ⟨β', g1, g2⟩ := H F _ s s2 exEye exCh _ _ reps (by
    intro c hc
    rw [List.mem_singleton] at hc
    subst hc
    exact exScan3_ok _ (by simp)) (exScan3_ok [exAt q (1 / 100) (by norm_num)] (by simp)) h1 h3 b w
    (by rw [h2]; simpa using h6.symm) h7
  rw [h4] at g1
  cases g1
  rw [h8] at g2
  linarith

end Verif.System

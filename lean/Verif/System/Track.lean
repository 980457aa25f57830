import Verif.System.Explained

/-!
# C109: an object that is reported at every scan stays one track

The odds of existence that the predictions take away are given back by the next report.  By induction
over the calls, the target keeps its place, its id and its existence probability, and no second target
appears beside it.
-/

namespace Verif.System

open Verif.Tracker Matrix
open Verif.Lap (XR)
open Verif.Murty (PickOk)
open Verif.Hyp

/-- The density after a scan, `cluster.hpp:143-160` and `target.hpp:106-120`: the two alternatives
"detected" and "missed" with weights `w` and `x`, for all weights that can come up. -/
def Compact (k : Opts) (prm : Params) (ρ : ℝ) (sn : PSens) (a : Nat) (t : Tgt Pdf) (z : Rpt) : Prop :=
  ∀ w x, 0 ≤ w → 0 ≤ x → ρ ≤ w + x → w + x ≤ 1 →
    covNorm (toGlobal k (joinPdf k (toLocal (center [z.1.x, pos t.pdf]) t.pdf) [w, x]
      [(sensor k sn).upd a (toLocal (center [z.1.x, pos t.pdf]) t.pdf)
        (rLocal (center [z.1.x, pos t.pdf]) z),
       (sensor k sn).missPdf a (toLocal (center [z.1.x, pos t.pdf]) t.pdf)])) ≤ prm.covlim

/-- The call is a prediction that does not blur the target `t` at address `a` too much, or a scan with a
report that touches only this target, and only it, is at least `lam` times as likely from it as from
clutter, and leaves it sharp enough; the logarithms of the sensor are exact up to `δ`. -/
def Followed (k : Opts) (prm : Params) (δ ρ lam : ℝ) (s : St Pdf) (a : Nat) (t : Tgt Pdf) :
    Call Pdf Rpt → Prop
  | .predict m _ => covNorm (predictTgt (env k) m t).pdf ≤ prm.covlim
  | .correct S ch scan _ => ch.wt = ew ∧ ∃ sn j z, SensOk sn ∧ S = sensor k sn ∧
      (∀ x, 0 ≤ x → Near δ (sn.lg x) x) ∧ Pair k s scan a t j z ∧ lam ≤ seenRatio sn a t z.val ∧
      Compact k prm ρ sn a t z.val

/-- The survival factors of the predictions between two scans multiply to at least `σ`; `f` is the product
since the last one. -/
def Often (σ : ℝ) : ℝ → List (Call Pdf Rpt) → Prop
  | f, [] => σ ≤ f
  | f, .predict m _ :: l => Often σ (f * m.factor) l
  | f, .correct .. :: l => σ ≤ f ∧ Often σ 1 l

/-- The numbers fit: reports that are `lam` times as likely from the target as from clutter bring an
existence probability of `ρ σ` back to `ρ`. -/
structure Fits (prm : Params) (δ ρ σ lam : ℝ) : Prop where
  low : 1 / 1000000 ≤ ρ
  top : ρ ≤ 1 - Real.exp (-30000)
  pos : 0 < σ
  lim : prm.rlim ≤ ρ * σ
  likely : Real.exp (2 * δ) ≤ lam
  odds : Real.exp (2 * δ) * (ρ * (1 - ρ * σ)) ≤ lam * (ρ * σ) * (1 - ρ)

theorem factor_bounds {k : Opts} {prm : Params} {m : Motion Pdf} {ord : List Nat → List Nat}
    (h : SysCall k prm (.predict m ord)) : 0 ≤ m.factor ∧ m.factor ≤ 1 ∧ ∃ F Q, m.pdf = moveMix F Q := by
  obtain ⟨_, ⟨pS, q, dT, g1, g2, _, g4, rfl⟩ | ⟨pS, Q, g1, g2, _, rfl⟩⟩ := h
  · exact ⟨Real.rpow_nonneg g1 _, Real.rpow_le_one g1 g2 g4, _, _, rfl⟩
  · exact ⟨g1, g2, _, _, rfl⟩

theorem often_le {k : Opts} {prm : Params} {σ : ℝ} : ∀ {l : List (Call Pdf Rpt)} {f : ℝ}, 0 ≤ f →
    (∀ c ∈ l, SysCall k prm c) → Often σ f l → σ ≤ f
  | [], _, _, _, h => h
  | .correct .. :: _, _, _, _, h => h.1
  | .predict m ord :: l, f, hf, hc, h => by
    obtain ⟨h0, h1, _⟩ := factor_bounds (hc (.predict m ord) (by simp))
    have := often_le (l := l) (mul_nonneg hf h0) (fun c hm => hc c (by simp [hm])) h
    have h2 := mul_le_mul_of_nonneg_left h1 hf
    linarith

/-- A scan that follows the target. -/
theorem followed_scan {k : Opts} (hk : OptsOk k) {prm : Params} (hB0 : 0 ≤ prm.rBmax)
    (hB1 : prm.rBmax ≤ 1) (hw : prm.wlim ≤ 1) (hn : 2 < prm.nhypMax) {δ ρ σ lam : ℝ}
    (hfit : Fits prm δ ρ σ lam) (hσ : σ ≤ 1)
    {calls : List (Call Pdf Rpt)} (hc : ∀ c ∈ calls, SysCall k prm c) {fuel : Nat} {s : St Pdf}
    (e : run (env k) prm fuel calls St.empty = some s) {sn : PSens} (hs : SensOk sn)
    (hlog : ∀ x, 0 ≤ x → Near δ (sn.lg x) x) {ch : Choices} (hwt : ch.wt = ew)
    {scan : List (Rep Rpt)} {dflt : Rep Rpt} (hsys : SysCall k prm (.correct (sensor k sn) ch scan dflt))
    {a j : Nat} {t : Tgt Pdf} {z : Rep Rpt} (hpair : Pair k s scan a t j z) (hr : ρ * σ ≤ t.r)
    {s1 : St Pdf} {reps : Nat → Rep Rpt}
    (e1 : correct (env k) (sensor k sn) prm ch fuel scan dflt s = some (s1, reps))
    (hseen : lam ≤ seenRatio sn a t z.val) (hcomp : Compact k prm ρ sn a t z.val) :
    ∃ u, s1.heap a = some u ∧ u.id = t.id ∧ ρ ≤ u.r := by
  have ht := hpair.1
  obtain ⟨⟨hr0, hr1⟩, _, _, hcmp, hsum, _⟩ := C66_densities_proper hk hB0 hB1 hc e a t ht
  obtain ⟨u, d, x, y, d', x', y', u1, hK, hW, hd0, hx0, hy0, hd, hx, _, hy, hu, hlive, _, hpdf⟩ :=
    seen_scan hk hB0 hB1 hw hn hc e hs hlog hwt hsys hpair e1
  have hρ0 : 0 < ρ := lt_of_lt_of_le (by norm_num) hfit.low
  have hε : 0 < Real.exp (-30000) := Real.exp_pos _
  have hρ1 : ρ < 1 := by linarith [hfit.top]
  have hm1 : missProb sn a t ≤ 1 := by
    have := (missedEta_bounds (hs.miss a) (m := t.pdf.mix) hcmp).1
    unfold missProb
    linarith
  have hE : 0 < Real.exp δ := Real.exp_pos _
  have hE2 : Real.exp (2 * δ) = Real.exp δ * Real.exp δ := by rw [← Real.exp_add]; ring_nf
  have hlam := hfit.likely
  have hodds := hfit.odds
  rw [hE2] at hlam hodds
  set E := Real.exp δ with hEdef
  have hl0 : 0 < lam := lt_of_lt_of_le (mul_pos hE hE) hlam
  have hd1 : t.r * lam ≤ E * d := (mul_le_mul_of_nonneg_left hseen hr0).trans hd
  have hxd : x ≤ d := by
    refine le_of_mul_le_mul_left ?_ hE
    calc E * x ≤ E * (E * (t.r * missProb sn a t)) := by gcongr
      _ ≤ E * (E * (t.r * 1)) := by gcongr
      _ = t.r * (E * E) := by ring
      _ ≤ t.r * lam := by gcongr
      _ ≤ E * d := hd1
  have hkey : d * y' ≤ (d' + x') * y ∧ 0 ≤ y' ∧ 0 ≤ d' ∧ 0 ≤ x' := by
    rcases hK with ⟨rfl, rfl, rfl, _⟩ | ⟨rfl, rfl, rfl, h1, _⟩ | ⟨rfl, rfl, rfl, _⟩ | ⟨rfl, rfl, rfl, _⟩
    · exact ⟨mul_le_mul_of_nonneg_right (by linarith) hy0.le, hy0.le, hd0, hx0⟩
    · exact ⟨mul_le_mul_of_nonneg_right (by linarith) hy0.le, hy0.le, le_refl _, hx0⟩
    · exact ⟨mul_le_mul_of_nonneg_right (by linarith) hy0.le, hy0.le, hd0, le_refl _⟩
    · refine ⟨?_, le_refl _, hd0, hx0⟩
      rw [mul_zero]
      exact mul_nonneg (by linarith) hy0.le
  obtain ⟨k1, k2, k3, k4⟩ := hkey
  have ho : t.r * lam * y' ≤ E * E * absent t.r * (d' + x') := by
    calc t.r * lam * y' ≤ E * d * y' := mul_le_mul_of_nonneg_right hd1 k2
      _ = E * (d * y') := by ring
      _ ≤ E * ((d' + x') * y) := mul_le_mul_of_nonneg_left k1 hE.le
      _ ≤ E * ((d' + x') * (E * absent t.r)) := by gcongr
      _ = _ := by ring
  set q := (d' + x') / (d' + x' + y') with hq
  have hq1 : 1 - q = y' / (d' + x' + y') := by
    rw [hq, eq_div_iff hW.ne', sub_mul, div_mul_cancel₀ _ hW.ne']
    ring
  have hoq : t.r * lam * (1 - q) ≤ E * E * absent t.r * q := by
    rw [hq1, hq, ← mul_div_assoc, ← mul_div_assoc]
    exact div_le_div_of_nonneg_right ho hW.le
  have hqle : q ≤ 1 := by
    rw [hq]
    exact div_le_one_of_le₀ (by linarith) hW.le
  have hρq : ρ ≤ q := by
    by_contra hlt
    have hlt := lt_of_not_ge hlt
    have hA := absent_pos t.r
    have hEA : 0 < E * E * absent t.r := mul_pos (mul_pos hE hE) hA
    have h1 : t.r * lam * (1 - ρ) ≤ t.r * lam * (1 - q) :=
      mul_le_mul_of_nonneg_left (by linarith) (mul_nonneg hr0 hl0.le)
    have h2 : E * E * absent t.r * q < E * E * absent t.r * ρ := mul_lt_mul_of_pos_left hlt hEA
    rcases hr1.lt_or_eq with h | h
    · rw [absent_lt h] at h2 hoq
      have h3 : lam * (ρ * σ) * (1 - ρ) ≤ lam * t.r * (1 - ρ) := by
        have : 0 ≤ 1 - ρ := by linarith
        gcongr
      have h4 : E * E * (ρ * (1 - t.r)) ≤ E * E * (ρ * (1 - ρ * σ)) := by gcongr
      linarith
    · have hab : absent t.r = Real.exp (-30000) := by
        unfold absent
        rw [if_neg (by linarith)]
      rw [hab] at h2 hoq
      rw [h] at h1 hoq
      have h3 : E * E * Real.exp (-30000) * ρ ≤ E * E * Real.exp (-30000) * 1 := by gcongr
      have h4 : E * E * Real.exp (-30000) ≤ lam * (1 - ρ) :=
        mul_le_mul hlam (by linarith [hfit.top]) hε.le hl0.le
      linarith
  have hur : u.r = q := by
    rcases hu with h | ⟨h, _⟩
    · exact h
    · linarith [hfit.low]
  have hpdf := hpdf.resolve_left (by linarith [hfit.low])
  have hsumq : d' / (d' + x' + y') + x' / (d' + x' + y') = q := by rw [← add_div]
  refine ⟨u, hlive ?_ ?_, u1, by rw [hur]; exact hρq⟩
  · rw [hur]
    have := mul_le_mul_of_nonneg_left hσ hρ0.le
    linarith [hfit.lim]
  · rw [hpdf]
    exact hcomp _ _ (div_nonneg k3 hW.le) (div_nonneg k4 hW.le) (by rw [hsumq]; exact hρq)
      (by rw [hsumq]; exact hqle)

/-- A prediction that follows the target. -/
theorem followed_predict {k : Opts} (hk : OptsOk k) {prm : Params} (hB0 : 0 ≤ prm.rBmax)
    (hB1 : prm.rBmax ≤ 1) {calls : List (Call Pdf Rpt)} (hc : ∀ c ∈ calls, SysCall k prm c) {fuel : Nat}
    {s : St Pdf} (e : run (env k) prm fuel calls St.empty = some s) {a : Nat} {t : Tgt Pdf}
    (ht : s.heap a = some t) {m : Motion Pdf} {ord : List Nat → List Nat}
    (hsys : SysCall k prm (.predict m ord)) (hlim : prm.rlim ≤ t.r * m.factor)
    (hcov : covNorm (predictTgt (env k) m t).pdf ≤ prm.covlim) {s1 : St Pdf}
    (e1 : predict (env k) prm m ord s = some s1) :
    s1.heap a = some (predictTgt (env k) m t) ∧ (predictTgt (env k) m t).r = t.r * m.factor ∧
    ∀ b u, s1.heap b = some u → ∃ t', s.heap b = some t' := by
  obtain ⟨s2, hp, hf⟩ := C28_predict (env_box k) prm fuel calls (fun c h => sysCall_ok (hc c h)) s e m
    hsys.1
  rw [e1] at hp
  obtain rfl := Option.some.inj hp
  obtain ⟨_, _, _, _, hs1, _⟩ := C66_densities_proper hk hB0 hB1 hc e a t ht
  obtain ⟨_, _, F, Q, hm⟩ := factor_bounds hsys
  have hr := (predict_comps (k := k) hm hs1).2
  refine ⟨?_, hr, fun b u hu => ?_⟩
  · cases h : s1.heap a with
    | none =>
      rcases (hf a).2 t ht h with h1 | h1
      · rw [hr] at h1; linarith
      · exact absurd hcov (not_le.2 h1)
    | some u =>
      obtain ⟨_, _, t', ht', rfl⟩ := (hf a).1 u h
      rw [ht] at ht'
      cases ht'
      rfl
  · obtain ⟨_, _, t', ht', _⟩ := (hf b).1 u hu
    exact ⟨t', ht'⟩

theorem followed {k : Opts} (hk : OptsOk k) {prm : Params} (hB0 : 0 ≤ prm.rBmax)
    (hB1 : prm.rBmax ≤ 1) (hw : prm.wlim ≤ 1) (hn : 2 < prm.nhypMax) {δ ρ σ lam : ℝ}
    (hfit : Fits prm δ ρ σ lam) {fuel : Nat} {a : Nat} : ∀ (later calls : List (Call Pdf Rpt))
    (s : St Pdf) (t : Tgt Pdf) (f : ℝ), 0 ≤ f → f ≤ 1 →
    (∀ c ∈ calls ++ later, SysCall k prm c) → run (env k) prm fuel calls St.empty = some s →
    Often σ f later →
    (∀ l1 c l2 st t', later = l1 ++ c :: l2 → run (env k) prm fuel l1 s = some st →
      st.heap a = some t' → t'.id = t.id → Followed k prm δ ρ lam st a t' c) →
    s.heap a = some t → ρ * f ≤ t.r → ∀ s', run (env k) prm fuel later s = some s' →
    ∃ u, s'.heap a = some u ∧ u.id = t.id ∧ ρ * σ ≤ u.r ∧
      ∀ l c, later = l ++ [c] → isScan c = true → ρ ≤ u.r := by
  have hρ0 : 0 < ρ := lt_of_lt_of_le (by norm_num) hfit.low
  intro later
  induction later with
  | nil =>
    intro calls s t f hf0 hf1 hc e hof _ ht hr s' e'
    simp only [run, Option.some.injEq] at e'
    subst e'
    refine ⟨t, ht, rfl, le_trans (mul_le_mul_of_nonneg_left hof hρ0.le) hr, fun l c h => ?_⟩
    simp at h
  | cons c l ih =>
    intro calls s t f hf0 hf1 hc e hof hfol ht hr s' e'
    have hcc : ∀ d ∈ calls, SysCall k prm d := fun d h => hc d (List.mem_append_left _ h)
    have hsys : SysCall k prm c := hc c (by simp)
    have hσf : σ ≤ f := often_le hf0 (fun d h => hc d (List.mem_append_right _ h)) hof
    simp only [run] at e'
    cases hst : step (env k) prm fuel s c with
    | none => rw [hst] at e'; cases e'
    | some s1 =>
      rw [hst] at e'
      have hrun1 : run (env k) prm fuel (calls ++ [c]) St.empty = some s1 := by
        rw [run_append, e, Option.bind_some]
        simp only [run, hst]
      have key : ∃ f1 u, 0 ≤ f1 ∧ f1 ≤ 1 ∧ Often σ f1 l ∧ s1.heap a = some u ∧ u.id = t.id ∧
          ρ * f1 ≤ u.r ∧ (isScan c = true → ρ ≤ u.r) := by
        have hwc := hfol [] c l s t rfl rfl ht rfl
        cases c with
        | predict m ord =>
          obtain ⟨g0, g1, _⟩ := factor_bounds hsys
          have hof' : Often σ (f * m.factor) l := hof
          have hσ' : σ ≤ f * m.factor :=
            often_le (mul_nonneg hf0 g0) (fun d h => hc d (by simp [h])) hof'
          have hr' : ρ * (f * m.factor) ≤ t.r * m.factor := by
            rw [← mul_assoc]
            exact mul_le_mul_of_nonneg_right hr g0
          obtain ⟨h1, h2, _⟩ := followed_predict hk hB0 hB1 hcc e ht hsys
            (by
              have := mul_le_mul_of_nonneg_left hσ' hρ0.le
              linarith [hfit.lim]) hwc hst
          exact ⟨f * m.factor, _, mul_nonneg hf0 g0, mul_le_one₀ hf1 g0 g1, hof', h1, rfl,
            by rw [h2]; exact hr', fun h => by simp [isScan] at h⟩
        | correct S ch scan dflt =>
          obtain ⟨hwt, sn, j, z, hs, rfl, hlog, hpair, hseen, hcomp⟩ := hwc
          have h2 : (correct (env k) (sensor k sn) prm ch fuel scan dflt s).map (·.1) = some s1 := hst
          obtain ⟨⟨s2, reps⟩, h3, rfl⟩ := Option.map_eq_some_iff.1 h2
          obtain ⟨u, h4, h5, h6⟩ := followed_scan hk hB0 hB1 hw hn hfit (hσf.trans hf1) hcc e hs hlog hwt
            hsys hpair (le_trans (mul_le_mul_of_nonneg_left hσf hρ0.le) hr) h3 hseen hcomp
          exact ⟨1, u, zero_le_one, le_refl _, hof.2, h4, h5, by rw [mul_one]; exact h6, fun _ => h6⟩
      obtain ⟨f1, t1, k1, k2, k3, k4, k5, k6, k7⟩ := key
      obtain ⟨u, m1, m2, m3, m4⟩ := ih (calls ++ [c]) s1 t1 f1 k1 k2 (by simpa using hc) hrun1 k3
        (fun l1 d l2 st t' h1 h2 h3 h4 => hfol (c :: l1) d l2 st t' (by rw [h1]; rfl)
          (by simp only [run, hst]; exact h2) h3 (h4.trans k5)) k4 k6 s' e'
      refine ⟨u, m1, m2.trans k5, m3, fun l' d h hd => ?_⟩
      cases l' with
      | nil =>
        simp only [List.nil_append, List.cons.injEq] at h
        obtain ⟨rfl, rfl⟩ := h
        simp only [run, Option.some.injEq] at e'
        subst e'
        rw [m1] at k4
        cases k4
        exact k7 hd
      | cons c' l' =>
        simp only [List.cons_append, List.cons.injEq] at h
        exact m4 l' d h.2 hd

/-- **C109** After any history, a target that has a report of its own at every scan from now on, whatever
else the scans hold, is never lost: it keeps its place and its id, its existence probability is at least
`ρ σ` all the time and at least `ρ` after each scan. -/
theorem C109_kept {k : Opts} (hk : OptsOk k) {prm : Params} (hB0 : 0 ≤ prm.rBmax)
    (hB1 : prm.rBmax ≤ 1) (hw : prm.wlim ≤ 1) (hn : 2 < prm.nhypMax) {δ ρ σ lam : ℝ}
    (hfit : Fits prm δ ρ σ lam) {fuel : Nat} {calls later : List (Call Pdf Rpt)}
    (hc : ∀ c ∈ calls ++ later, SysCall k prm c) {s s' : St Pdf}
    (e : run (env k) prm fuel calls St.empty = some s)
    (e' : run (env k) prm fuel later s = some s') {a : Nat} {t : Tgt Pdf} (ht : s.heap a = some t)
    (hr : ρ ≤ t.r) (hof : Often σ 1 later)
    (hfol : ∀ l1 c l2 st t', later = l1 ++ c :: l2 → run (env k) prm fuel l1 s = some st →
      st.heap a = some t' → t'.id = t.id → Followed k prm δ ρ lam st a t' c) :
    ∃ u, s'.heap a = some u ∧ u.id = t.id ∧ ρ * σ ≤ u.r ∧
      ∀ l c, later = l ++ [c] → isScan c = true → ρ ≤ u.r :=
  followed hk hB0 hB1 hw hn hfit later calls s t 1 zero_le_one (le_refl _) hc e hof hfol ht
    (by rw [mul_one]; exact hr) s' e'

/-- The share `rB` of a report that a target explains is small. -/
theorem followed_share {k : Opts} (hk : OptsOk k) {prm : Params} (hB0 : 0 ≤ prm.rBmax)
    (hB1 : prm.rBmax ≤ 1) (hw : prm.wlim ≤ 1) (hn : 2 < prm.nhypMax) {δ ρ σ lam : ℝ}
    (hfit : Fits prm δ ρ σ lam) (hσ : σ ≤ 1)
    {calls : List (Call Pdf Rpt)} (hc : ∀ c ∈ calls, SysCall k prm c) {fuel : Nat} {s : St Pdf}
    (e : run (env k) prm fuel calls St.empty = some s) {sn : PSens} (hs : SensOk sn)
    (hlog : ∀ x, 0 ≤ x → Near δ (sn.lg x) x) {ch : Choices} (hwt : ch.wt = ew)
    {scan : List (Rep Rpt)} {dflt : Rep Rpt} (hsys : SysCall k prm (.correct (sensor k sn) ch scan dflt))
    {a j : Nat} {t : Tgt Pdf} {z : Rep Rpt} (hpair : Pair k s scan a t j z) (hr : ρ * σ ≤ t.r)
    {s1 : St Pdf} {reps : Nat → Rep Rpt}
    (e1 : correct (env k) (sensor k sn) prm ch fuel scan dflt s = some (s1, reps))
    (hseen : lam ≤ seenRatio sn a t z.val) :
    ∃ b, (reps j).rB = some b ∧ b * (ρ * σ * lam) ≤ Real.exp (2 * δ) := by
  have ht := hpair.1
  obtain ⟨⟨hr0, hr1⟩, _, _, hcmp, hsum, _⟩ := C66_densities_proper hk hB0 hB1 hc e a t ht
  obtain ⟨d, x, y, d', x', y', hK, hW, hd0, hx0, hy0, hd, _, hx, _, hy, _, hrB, _⟩ :=
    share_scan hk hB0 hB1 hw hn hc e hs hlog hwt hsys hpair e1
  refine ⟨_, hrB, ?_⟩
  have hρ0 : 0 < ρ := lt_of_lt_of_le (by norm_num) hfit.low
  have hρ1 : ρ < 1 := by linarith [hfit.top, Real.exp_pos (-30000)]
  have hρσ : 0 < ρ * σ := mul_pos hρ0 hfit.pos
  have hrpos : 0 < t.r := lt_of_lt_of_le hρσ hr
  have hm1 : missProb sn a t ≤ 1 := by
    have := (missedEta_bounds (hs.miss a) (m := t.pdf.mix) hcmp).1
    unfold missProb
    linarith
  have hE : 0 < Real.exp δ := Real.exp_pos _
  have hE2 : Real.exp (2 * δ) = Real.exp δ * Real.exp δ := by rw [← Real.exp_add]; ring_nf
  have hl0 : 0 < lam := lt_of_lt_of_le (Real.exp_pos _) hfit.likely
  rw [hE2]
  set E := Real.exp δ
  have hEE : 0 < E * E := mul_pos hE hE
  -- `ρ σ` of "there or not" is at most "there"
  have hA : ρ * σ * (t.r + absent t.r) ≤ t.r := by
    rcases hr1.lt_or_eq with h | h
    · rw [absent_lt h]
      linarith
    · have hab : absent t.r = Real.exp (-30000) := by
        unfold absent
        rw [if_neg (by linarith)]
      rw [hab, h]
      have hε := Real.exp_pos (-30000)
      have h3 : ρ * σ ≤ 1 - Real.exp (-30000) := by
        have := mul_le_mul_of_nonneg_left hσ hρ0.le
        linarith [hfit.top]
      have h4 := mul_le_mul_of_nonneg_right h3 (by linarith : 0 ≤ 1 + Real.exp (-30000))
      nlinarith
  have hsh := share_le hK hd0 hx0 hy0.le hW
  have hb0 : 0 ≤ (x' + y') / (d' + x' + y') := by
    refine div_nonneg ?_ hW.le
    rcases hK with ⟨_, rfl, rfl, _⟩ | ⟨_, rfl, rfl, _⟩ | ⟨_, rfl, rfl, _⟩ | ⟨_, rfl, rfl, _⟩ <;> linarith
  set b := (x' + y') / (d' + x' + y')
  have h1 : b * (t.r * lam) ≤ E * E * (t.r + absent t.r) := by
    calc b * (t.r * lam) ≤ b * (t.r * seenRatio sn a t z.val) := by gcongr
      _ ≤ b * (E * d) := mul_le_mul_of_nonneg_left hd hb0
      _ = E * (b * d) := by ring
      _ ≤ E * (x + y) := mul_le_mul_of_nonneg_left hsh hE.le
      _ ≤ E * (E * (t.r * missProb sn a t) + E * absent t.r) :=
          mul_le_mul_of_nonneg_left (add_le_add hx hy) hE.le
      _ ≤ E * (E * (t.r * 1) + E * absent t.r) := by gcongr
      _ = _ := by ring
  refine le_of_mul_le_mul_left ?_ hrpos
  calc t.r * (b * (ρ * σ * lam)) = ρ * σ * (b * (t.r * lam)) := by ring
    _ ≤ ρ * σ * (E * E * (t.r + absent t.r)) := mul_le_mul_of_nonneg_left h1 hρσ.le
    _ = E * E * (ρ * σ * (t.r + absent t.r)) := by ring
    _ ≤ E * E * t.r := mul_le_mul_of_nonneg_left hA hEE.le
    _ = t.r * (E * E) := by ring

/-- The call is a prediction, or a scan of at most `N` reports, each of which touches a target. -/
def NoStrangers (k : Opts) (N : Nat) (s : St Pdf) : Call Pdf Rpt → Prop
  | .predict .. => True
  | .correct _ _ scan _ => scan.length ≤ N ∧
      ∀ z ∈ scan, ∃ a t, s.heap a = some t ∧ (k.rbox z.val).1.Touch t.pdf.box.1

/-- A scan in which every report is explained by a target starts no target. -/
theorem followed_none {k : Opts} (hk : OptsOk k) {prm : Params} (hB0 : 0 ≤ prm.rBmax)
    (hB1 : prm.rBmax ≤ 1) (hw : prm.wlim ≤ 1) (hn : 2 < prm.nhypMax) {δ ρ σ lam : ℝ}
    (hfit : Fits prm δ ρ σ lam) (hσ : σ ≤ 1) {N : Nat} (hlim : 0 < prm.rlim)
    (hone : Real.exp (2 * δ) * N < prm.rlim * (ρ * σ) * lam)
    {calls : List (Call Pdf Rpt)} (hc : ∀ c ∈ calls, SysCall k prm c) {fuel : Nat} {s : St Pdf}
    (e : run (env k) prm fuel calls St.empty = some s) {S : Sensor Pdf Rpt} {ch : Choices}
    {scan : List (Rep Rpt)} {dflt : Rep Rpt} (hsys : SysCall k prm (.correct S ch scan dflt))
    (hfol : ∀ a t, s.heap a = some t → Followed k prm δ ρ lam s a t (.correct S ch scan dflt))
    (hno : NoStrangers k N s (.correct S ch scan dflt)) (hr : ∀ a t, s.heap a = some t → ρ * σ ≤ t.r)
    {s1 : St Pdf} {reps : Nat → Rep Rpt}
    (e1 : correct (env k) S prm ch fuel scan dflt s = some (s1, reps)) :
    s1.targets.Sublist s.targets := by
  obtain ⟨hlen, htouch⟩ := hno
  have hρ0 : 0 < ρ := lt_of_lt_of_le (by norm_num) hfit.low
  have hl0 : 0 < lam := lt_of_lt_of_le (Real.exp_pos _) hfit.likely
  have hpos : 0 < ρ * σ * lam := mul_pos (mul_pos hρ0 hfit.pos) hl0
  have hsmall : ∀ j < scan.length, ((reps j).rB).getD 0 ≤ Real.exp (2 * δ) / (ρ * σ * lam) := by
    intro j hj
    obtain ⟨a, t, ht, htt⟩ := htouch _ (List.getElem_mem hj)
    obtain ⟨hwt, sn, i, z, hs, rfl, hlog, hpair, hseen, _⟩ := hfol a t ht
    obtain rfl : j = i := hpair.2.2.2.1 j _ (List.getElem?_eq_getElem hj) htt
    obtain ⟨b, hb, hb1⟩ := followed_share hk hB0 hB1 hw hn hfit hσ hc e hs hlog hwt hsys hpair (hr a t ht)
      e1 hseen
    rw [hb, Option.getD_some, le_div_iff₀ hpos]
    exact hb1
  have hsum : ((List.range scan.length).map fun i => ((reps i).rB).getD 0).sum < prm.rlim := by
    have h1 := List.sum_le_card_nsmul ((List.range scan.length).map fun i => ((reps i).rB).getD 0)
      (Real.exp (2 * δ) / (ρ * σ * lam)) (by
        intro x hx
        obtain ⟨i, hi, rfl⟩ := List.mem_map.1 hx
        exact hsmall i (List.mem_range.1 hi))
    rw [List.length_map, List.length_range, nsmul_eq_mul] at h1
    have h2 : (scan.length : ℝ) * (Real.exp (2 * δ) / (ρ * σ * lam)) ≤
        N * (Real.exp (2 * δ) / (ρ * σ * lam)) :=
      mul_le_mul_of_nonneg_right (by exact_mod_cast hlen) (div_nonneg (Real.exp_pos _).le hpos.le)
    have h3 : N * (Real.exp (2 * δ) / (ρ * σ * lam)) < prm.rlim := by
      rw [← mul_div_assoc, div_lt_iff₀ hpos]
      linarith
    linarith
  obtain ⟨old, new, idx, xs, b1, b2, _, _, _, _, _, b8, _⟩ := C25_births (env_box k) prm fuel calls
    (fun c h => sysCall_ok (hc c h)) s e S ch scan dflt (sysCall_ok hsys) s1 reps e1
  have := b8 (Or.inl hsum)
  rw [b1, this, List.append_nil]
  exact b2

theorem followed_all {k : Opts} (hk : OptsOk k) {prm : Params} (hB0 : 0 ≤ prm.rBmax)
    (hB1 : prm.rBmax ≤ 1) (hw : prm.wlim ≤ 1) (hn : 2 < prm.nhypMax) {δ ρ σ lam : ℝ}
    (hfit : Fits prm δ ρ σ lam) {N : Nat} (hlim : 0 < prm.rlim)
    (hone : Real.exp (2 * δ) * N < prm.rlim * (ρ * σ) * lam) {fuel : Nat} :
    ∀ (later calls : List (Call Pdf Rpt)) (s : St Pdf) (f : ℝ), 0 ≤ f → f ≤ 1 →
      (∀ c ∈ calls ++ later, SysCall k prm c) → run (env k) prm fuel calls St.empty = some s →
      Often σ f later →
      (∀ l1 c l2 st, later = l1 ++ c :: l2 → run (env k) prm fuel l1 s = some st →
        NoStrangers k N st c ∧ ∀ a t, st.heap a = some t → Followed k prm δ ρ lam st a t c) →
      (∀ a t, s.heap a = some t → ρ * f ≤ t.r) → ∀ s', run (env k) prm fuel later s = some s' →
      ∀ a, (∀ t, s.heap a = some t → ∃ u, s'.heap a = some u ∧ u.id = t.id ∧ ρ * σ ≤ u.r) ∧
        (s.heap a = none → s'.heap a = none) := by
  have hρ0 : 0 < ρ := lt_of_lt_of_le (by norm_num) hfit.low
  intro later
  induction later with
  | nil =>
    intro calls s f _ _ _ _ hof _ hr s' e' a
    simp only [run, Option.some.injEq] at e'
    subst e'
    exact ⟨fun t ht => ⟨t, ht, rfl, le_trans (mul_le_mul_of_nonneg_left hof hρ0.le) (hr a t ht)⟩, id⟩
  | cons c l ih =>
    intro calls s f hf0 hf1 hc e hof hfol hr s' e' a
    have hcc : ∀ d ∈ calls, SysCall k prm d := fun d h => hc d (List.mem_append_left _ h)
    have hsys : SysCall k prm c := hc c (by simp)
    have hσf : σ ≤ f := often_le hf0 (fun d h => hc d (List.mem_append_right _ h)) hof
    have hr' : ∀ a t, s.heap a = some t → ρ * σ ≤ t.r := fun a t ht =>
      le_trans (mul_le_mul_of_nonneg_left hσf hρ0.le) (hr a t ht)
    simp only [run] at e'
    cases hst : step (env k) prm fuel s c with
    | none => rw [hst] at e'; cases e'
    | some s1 =>
      rw [hst] at e'
      have hrun1 : run (env k) prm fuel (calls ++ [c]) St.empty = some s1 := by
        rw [run_append, e, Option.bind_some]
        simp only [run, hst]
      have hinv := run_inv (env_box k) (Inv.empty _) (fun d h => sysCall_ok (hcc d h)) e
      have hinv1 := step_inv (env_box k) hinv (sysCall_ok hsys) hst
      have key : ∃ f1, 0 ≤ f1 ∧ f1 ≤ 1 ∧ Often σ f1 l ∧
          (∀ b t, s.heap b = some t → ∃ u, s1.heap b = some u ∧ u.id = t.id ∧ ρ * f1 ≤ u.r) ∧
          ∀ b, s.heap b = none → s1.heap b = none := by
        obtain ⟨hno, hwc⟩ := hfol [] c l s rfl rfl
        cases c with
        | predict m ord =>
          obtain ⟨g0, g1, _⟩ := factor_bounds hsys
          have hof' : Often σ (f * m.factor) l := hof
          have hσ' : σ ≤ f * m.factor :=
            often_le (mul_nonneg hf0 g0) (fun d h => hc d (by simp [h])) hof'
          refine ⟨f * m.factor, mul_nonneg hf0 g0, mul_le_one₀ hf1 g0 g1, hof', fun b t ht => ?_,
            fun b hb => ?_⟩
          · have hr2 : ρ * (f * m.factor) ≤ t.r * m.factor := by
              rw [← mul_assoc]
              exact mul_le_mul_of_nonneg_right (hr b t ht) g0
            obtain ⟨h1, h2, _⟩ := followed_predict hk hB0 hB1 hcc e ht hsys
              (by
                have := mul_le_mul_of_nonneg_left hσ' hρ0.le
                linarith [hfit.lim]) (hwc b t ht) hst
            exact ⟨_, h1, rfl, by rw [h2]; exact hr2⟩
          · obtain ⟨s2, hp, hf⟩ := C28_predict (env_box k) prm fuel calls
              (fun c h => sysCall_ok (hcc c h)) s e m hsys.1
            have h2 : predict (env k) prm m ord s = some s1 := hst
            rw [h2] at hp
            obtain rfl := Option.some.inj hp
            cases h : s1.heap b with
            | none => rfl
            | some u =>
              obtain ⟨_, _, t', ht', _⟩ := (hf b).1 u h
              rw [hb] at ht'
              cases ht'
        | correct S ch scan dflt =>
          have h2 : (correct (env k) S prm ch fuel scan dflt s).map (·.1) = some s1 := hst
          obtain ⟨⟨s2, reps⟩, h3, rfl⟩ := Option.map_eq_some_iff.1 h2
          have h7 := followed_none hk hB0 hB1 hw hn hfit (hσf.trans hf1) hlim hone hcc e hsys hwc hno hr' h3
          refine ⟨1, zero_le_one, le_refl _, hof.2, fun b t ht => ?_, fun b hb => ?_⟩
          · obtain ⟨hwt, sn, j, z, hs, rfl, hlog, hpair, hseen, hcomp⟩ := hwc b t ht
            obtain ⟨u, h4, h5, h6⟩ := followed_scan hk hB0 hB1 hw hn hfit (hσf.trans hf1) hcc e hs hlog
              hwt hsys hpair (hr' b t ht) h3 hseen hcomp
            exact ⟨u, h4, h5, by rw [mul_one]; exact h6⟩
          · cases h : s2.heap b with
            | none => rfl
            | some u =>
              obtain ⟨t', ht'⟩ := (hinv.ok.live b).2 (h7.subset ((hinv1.ok.live b).1 ⟨u, h⟩))
              rw [hb] at ht'
              cases ht'
      obtain ⟨f1, k1, k2, k3, k4, k5⟩ := key
      have hback : ∀ b u, s1.heap b = some u → ∃ t, s.heap b = some t := by
        intro b u hu
        cases h : s.heap b with
        | none => rw [k5 b h] at hu; cases hu
        | some t => exact ⟨t, rfl⟩
      have := ih (calls ++ [c]) s1 f1 k1 k2 (by simpa using hc) hrun1 k3
        (fun l1 d l2 st h1 h2 => hfol (c :: l1) d l2 st (by rw [h1]; rfl)
          (by simp only [run, hst]; exact h2))
        (fun b u hu => by
          obtain ⟨t, ht⟩ := hback b u hu
          obtain ⟨u', hu', _, h⟩ := k4 b t ht
          rw [hu] at hu'
          cases hu'
          exact h) s' e' a
      refine ⟨fun t ht => ?_, fun h => this.2 (k5 a h)⟩
      obtain ⟨u, hu, hid, _⟩ := k4 a t ht
      obtain ⟨v, hv, hid2, h⟩ := this.1 u hu
      exact ⟨v, hv, hid2.trans hid, h⟩

/-- **C109, all objects** If every target has a report of its own at every scan, and every report is that of
a target, then the targets stay the same: none is lost, none is doubled and none gets another id, however
long they are watched.  The reports must be the more likely the more there are (`N`) in a scan, since
`birth` looks at the sum of their shares. -/
theorem C109_all {k : Opts} (hk : OptsOk k) {prm : Params} (hB0 : 0 ≤ prm.rBmax)
    (hB1 : prm.rBmax ≤ 1) (hw : prm.wlim ≤ 1) (hn : 2 < prm.nhypMax) {δ ρ σ lam : ℝ}
    (hfit : Fits prm δ ρ σ lam) {N : Nat} (hlim : 0 < prm.rlim)
    (hone : Real.exp (2 * δ) * N < prm.rlim * (ρ * σ) * lam)
    {fuel : Nat} {calls later : List (Call Pdf Rpt)}
    (hc : ∀ c ∈ calls ++ later, SysCall k prm c) {s s' : St Pdf}
    (e : run (env k) prm fuel calls St.empty = some s)
    (e' : run (env k) prm fuel later s = some s') (hr : ∀ a t, s.heap a = some t → ρ ≤ t.r)
    (hof : Often σ 1 later)
    (hfol : ∀ l1 c l2 st, later = l1 ++ c :: l2 → run (env k) prm fuel l1 s = some st →
      NoStrangers k N st c ∧ ∀ a t, st.heap a = some t → Followed k prm δ ρ lam st a t c) :
    s'.targets.Perm s.targets ∧
    ∀ a t, s.heap a = some t → ∃ u, s'.heap a = some u ∧ u.id = t.id ∧ ρ * σ ≤ u.r := by
  have hcc : ∀ d ∈ calls, SysCall k prm d := fun d h => hc d (List.mem_append_left _ h)
  have hinv := run_inv (env_box k) (Inv.empty _) (fun d h => sysCall_ok (hcc d h)) e
  have hinv' := run_inv (env_box k) (Inv.empty _) (calls := calls ++ later)
    (fun d h => sysCall_ok (hc d h)) (by rw [run_append, e, Option.bind_some, e'])
  have h := followed_all hk hB0 hB1 hw hn hfit hlim hone later calls s 1 zero_le_one (le_refl _) hc e hof
    hfol (fun a t ht => by rw [mul_one]; exact hr a t ht) s' e'
  refine ⟨(List.perm_ext_iff_of_nodup hinv'.ok.nodup hinv.ok.nodup).2 fun b => ?_, fun a => (h a).1⟩
  rw [← hinv.ok.live b, ← hinv'.ok.live b]
  constructor
  · rintro ⟨u, hu⟩
    cases hb : s.heap b with
    | none => rw [(h b).2 hb] at hu; cases hu
    | some t => exact ⟨t, rfl⟩
  · rintro ⟨t, ht⟩
    obtain ⟨u, hu, _⟩ := (h b).1 t ht
    exact ⟨u, hu⟩

/-! ## A concrete case -/

/-- A target at rest that survives with probability 9/10. -/
noncomputable def exRest : Call Pdf Rpt := .predict (nm (9 / 10) 0) id

theorem exRest_ok : SysCall exOpts3 exPrm exRest :=
  ⟨fun _ => List.Perm.refl _, Or.inr ⟨9 / 10, 0, by norm_num, by norm_num, Matrix.PosSemidef.zero, rfl⟩⟩

theorem exp_tiny30 : Real.exp (-30000) ≤ 1 / 5 := by
  have h := Real.add_one_le_exp (30000 : ℝ)
  have h1 : Real.exp 30000 * Real.exp (-30000) = 1 := by rw [← Real.exp_add]; simp
  have h2 : 5 * Real.exp (-30000) ≤ Real.exp 30000 * Real.exp (-30000) :=
    mul_le_mul_of_nonneg_right (by linarith) (Real.exp_pos _).le
  linarith

theorem exFits : Fits exPrm (1 / 2 ^ 40) (4 / 5) (9 / 10) (875 / 2) := by
  have h := exp_small.1
  refine ⟨by norm_num, ?_, by norm_num, by show (1 / 20 : ℝ) ≤ _; norm_num, by linarith, ?_⟩
  · have := exp_tiny30
    linarith
  · have : Real.exp (2 * (1 / 2 ^ 40)) * (4 / 5 * (1 - 4 / 5 * (9 / 10))) ≤
        11 / 10 * (4 / 5 * (1 - 4 / 5 * (9 / 10))) :=
      mul_le_mul_of_nonneg_right h (by norm_num)
    linarith

/-- The concrete case for `C109_kept` and `C109_all`: a target that is started by a first report,
waits, and is reported again.  It is still the only target, with its id, and exists with probability at
least 4/5. -/
theorem exSteady : ∃ (F : Nat) (s s' : St Pdf) (a : Nat) (t u : Tgt Pdf) (q : LL),
    run (env exOpts3) exPrm F [exScan3 [exAt 0 1 one_pos]] St.empty = some s ∧
    run (env exOpts3) exPrm F [exRest, exScan3 [exAt q (1 / 10000) (by norm_num)]] s = some s' ∧
    s.heap a = some t ∧ s'.heap a = some u ∧ u.id = t.id ∧ 4 / 5 ≤ u.r ∧ s'.targets = [a] := by
  obtain ⟨s, a, t, g, h1, h2, h3, h4, h5, h6, h7, h8⟩ := exBorn3
  set p := predictTgt (env exOpts3) (nm (9 / 10) 0) t with hp
  set q := pos p.pdf with hq
  set scan2 := exScan3 [exAt q (1 / 10000) (by norm_num)] with hscan2
  have hc1 : ∀ c ∈ [exScan3 [exAt 0 1 one_pos]], SysCall exOpts3 exPrm c := by
    intro c hc
    rw [List.mem_singleton] at hc
    subst hc
    exact exScan3_ok _ (by simp)
  have hc : ∀ c ∈ [exScan3 [exAt 0 1 one_pos]] ++ [exRest, scan2], SysCall exOpts3 exPrm c := by
    intro c hc
    simp only [List.cons_append, List.nil_append, List.mem_cons, List.not_mem_nil, or_false] at hc
    rcases hc with rfl | rfl | rfl
    · exact exScan3_ok _ (by simp)
    · exact exRest_ok
    · exact exScan3_ok _ (by simp)
  obtain ⟨F, s2, hF⟩ := C26_defined (env_box exOpts3) exPrm
    ([exScan3 [exAt 0 1 one_pos]] ++ [exRest, scan2]) (fun c h => sysCall_ok (hc c h))
    (by
      intro c hc
      simp only [List.cons_append, List.nil_append, List.mem_cons, List.not_mem_nil, or_false] at hc
      rcases hc with rfl | rfl | rfl
      · exact exScan3_costs _
      · trivial
      · exact exScan3_costs _)
    (by simp [exScan3, exRest, hscan2, Call.reports])
  have hF := hF F (le_refl _)
  have hrun := run_mono (Nat.zero_le F) _ _ _ h1
  rw [run_append, hrun, Option.bind_some] at hF
  -- the target after the prediction
  have hs : (t.pdf.mix.c.map GM.Cmp.w).sum = 1 := by rw [h5]; simp [h6]
  obtain ⟨⟨f, e1⟩, e2⟩ := predict_comps (k := exOpts3) (m := nm (9 / 10) 0) (F := 1) (Q := 0) rfl hs
  rw [h5] at e1
  simp only [List.map_cons, List.map_nil, Matrix.one_mul, Matrix.transpose_one, Matrix.mul_one,
    add_zero] at e1
  have hpr : p.r = 18 / 25 := by
    rw [hp, e2, h4]
    show (4 / 5 : ℝ) * (9 / 10) = _
    norm_num
  have hpbox : p.pdf.box = exBox := rfl
  have hcov : covNorm p.pdf ≤ 150 := by
    rw [single_norm e1 h6, h7]
    apply Real.sqrt_le_iff.2
    refine ⟨by norm_num, ?_⟩
    norm_num [Matrix.one_apply]
  have hinv := run_inv (env_box exOpts3) (Inv.empty _) (fun d h => sysCall_ok (hc1 d h)) hrun
  have honly : ∀ b v, s.heap b = some v → b = a := by
    intro b v hv
    have := (hinv.ok.live b).1 ⟨v, hv⟩
    rw [h3] at this
    simpa using this
  have hall : ∀ l1 c l2 st, [exRest, scan2] = l1 ++ c :: l2 →
      run (env exOpts3) exPrm F l1 s = some st → NoStrangers exOpts3 1 st c ∧
      ∀ b t', st.heap b = some t' →
        Followed exOpts3 exPrm (1 / 2 ^ 40) (4 / 5) (875 / 2) st b t' c := by
    intro l1 c l2 st hl hst
    rcases l1 with _ | ⟨c1, _ | ⟨c2, l1⟩⟩
    · simp only [List.nil_append, List.cons.injEq] at hl
      obtain ⟨rfl, _⟩ := hl
      simp only [run, Option.some.injEq] at hst
      subst hst
      refine ⟨trivial, fun b t' hh => ?_⟩
      obtain rfl := honly b t' hh
      rw [h2] at hh
      cases hh
      exact hcov
    · simp only [List.cons_append, List.nil_append, List.cons.injEq] at hl
      obtain ⟨rfl, rfl, _⟩ := hl
      have hpre : predict (env exOpts3) exPrm (nm (9 / 10) 0) id s = some st := by
        simp only [run, step, exRest] at hst
        cases hx : predict (env exOpts3) exPrm (nm (9 / 10) 0) id s with
        | none => simp [hx] at hst
        | some y =>
          simp only [hx, Option.some.injEq] at hst
          rw [hst]
      obtain ⟨i1, i2, i3⟩ := followed_predict exOpts3_ok (prm := exPrm)
        (by show (0 : ℝ) ≤ 4 / 5; norm_num) (by show (4 / 5 : ℝ) ≤ 1; norm_num) hc1 hrun h2 exRest_ok
        (by rw [h4]; show (1 / 20 : ℝ) ≤ 4 / 5 * (9 / 10); norm_num) hcov hpre
      have honly2 : ∀ b v, st.heap b = some v → b = a := by
        intro b v hv
        obtain ⟨v', hv'⟩ := i3 b v hv
        exact honly b v' hv'
      have hbox : exOpts3.rbox (exAt q (1 / 10000) (by norm_num)) = exBox := by
        simp only [exOpts3, exAt]
        rw [if_neg (by norm_num)]
      have htch : (exOpts3.rbox (exAt q (1 / 10000) (by norm_num))).1.Touch p.pdf.box.1 := by
        rw [hpbox, hbox]
        exact exBox_touch
      refine ⟨⟨le_refl _, fun z hz => ⟨a, p, i1, ?_⟩⟩, fun b t' hh => ?_⟩
      · obtain rfl : z = ⟨exAt q (1 / 10000) (by norm_num), none, 0⟩ := by simpa using hz
        exact htch
      obtain rfl := honly2 b t' hh
      rw [i1] at hh
      cases hh
      obtain ⟨r1, _, _⟩ := here_ratio e1 h6 h7 (κ := 1 / 10000) (by norm_num) (by norm_num) b
      refine ⟨rfl, exEye, 0, ⟨exAt q (1 / 10000) (by norm_num), none, 0⟩, exEye_ok, rfl, exSens_near, ?_,
        ?_, ?_⟩
      · refine ⟨i1, rfl, htch, ?_, fun b v hv _ => honly2 b v hv⟩
        intro i z' hi _
        have := (List.getElem?_eq_some_iff.1 hi).1
        simpa using this
      · refine le_trans ?_ r1
        norm_num
      · intro w x hw0 hx0 _ _
        have hcen := (here_component (t := p) e1 h6 h7 (κ := 1 / 10000) (by norm_num) (by norm_num) rfl).1
        show covNorm (toGlobal exOpts3 (joinPdf exOpts3
          (toLocal (center [(exAt q (1 / 10000) (by norm_num)).1.x, pos p.pdf]) p.pdf) [w, x] _)) ≤ 150
        simp only [← hp, ← hq] at hcen ⊢
        rw [hcen]
        exact here_small (t := p) e1 h6 h7 (κ := 1 / 10000) (by norm_num) (by norm_num) b rfl hw0 hx0
    · simp at hl
  have hof : Often (9 / 10) 1 [exRest, scan2] :=
    ⟨by show (9 / 10 : ℝ) ≤ 1 * (9 / 10); norm_num, by show (9 / 10 : ℝ) ≤ 1; norm_num⟩
  have hB0 : (0 : ℝ) ≤ exPrm.rBmax := by show (0 : ℝ) ≤ 4 / 5; norm_num
  have hB1 : exPrm.rBmax ≤ 1 := by show (4 / 5 : ℝ) ≤ 1; norm_num
  have hw : exPrm.wlim ≤ 1 := by show (1 / 100 : ℝ) ≤ 1; norm_num
  have hn : 2 < exPrm.nhypMax := by show (2 : ℝ) < 100; norm_num
  obtain ⟨u, u1, u2, _, u3⟩ := C109_kept exOpts3_ok hB0 hB1 hw hn exFits hc hrun hF h2
    (by rw [h4]) hof fun l1 c l2 st t' h1 h2 h3 _ => (hall l1 c l2 st h1 h2).2 a t' h3
  obtain ⟨v1, _⟩ := C109_all exOpts3_ok hB0 hB1 hw hn exFits (N := 1) (by show (0 : ℝ) < 1 / 20; norm_num)
    (by
      have := exp_small.1
      show _ < (1 / 20 : ℝ) * (4 / 5 * (9 / 10)) * (875 / 2)
      push_cast
      linarith) hc hrun hF
    (fun b v hv => by
      obtain rfl := honly b v hv
      rw [h2] at hv
      cases hv
      rw [h4]) hof hall
  rw [h3] at v1
  exact ⟨F, s, s2, a, t, u, q, hrun, hF, h2, u1, u2, u3 [exRest] scan2 rfl rfl, List.perm_singleton.1 v1⟩

end Verif.System

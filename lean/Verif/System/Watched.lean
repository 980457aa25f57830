import Verif.System.Posterior
import Verif.System.Age
import Verif.Tracker.Alone

/-!
# C103: a target that is watched and not seen fades away

Scans that look at a target without a report near it multiply the odds of its existence by the
probability to miss it.
-/

namespace Verif.System

open Verif.Tracker Matrix
open Verif.Lap (XR)
open Verif.Murty (PickOk)
open Verif.Hyp

theorem missedEta_ge {pd : Nat → ℝ} {c : ℝ} (hpd : ∀ i, c ≤ pd i) {m : GM.Mix GX ℝ}
    (hw : ∀ g ∈ m.c, 0 ≤ g.w) : c * (m.c.map GM.Cmp.w).sum ≤ missedEta pd m := by
  unfold missedEta
  obtain ⟨l, e⟩ := m
  have key : ∀ (l : List Cmp) (pd : Nat → ℝ) (a : ℝ), (∀ i, c ≤ pd i) → (∀ g ∈ l, 0 ≤ g.w) →
      a + c * (l.map GM.Cmp.w).sum ≤ (l.mapIdx fun i g => g.w * pd i).foldl (· + ·) a := by
    intro l
    induction l with
    | nil => intro pd a _ _; simp
    | cons g l ih =>
      intro pd a hpd hl
      have h1 := ih (fun i => pd (i + 1)) (a + g.w * pd 0) (fun i => hpd _)
        fun x hx => hl x (List.mem_cons_of_mem _ hx)
      have h2 := mul_le_mul_of_nonneg_left (hpd 0) (hl g List.mem_cons_self)
      simp only [List.mapIdx_cons, List.foldl_cons, List.map_cons, List.sum_cons]
      linarith
  simpa using key l pd 0 hpd hw

theorem missedEta_toLocal (pd : Nat → ℝ) (o : LL) (p : Pdf) :
    missedEta pd (toLocal o p).mix = missedEta pd p.mix := by
  unfold missedEta toLocal cLocal
  congr 1
  exact List.ext_getElem (by simp) (by intro i h1 h2; simp)

/-- The call is a prediction, or a scan that looks at the target `t` at address `a` with a probability
of detection of at least `1 - μ` and has no report whose box touches that of the target; the
logarithms of the sensor are exact up to `δ`. -/
def Watched (k : Opts) (δ μ : ℝ) (a : Nat) (t : Tgt Pdf) : Call Pdf Rpt → Prop
  | .predict .. => True
  | .correct S ch scan _ => ch.wt = ew ∧ (∀ z ∈ scan, ¬ (k.rbox z.val).1.Touch t.pdf.box.1) ∧
      ∃ s, SensOk s ∧ S = sensor k s ∧ (∀ x, 0 ≤ x → Near δ (s.lg x) x) ∧
        s.fovBox.Touch t.pdf.box.1 ∧ s.inView t.pdf = true ∧ ∀ i, 1 - μ ≤ s.pdMiss a i

/-- The call is a scan. -/
def isScan : Call Pdf Rpt → Bool
  | .predict .. => false
  | .correct .. => true

/-- One scan multiplies the odds by at most `μ`, up to the error of the logarithms. -/
theorem odds_step {δ μ r m o x y : ℝ} (hμ : 0 ≤ μ) (hr0 : 0 ≤ r) (hr1 : r < 1) (hm1 : m ≤ μ)
    (ho : r ≤ o * (1 - r)) (hx : x ≤ Real.exp δ * (r * m)) (hy : Real.exp (-δ) * (1 - r) ≤ y) :
    x ≤ o * (μ * Real.exp (2 * δ)) * y := by
  have e1 : Real.exp δ = Real.exp (2 * δ) * Real.exp (-δ) := by
    rw [← Real.exp_add]; ring_nf
  have ho0 : 0 ≤ o := by
    by_contra h
    have := mul_neg_of_neg_of_pos (not_le.1 h) (sub_pos.2 hr1)
    linarith
  calc x ≤ Real.exp δ * (r * m) := hx
    _ ≤ Real.exp δ * (o * (1 - r) * μ) := by
      apply mul_le_mul_of_nonneg_left _ (Real.exp_pos _).le
      exact (mul_le_mul_of_nonneg_left hm1 hr0).trans (mul_le_mul_of_nonneg_right ho hμ)
    _ = o * (μ * Real.exp (2 * δ)) * (Real.exp (-δ) * (1 - r)) := by rw [e1]; ring
    _ ≤ _ := mul_le_mul_of_nonneg_left hy (mul_nonneg ho0 (mul_nonneg hμ (Real.exp_pos _).le))

/-- One scan. -/
theorem watched_scan {k : Opts} (hk : OptsOk k) {prm : Params} (hB0 : 0 ≤ prm.rBmax)
    (hB1 : prm.rBmax ≤ 1) (hw : prm.wlim ≤ 1) (hn : 1 < prm.nhypMax) {δ μ : ℝ} (hμ : 0 ≤ μ)
    {calls : List (Call Pdf Rpt)} (hc : ∀ c ∈ calls, SysCall k prm c) {fuel : Nat} {s : St Pdf}
    (e : run (env k) prm fuel calls St.empty = some s) {a : Nat} {t : Tgt Pdf}
    (ht : s.heap a = some t) (hid : t.id < s.idc) {o : ℝ} (ho : t.r ≤ o * (1 - t.r))
    {S : Sensor Pdf Rpt} {ch : Choices} {scan : List (Rep Rpt)} {dflt : Rep Rpt}
    (hsys : SysCall k prm (.correct S ch scan dflt)) (hlen : s.idc + scan.length < 2 ^ 32)
    (hwatch : Watched k δ μ a t (.correct S ch scan dflt)) {s1 : St Pdf} {reps : Nat → Rep Rpt}
    (e1 : correct (env k) S prm ch fuel scan dflt s = some (s1, reps)) {t1 : Tgt Pdf}
    (ht1 : s1.heap a = some t1) (hid1 : t1.id = t.id) :
    t1.r ≤ o * (μ * Real.exp (2 * δ)) * (1 - t1.r) ∧ prm.rlim ≤ t1.r := by
  obtain ⟨hwt, hno, sn, hs, rfl, hnear, hfov, hin, hpd⟩ := hwatch
  obtain ⟨⟨hr0, hr1⟩, _, _, hcmp, hsum, _⟩ := C66_densities_proper hk hB0 hB1 hc e a t ht
  have hr1' : t.r < 1 := by
    rcases hr1.lt_or_eq with h | h
    · exact h
    · rw [h] at ho; norm_num at ho
  set p := toLocal (center [pos t.pdf]) t.pdf with hp
  set m := 1 - missedEta (sn.pdMiss a) p.mix with hm
  have hme : missedEta (sn.pdMiss a) p.mix = missedEta (sn.pdMiss a) t.pdf.mix :=
    missedEta_toLocal _ _ _
  have hm1 : m ≤ μ := by
    have := missedEta_ge (m := t.pdf.mix) hpd fun g hg => (hcmp g hg).1
    rw [hsum, mul_one, ← hme] at this
    linarith
  have hm0 : 0 ≤ m := by
    have := (missedEta_bounds (hs.miss a) (m := t.pdf.mix) hcmp).2
    rw [hsum, ← hme] at this
    linarith
  -- the weights of the two hypotheses
  have hnm := hnear _ (mul_nonneg hr0 hm0)
  have hnf := hnear (1 - t.r) (by linarith)
  obtain ⟨qf, hqf⟩ : ∃ q, sn.lg (1 - t.r) = XR.fin q := hs.pos _ (by linarith)
  have hfls : (sensor k sn).flsCost t.r = XR.fin qf := by
    change (if t.r < 1 then sn.lg (1 - t.r) else XR.fin 30000) = _
    rw [if_pos hr1', hqf]
  have hcw : ∀ q, costWeight (XR.fin q) = ew q := fun q => rfl
  have hmw : MissWeight ch.wt ((sensor k sn).missCost a t.r p) (costWeight (sn.lg (t.r * m))) := by
    change MissWeight ch.wt (sn.lg (t.r * m)) _
    rw [hwt]
    rcases hnm with ⟨_, h⟩ | ⟨_, q, h, _⟩
    · exact Or.inr ⟨h, by rw [h]; rfl⟩
    · exact Or.inl ⟨q, h, by rw [h]; rfl⟩
  have hx1 := (near_weight hnm).1
  have hy1 := (near_weight hnf).2
  rw [hqf, hcw] at hy1
  have hx0 : 0 ≤ costWeight (sn.lg (t.r * m)) := by
    rcases hnm with ⟨_, h⟩ | ⟨_, q, h, _⟩
    · rw [h]; exact le_refl _
    · rw [h]; exact (ew_pos q).le
  have hy2 : Real.exp (-δ) * (1 - t.r) ≤ ew qf := by
    calc Real.exp (-δ) * (1 - t.r) ≤ Real.exp (-δ) * (Real.exp δ * ew qf) :=
          mul_le_mul_of_nonneg_left hy1 (Real.exp_pos _).le
      _ = ew qf := by rw [← mul_assoc, ← Real.exp_add]; simp
  have hstep := odds_step hμ hr0 hr1' hm1 ho hx1 hy2
  set x := costWeight (sn.lg (t.r * m)) with hx
  have hy0 : 0 < ew qf := ew_pos qf
  have hxy : 0 < x + ew qf := by linarith
  obtain ⟨u, u1, u2, u3, u4⟩ := C103_missed (env_box k) prm fuel calls
    (fun c h => sysCall_ok (hc c h)) s e (sensor k sn) ch scan dflt (sysCall_ok hsys) hsys.2.2.1 s1
    reps e1 a t ht ⟨hfov, hin⟩ hno hw hn (p := p) rfl (x := x) (y := ew qf) hmw
    ⟨hfls, by rw [hwt]⟩ hxy.ne'
  have hlive : prm.rlim ≤ u.r ∧ covNorm u.pdf ≤ prm.covlim := by
    by_contra h
    have hbad : u.r < prm.rlim ∨ prm.covlim < (env k).covNorm u.pdf := by
      by_cases h1 : prm.rlim ≤ u.r
      · right
        by_contra h2
        exact h ⟨h1, not_lt.1 h2⟩
      · exact Or.inl (not_le.1 h1)
    obtain ⟨_, _, j, hj, hid2⟩ := u4 hbad t1 ht1
    rw [Nat.mod_eq_of_lt (by omega)] at hid2
    omega
  obtain ⟨h1, _⟩ := u3 hlive.1 hlive.2
  rw [ht1] at h1
  cases h1
  refine ⟨?_, hlive.1⟩
  rcases u2 with ⟨_, h, _⟩ | ⟨_, h, _⟩
  · rw [h]
    have e2 : 1 - x / (x + ew qf) = ew qf / (x + ew qf) := by
      field_simp
      ring
    rw [e2, ← mul_div_assoc]
    exact div_le_div_of_nonneg_right hstep hxy.le
  · rw [h]
    have ho0 : 0 ≤ o := by
      by_contra h'
      have := mul_neg_of_neg_of_pos (not_le.1 h') (sub_pos.2 hr1')
      linarith
    rw [sub_zero, mul_one]
    exact mul_nonneg ho0 (mul_nonneg hμ (Real.exp_pos _).le)

theorem watched {k : Opts} (hk : OptsOk k) {prm : Params} (hB0 : 0 ≤ prm.rBmax)
    (hB1 : prm.rBmax ≤ 1) (hw : prm.wlim ≤ 1) (hn : 1 < prm.nhypMax) {δ μ : ℝ} (hμ : 0 ≤ μ)
    {fuel : Nat} {a : Nat} : ∀ (later calls : List (Call Pdf Rpt)) (s : St Pdf) (t : Tgt Pdf) (o : ℝ),
    (∀ c ∈ calls ++ later, SysCall k prm c) → run (env k) prm fuel calls St.empty = some s →
    ((calls ++ later).map Call.reports).sum < 2 ^ 32 →
    (∀ l1 c l2 st t', later = l1 ++ c :: l2 → run (env k) prm fuel l1 s = some st →
      st.heap a = some t' → t'.id = t.id → Watched k δ μ a t' c) →
    s.heap a = some t → t.r ≤ o * (1 - t.r) → ∀ s', run (env k) prm fuel later s = some s' →
    ∀ b u, s'.heap b = some u → u.id = t.id → b = a ∧
      u.r ≤ o * (μ * Real.exp (2 * δ)) ^ later.countP isScan * (1 - u.r) ∧
      (later ≠ [] → prm.rlim ≤ u.r) := by
  have hinit : IdsOk (St.empty : St Pdf) :=
    ⟨fun a t h => by simp [St.empty] at h, fun a b t u h => by simp [St.empty] at h⟩
  intro later
  induction later with
  | nil =>
    intro calls s t o hc e hsum _ ht ho s' e' b u hu hid
    simp only [run, Option.some.injEq] at e'
    subst e'
    rw [List.append_nil] at hc hsum
    obtain ⟨i1, _⟩ := run_ids (env_box k) (Inv.empty _) hinit (fun c h => sysCall_ok (hc c h)) e
      (by simpa [St.empty] using hsum)
    obtain rfl := i1.inj b a u t hu ht hid
    rw [hu] at ht
    cases ht
    exact ⟨rfl, by simpa using ho, fun h => absurd rfl h⟩
  | cons c l ih =>
    intro calls s t o hc e hsum hwatch ht ho s' e' b u hu hid
    have hcc : ∀ d ∈ calls, SysCall k prm d := fun d h => hc d (List.mem_append_left _ h)
    have hsys : SysCall k prm c := hc c (by simp)
    have hcok : ∀ d ∈ calls, CallOk (env k) d := fun d h => sysCall_ok (hcc d h)
    simp only [List.map_append, List.map_cons, List.sum_append, List.sum_cons] at hsum
    obtain ⟨i1, _, i2, _⟩ := run_ids (env_box k) (Inv.empty _) hinit hcok e
      (by simp only [St.empty]; omega)
    simp only [St.empty, zero_add] at i2
    simp only [run] at e'
    cases hst : step (env k) prm fuel s c with
    | none => rw [hst] at e'; cases e'
    | some s1 =>
      rw [hst] at e'
      have hrun1 : run (env k) prm fuel (calls ++ [c]) St.empty = some s1 := by
        rw [run_append, e, Option.bind_some]
        simp only [run, hst]
      have hinv := run_inv (env_box k) (Inv.empty _) hcok e
      obtain ⟨j1, j2, j3, j4⟩ := step_idsOk (env_box k) hinv i1 (sysCall_ok hsys) hst (by omega)
      have hinv1 := step_inv (env_box k) hinv (sysCall_ok hsys) hst
      obtain ⟨_, _, _, l4⟩ := run_ids (env_box k) hinv1 j1
        (fun d h => sysCall_ok (hc d (by simp [h]))) e' (by omega)
      have hlt := i1.lt a t ht
      obtain ⟨t1, ht1, hid1⟩ := l4 b u hu (by omega)
      obtain ⟨t0, ht0, hid0⟩ := j4 b t1 ht1 (by omega)
      obtain rfl := i1.inj b a t0 t ht0 ht (by omega)
      have hid1' : t1.id = t.id := by omega
      have key : ∃ o1, t1.r ≤ o1 * (1 - t1.r) ∧ prm.rlim ≤ t1.r ∧
          o1 = o * (μ * Real.exp (2 * δ)) ^ [c].countP isScan := by
        have hwc := hwatch [] c l s t rfl rfl ht rfl
        cases c with
        | predict m ord =>
          obtain ⟨s2, hp, hf⟩ := C28_predict (env_box k) prm fuel calls hcok s e m hsys.1
          obtain rfl : s2 = s1 := by
            have h2 : predict (env k) prm m ord s = some s1 := hst
            rw [hp] at h2
            exact Option.some.inj h2
          obtain ⟨h1, _, t', ht', rfl⟩ := (hf b).1 t1 ht1
          rw [ht] at ht'
          cases ht'
          obtain ⟨⟨hr0, hr1⟩, _, _, _, hs1, _⟩ := C66_densities_proper hk hB0 hB1 hcc e b t ht
          have hle : (predictTgt (env k) m t).r ≤ t.r := by
            obtain ⟨_, ⟨pS, q, dT, g1, g2, _, g4, rfl⟩ | ⟨pS, Q, g1, g2, _, rfl⟩⟩ := hsys
            · rw [(predict_comps (k := k) (m := cv pS q dT) rfl hs1).2]
              exact mul_le_of_le_one_right hr0 (Real.rpow_le_one g1 g2 g4)
            · rw [(predict_comps (k := k) (m := nm pS Q) rfl hs1).2]
              exact mul_le_of_le_one_right hr0 g2
          have ho0 : 0 ≤ o := by
            by_contra h'
            have := mul_nonneg (neg_nonneg.2 (not_le.1 h').le) (sub_nonneg.2 hr1)
            have hr : t.r = 0 := by linarith
            rw [hr] at ho
            linarith
          refine ⟨o, ?_, h1, by simp [isScan]⟩
          have := mul_le_mul_of_nonneg_left (sub_le_sub_left hle 1) ho0
          linarith
        | correct S ch scan dflt =>
          have h2 : (correct (env k) S prm ch fuel scan dflt s).map (·.1) = some s1 := hst
          obtain ⟨⟨s2, reps⟩, h3, rfl⟩ := Option.map_eq_some_iff.1 h2
          have hrep : Call.reports (.correct S ch scan dflt : Call Pdf Rpt) = scan.length := rfl
          obtain ⟨h4, h5⟩ := watched_scan hk hB0 hB1 hw hn hμ hcc e ht hlt ho hsys (by omega) hwc h3
            ht1 hid1'
          exact ⟨_, h4, h5, by simp [isScan]⟩
      obtain ⟨o1, k1, k2, k3⟩ := key
      obtain ⟨_, m1, m2⟩ := ih (calls ++ [c]) s1 t1 o1 (by simpa using hc) hrun1
        (by simp only [List.map_append, List.map_cons, List.map_nil, List.sum_append, List.sum_cons,
              List.sum_nil]; omega)
        (fun l1 d l2 st t' h1 h2 h3 h4 => hwatch (c :: l1) d l2 st t' (by rw [h1]; rfl)
          (by simp only [run, hst]; exact h2) h3 (h4.trans hid1')) ht1 k1 s' e' b u hu
          (hid.trans hid1'.symm)
      refine ⟨rfl, ?_, fun _ => ?_⟩
      · have e3 : (c :: l).countP isScan = [c].countP isScan + l.countP isScan := by
          rw [← List.countP_append]; rfl
        rw [e3, pow_add, ← mul_assoc, ← k3]
        exact m1
      · by_cases hl : l = []
        · subst hl
          simp only [run, Option.some.injEq] at e'
          subst e'
          rw [hu] at ht1
          cases ht1
          exact k2
        · exact m2 hl

/-- **C103** After any history, a target whose existence probability is not 1 fades away when it is
watched and not seen: while it lives, every such scan multiplies the odds of its existence by at most
the probability `μ` to miss it (up to the error of the logarithms), whatever happens to other targets
and whatever predictions come between. -/
theorem C103_fades {k : Opts} (hk : OptsOk k) {prm : Params} (hB0 : 0 ≤ prm.rBmax)
    (hB1 : prm.rBmax ≤ 1) (hw : prm.wlim ≤ 1) (hn : 1 < prm.nhypMax) {δ μ : ℝ} (hμ : 0 ≤ μ)
    {fuel : Nat} {calls later : List (Call Pdf Rpt)} (hc : ∀ c ∈ calls ++ later, SysCall k prm c)
    (hsum : ((calls ++ later).map Call.reports).sum < 2 ^ 32) {s s' : St Pdf}
    (e : run (env k) prm fuel calls St.empty = some s)
    (e' : run (env k) prm fuel later s = some s') {a : Nat} {t : Tgt Pdf} (ht : s.heap a = some t)
    (hr : t.r < 1)
    (hwatch : ∀ l1 c l2 st t', later = l1 ++ c :: l2 → run (env k) prm fuel l1 s = some st →
      st.heap a = some t' → t'.id = t.id → Watched k δ μ a t' c)
    {b : Nat} {u : Tgt Pdf} (hu : s'.heap b = some u) (hid : u.id = t.id) :
    b = a ∧ u.r / (1 - u.r) ≤
      t.r / (1 - t.r) * (μ * Real.exp (2 * δ)) ^ later.countP isScan := by
  obtain ⟨h1, h2, _⟩ := watched hk hB0 hB1 hw hn hμ later calls s t (t.r / (1 - t.r)) hc e hsum hwatch
    ht (by rw [div_mul_cancel₀ _ (by linarith)]) s' e' b u hu hid
  refine ⟨h1, ?_⟩
  have hu1 := (C66_densities_proper hk hB0 hB1 hc (by rw [run_append, e, Option.bind_some, e']) b u
    hu).1.2
  rcases hu1.lt_or_eq with h | h
  · rw [div_le_iff₀ (by linarith)]
    exact h2
  · rw [h] at h2
    norm_num at h2

/-- **C103** So it is gone as soon as the scans are so many that the odds are below those of the limit
`r_lim`. -/
theorem C103_gone {k : Opts} (hk : OptsOk k) {prm : Params} (hB0 : 0 ≤ prm.rBmax)
    (hB1 : prm.rBmax ≤ 1) (hw : prm.wlim ≤ 1) (hn : 1 < prm.nhypMax) {δ μ : ℝ} (hμ : 0 ≤ μ)
    {fuel : Nat} {calls later : List (Call Pdf Rpt)} (hc : ∀ c ∈ calls ++ later, SysCall k prm c)
    (hsum : ((calls ++ later).map Call.reports).sum < 2 ^ 32) {s s' : St Pdf}
    (e : run (env k) prm fuel calls St.empty = some s)
    (e' : run (env k) prm fuel later s = some s') {a : Nat} {t : Tgt Pdf} (ht : s.heap a = some t)
    (hr : t.r < 1)
    (hwatch : ∀ l1 c l2 st t', later = l1 ++ c :: l2 → run (env k) prm fuel l1 s = some st →
      st.heap a = some t' → t'.id = t.id → Watched k δ μ a t' c)
    (hlast : later ≠ [])
    (hmany : t.r / (1 - t.r) * (μ * Real.exp (2 * δ)) ^ later.countP isScan * (1 - prm.rlim) <
      prm.rlim) : ∀ b u, s'.heap b = some u → u.id ≠ t.id := by
  intro b u hu hid
  obtain ⟨_, h2, h3⟩ := watched hk hB0 hB1 hw hn hμ later calls s t (t.r / (1 - t.r)) hc e hsum hwatch
    ht (by rw [div_mul_cancel₀ _ (by linarith)]) s' e' b u hu hid
  have h4 := h3 hlast
  have hr0 := (C66_densities_proper hk hB0 hB1 (fun c h => hc c (List.mem_append_left _ h)) e a t
    ht).1.1
  have h0 : 0 ≤ t.r / (1 - t.r) * (μ * Real.exp (2 * δ)) ^ later.countP isScan :=
    mul_nonneg (div_nonneg hr0 (by linarith))
      (pow_nonneg (mul_nonneg hμ (Real.exp_pos _).le) _)
  have h5 := mul_le_mul_of_nonneg_left (sub_le_sub_left h4 1) h0
  linarith

/-! ## A concrete case -/

/-- A sensor that sees the whole index. -/
noncomputable def exWide : PSens := { exSens with fovBox := RTreeF.box64 }

theorem exWide_ok : SensOk exWide := by
  obtain ⟨_, h2, h3, h4, h5, h6⟩ := exSens_ok
  refine ⟨⟨?_, ?_⟩, h2, h3, h4, h5, h6⟩ <;> simp [exWide, RTreeF.box64]

/-- A scan without reports. -/
noncomputable def exEmpty : Call Pdf Rpt :=
  .correct (sensor exOpts exWide) exCh [] ⟨exRpt 0 0, none, 0⟩

theorem exEmpty_ok : SysCall exOpts exPrm exEmpty :=
  ⟨⟨_, exWide_ok, rfl⟩, exCh_ok, exCh_pick, fun q => (ew_pos q).le, by
    show (3 * ((0 : ℕ) : ℝ) + 4) / 100000000 < 1 / 20
    norm_num⟩

theorem exEmpty_costs : CallCosts exEmpty := by
  have hl : ∀ x, XR.IsC (exWide.lg x) := by
    intro x
    by_cases h : 0 < x
    · exact Or.inr ⟨_, if_pos h⟩
    · exact Or.inl (if_neg h)
  refine ⟨⟨fun _ _ _ _ => hl _, fun _ _ _ => hl _, fun r => ?_⟩, exCh_pick⟩
  change XR.IsFin (if _ then _ else _)
  split
  · rename_i hr
    exact exWide_ok.pos _ (by linarith)
  · exact ⟨_, rfl⟩

/-- Every box is within the field of view. -/
theorem exWide_sees (b : Box) : exWide.fovBox.Touch b.1 := by
  obtain ⟨r, hv, hq⟩ := b
  have h := hq _ rfl
  exact ⟨r.minx, r.miny, ⟨h.1, hv.1.trans h.2.2.1, h.2.1, hv.2.trans h.2.2.2⟩,
    ⟨le_refl _, hv.1, le_refl _, hv.2⟩⟩

/-- A scan without reports watches every target. -/
theorem exEmpty_watches (a : Nat) (t : Tgt Pdf) :
    Watched exOpts (1 / 2 ^ 40) (1 / 10) a t exEmpty := by
  refine ⟨rfl, by simp, exWide, exWide_ok, rfl, exSens_near, exWide_sees _, rfl, fun i => ?_⟩
  show 1 - (1 : ℝ) / 10 ≤ 9 / 10
  norm_num

/-- A target with existence probability 1/2, watched in two scans with a prediction between them and a
detection probability of 0.9, is gone. -/
example : ∃ F s s', run (env exOpts) exPrm F (exHist.take 1) St.empty = some s ∧
    run (env exOpts) exPrm F [exEmpty, .predict (cv (9 / 10) 1 1) id, exEmpty] s = some s' ∧
    ∃ a t, s.heap a = some t ∧ t.r = 1 / 2 ∧ ∀ b u, s'.heap b = some u → u.id ≠ t.id := by
  obtain ⟨s, a, t, g, h1, h2, h3, _⟩ := exNewborn
  set later := [exEmpty, .predict (cv (9 / 10) 1 1) id, exEmpty] with hl
  have hc : ∀ c ∈ exHist.take 1 ++ later, SysCall exOpts exPrm c := by
    intro c hc
    rcases List.mem_append.1 hc with h | h
    · exact exHist_ok c (List.mem_of_mem_take h)
    · simp only [hl, List.mem_cons, List.not_mem_nil, or_false] at h
      rcases h with rfl | rfl | rfl
      · exact exEmpty_ok
      · exact ⟨fun l => List.Perm.refl _, Or.inl ⟨_, _, _, by norm_num, by norm_num, by norm_num,
          by norm_num, rfl⟩⟩
      · exact exEmpty_ok
  have hsum : ((exHist.take 1 ++ later).map Call.reports).sum = 2 := by
    simp [exHist, hl, exEmpty, Call.reports, exScan]
  obtain ⟨F, s', h⟩ := C26_defined (env_box exOpts) exPrm (exHist.take 1 ++ later)
    (fun c h => sysCall_ok (hc c h)) (by
      intro c hcm
      rcases List.mem_append.1 hcm with h | h
      · exact exHist_costs c (List.mem_of_mem_take h)
      · simp only [hl, List.mem_cons, List.not_mem_nil, or_false] at h
        rcases h with rfl | rfl | rfl
        · exact exEmpty_costs
        · exact trivial
        · exact exEmpty_costs) (by rw [hsum]; norm_num)
  have h := h F (le_refl _)
  rw [run_append] at h
  have hr := run_mono (Nat.zero_le F) _ _ _ h1
  rw [hr, Option.bind_some] at h
  refine ⟨F, s, s', hr, h, a, t, h2, h3, ?_⟩
  refine C103_gone exOpts_ok (δ := 1 / 2 ^ 40) (μ := 1 / 10) (by show (0 : ℝ) ≤ 4 / 5; norm_num)
    (by show (4 : ℝ) / 5 ≤ 1; norm_num) (by show (1 : ℝ) / 100 ≤ 1; norm_num)
    (by show (1 : ℝ) < 100; norm_num) (by norm_num) hc (by rw [hsum]; norm_num) hr h h2
    (by rw [h3]; norm_num) ?_ (by simp [hl]) ?_
  · intro l1 c l2 st t' hlc _ _ _
    have : c ∈ later := by rw [hlc]; simp
    simp only [hl, List.mem_cons, List.not_mem_nil, or_false] at this
    rcases this with rfl | rfl | rfl
    · exact exEmpty_watches _ _
    · exact trivial
    · exact exEmpty_watches _ _
  · have hn : later.countP isScan = 2 := by rfl
    rw [hn, h3]
    show 1 / 2 / (1 - 1 / 2) * (1 / 10 * Real.exp (2 * (1 / 2 ^ 40))) ^ 2 * (1 - 1 / 20) < (1 : ℝ) / 20
    have he : Real.exp (2 * (1 / 2 ^ 40)) ≤ 2 := by
      have h4 : Real.exp (2 * (1 / 2 ^ 40)) ≤ Real.exp (1 / 2) :=
        Real.exp_le_exp.2 (by norm_num)
      have h5 : Real.exp (1 / 2) * Real.exp (1 / 2) = Real.exp 1 := by
        rw [← Real.exp_add]; norm_num
      have h6 := Real.exp_one_lt_d9
      have h7 := Real.exp_pos (1 / 2 : ℝ)
      nlinarith
    have h0 := Real.exp_pos (2 * (1 / 2 ^ 40) : ℝ)
    generalize Real.exp (2 * (1 / 2 ^ 40)) = x at *
    nlinarith

end Verif.System

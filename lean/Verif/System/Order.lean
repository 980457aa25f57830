import Verif.GM.Order
import Verif.Tracker.Ties
import Verif.System.Explained

/-!
# C107 for the tracker with Gaussian mixtures

The order of the reports in a scan, down to the components of the densities, and what happens when the costs do not
settle which hypotheses count.
-/

namespace Verif.System

open Verif.Tracker Matrix
open Verif.Lap (XR)
open Verif.Lap.XR (fin)
open Verif.Murty (PickOk)
open Verif.Hyp

theorem center_perm (l l' : List LL) (h : l.Perm l') : center l = center l' := by
  unfold center
  rw [h.length_eq, h.sum_eq]

/-- Two different components of the terms have the same weight, and one that may matter. -/
def Tied (k : Opts) (l : List (ℝ × Pdf)) : Prop :=
  ∃ a ∈ GM.pool (l.map fun y => (y.1, y.2.mix.c)), ∃ b ∈ GM.pool (l.map fun y => (y.1, y.2.mix.c)),
    a.w = b.w ∧ a ≠ b ∧ ¬ GM.Slight k.lim (l.map fun y => (y.1, y.2.mix.c)) a

theorem Tied.perm {k : Opts} {l l' : List (ℝ × Pdf)} (h : l.Perm l') (ht : Tied k l) : Tied k l' := by
  have hp : (GM.pool (l.map fun y => (y.1, y.2.mix.c))).Perm (GM.pool (l'.map fun y => (y.1, y.2.mix.c))) :=
    List.Perm.flatMap_right _ (h.map fun y : ℝ × Pdf => (y.1, y.2.mix.c))
  obtain ⟨a, ha, b, hb, h1, h2, h3⟩ := ht
  refine ⟨a, hp.mem_iff.1 ha, b, hp.mem_iff.1 hb, h1, h2, fun ⟨g1, g2, g3, c, g4, g5⟩ => h3 ⟨g1, g2, ?_, ?_⟩⟩
  · exact fun c hc => g3 c (hp.mem_iff.1 hc)
  · exact ⟨c, hp.mem_iff.2 g4, g5⟩

/-- Terms without ties can be joined in any order. -/
theorem join_firm {k : Opts} (hk : OptsOk k) {l l' : List (ℝ × Pdf)} (hp : l.Perm l') (hw : ∀ y ∈ l, 0 ≤ y.1)
    (ht : ¬ Tied k l) (p : Pdf) :
    joinPdf k p (l.map Prod.fst) (l.map Prod.snd) = joinPdf k p (l'.map Prod.fst) (l'.map Prod.snd) := by
  unfold Tied at ht
  push Not at ht
  have := GM.join_order hk.srt k.lim k.mx (hp.map fun y => (y.1, y.2.mix.c)) (by
    intro y hy
    obtain ⟨x, hx, rfl⟩ := List.mem_map.1 hy
    exact hw x hx) (fun a ha b hb h => by
      by_cases hab : a = b
      · exact Or.inl hab
      · exact Or.inr (ht a ha b hb h hab))
  unfold joinPdf
  simp only [List.map_map] at this ⊢
  have e1 : ∀ m : List (ℝ × Pdf), m.map (Prod.fst ∘ fun y : ℝ × Pdf => (y.1, y.2.mix.c)) = m.map Prod.fst :=
    fun m => rfl
  have e2 : ∀ m : List (ℝ × Pdf), m.map (Prod.snd ∘ fun y : ℝ × Pdf => (y.1, y.2.mix.c)) =
    m.map ((fun q : Pdf => q.mix.c) ∘ Prod.snd) := fun m => rfl
  rw [e1, e1, e2, e2] at this
  rw [this]

theorem alike_pdf {k : Opts} (hk : OptsOk k) {Q : Pdf → List (ℝ × Pdf) → Prop} {u u' : Tgt Pdf}
    (h : Alike (env k) Q u u') :
    u'.id = u.id ∧ u'.r = u.r ∧ u'.la = u.la ∧ (u'.pdf = u.pdf ∨ ∃ p l, Q p l ∧ Tied k l) := by
  obtain ⟨h1, h2, h3, h4⟩ := h
  refine ⟨h1, h2, h3, ?_⟩
  rcases h4 with h4 | ⟨p, l, l', hq, hp, hw, e, e'⟩
  · exact Or.inl h4
  by_cases ht : Tied k l
  · exact Or.inr ⟨p, l, hq, ht⟩
  · left
    rw [e, e']
    exact congrArg (toGlobal k) (join_firm hk hp hw ht p).symm

/-- **C107** Two calls of `correct` in the same state, with the reports of the scan in different orders and with
different outcomes of everything else that is left open (the schedule, the order of the births, the ties in the
priority queue), do the same, if in every cluster the costs settle which hypotheses count: every report gets the
same birth probability, every target that the scan reaches the same existence probability and, unless different
components of the same weight are joined, the same density; every other target stays as it is; and targets with the
same existence probabilities and densities are started. -/
theorem C107_tracker {k : Opts} (hk : OptsOk k) {prm : Params} {calls : List (Call Pdf Rpt)}
    (hc : ∀ c ∈ calls, SysCall k prm c) {fuel fuel' : Nat} {s : St Pdf}
    (e : run (env k) prm fuel calls St.empty = some s) {sn : PSens} (hcost : CostsOk (sensor k sn)) {ch ch' : Choices}
    (hwt : ch'.wt = ch.wt) {scan scan' : List (Rep Rpt)} {dflt dflt' : Rep Rpt}
    (hsys : SysCall k prm (.correct (sensor k sn) ch scan dflt))
    (hsys' : SysCall k prm (.correct (sensor k sn) ch' scan' dflt')) {π : Equiv.Perm ℕ}
    (hπ : ∀ j, scan'[π j]? = scan[j]?) {s' s'' : St Pdf} {reps reps' : Nat → Rep Rpt}
    (e1 : correct (env k) (sensor k sn) prm ch fuel scan dflt s = some (s', reps))
    (e2 : correct (env k) (sensor k sn) prm ch' fuel' scan' dflt' s = some (s'', reps'))
    (hset : ∀ cls s1 rcid, prepare (env k) (sensor k sn) scan s = some (cls, s1, rcid) → ∀ c ∈ cls,
      SettledIn (env k) (sensor k sn) prm ch.wt s1.heap (initReps scan rcid dflt) c) :
    (∀ j < scan.length, (reps' (π j)).rB = (reps j).rB ∧ (reps' (π j)).val = (reps j).val) ∧
    (∀ a t, s.heap a = some t → Gated (env k) (sensor k sn) scan s a → ∃ u u',
      u.id = t.id ∧ u'.id = t.id ∧ u'.r = u.r ∧ (u'.pdf = u.pdf ∨
        ∃ p l, Joined (env k) (sensor k sn) prm ch scan dflt s a p l ∧ Tied k l) ∧
      Fate (env k) (sensor k sn) prm scan.length s' reps a u ∧
      Fate (env k) (sensor k sn) prm scan'.length s'' reps' a u') ∧
    (∀ a t, s.heap a = some t → ¬ Gated (env k) (sensor k sn) scan s a →
      s'.heap a = some t ∧ s''.heap a = some t) ∧
    ∃ old new old' new', s'.targets = old ++ new ∧ s''.targets = old' ++ new' ∧ old.Sublist s.targets ∧
      old'.Sublist s.targets ∧ Stay s s' old ∧ Stay s s'' old' ∧
      (new.map fun b => (s'.heap b).map fun w => (w.r, w.pdf)).Perm
        (new'.map fun b => (s''.heap b).map fun w => (w.r, w.pdf)) := by
  obtain ⟨h1, h2, h3, h4⟩ := C107_order (env_box k) center_perm prm fuel fuel' calls
    (fun c h => sysCall_ok (hc c h)) s e (sensor k sn) hcost ch ch' hwt hsys.2.2.2.1 hsys.2.2.1 hsys'.2.2.1 scan scan'
    dflt dflt' (sysCall_ok hsys) (sysCall_ok hsys') π hπ s' s'' reps reps' e1 e2 hset
  refine ⟨h1, fun a t ht hg => ?_, h3, h4⟩
  obtain ⟨u, u', g1, g2, g3, g4⟩ := h2 a t ht hg
  obtain ⟨k1, k2, _, k4⟩ := alike_pdf hk g1
  exact ⟨u, u', g2, k1.trans g2, k2, k4, g3, g4⟩

/-! ## A concrete history -/

/-- The density of a report where the target at `q` is expected with covariance 1. -/
noncomputable def exDens (p q : LL) : ℝ :=
  Kalman.likelihood (CF.ll2ne p q) ((1 / 2 : ℝ) • (1 : Matrix (Fin 2) (Fin 2) ℝ))

theorem exDens_bounds (p q : LL) : 0 < exDens p q ∧ exDens p q ≤ 1 := by
  have hdet : ((1 / 2 : ℝ) • (1 : Matrix (Fin 2) (Fin 2) ℝ)).det = 1 / 4 := by
    rw [Matrix.det_smul]
    norm_num
  have h0 := Real.pi_pos
  unfold exDens Kalman.likelihood
  rw [hdet]
  have h1 : 0 < Real.sqrt (1 / 4 / (2 * Real.pi) ^ 2) := Real.sqrt_pos.2 (by positivity)
  refine ⟨mul_pos (Real.exp_pos _) h1, ?_⟩
  have h2 : Real.sqrt (1 / 4 / (2 * Real.pi) ^ 2) ≤ 1 := by
    apply Real.sqrt_le_iff.2
    refine ⟨by norm_num, ?_⟩
    rw [div_le_iff₀ (by positivity)]
    have h3 := Real.pi_gt_three.le
    have : (3 : ℝ) ^ 2 ≤ Real.pi ^ 2 := pow_le_pow_left₀ (by norm_num) h3 2
    nlinarith
  have h3 : Real.exp (-(CF.ll2ne p q ⬝ᵥ ((1 / 2 : ℝ) • (1 : Matrix (Fin 2) (Fin 2) ℝ)) *ᵥ CF.ll2ne p q) * 0.5) ≤ 1 := by
    apply Real.exp_le_one_iff.2
    rw [Matrix.smul_mulVec, Matrix.one_mulVec, dotProduct_smul]
    have : 0 ≤ CF.ll2ne p q ⬝ᵥ CF.ll2ne p q := by
      rw [dotProduct]
      exact Finset.sum_nonneg fun i _ => mul_self_nonneg _
    rw [smul_eq_mul]
    nlinarith
  exact mul_le_one₀ h3 h1.le h2

/-- A report at `p`, where the clutter makes it `W` times as likely from a target at `q`. -/
noncomputable def exSee (p q : LL) (W : ℝ) (hW : 0 < W) : Rpt :=
  exAt p (7 / 10 * exDens p q / W) (div_pos (mul_pos (by norm_num) (exDens_bounds p q).1) hW)

/-- Such a report is `W` times as likely from the target as from clutter. -/
theorem see_ratio {g : Cmp} {t : Tgt Pdf} (h5 : t.pdf.mix.c = [g]) (h6 : g.w = 1) (h7 : g.x.2 = 1) {q : LL}
    (hq : q = pos t.pdf) (p : LL) {W : ℝ} (hW : 0 < W) (hW1 : 1 / 100000000 < W) (pd : Nat → ℝ) (hpd : pd 0 = 7 / 10) :
    (correctMix pd (rLocal q (exSee p q W hW)) (toLocal q t.pdf).mix).eta = W := by
  have hqg : q = head g.x.1 := by
    rw [hq]
    unfold pos
    rw [Kalman.mean_eq, h5]
    simp [toG, h6]
  have hzero : CF.ll2ne q q = 0 := (CF.C49_ne q q q).2.1
  set gl : Cmp := ⟨(setHead 0 g.x.1, 1), 1⟩ with hgl
  have hloc : (toLocal q t.pdf).mix.c = [gl] := by
    show cLocal q t.pdf.mix.c = _
    rw [h5]
    simp only [cLocal, List.map_cons, List.map_nil, ← hqg, hzero, hgl, h6, h7]
  have hinn : Kalman.innov Kalman.posH (rLocal q (exSee p q W hW)).1 (toG gl) = CF.ll2ne p q := by
    unfold Kalman.innov
    have : (rLocal q (exSee p q W hW)).1.x = CF.ll2ne p q := rfl
    rw [this]
    ext i
    fin_cases i <;> simp [Kalman.posH, toG, hgl, setHead, Matrix.mulVec, dotProduct, Fin.sum_univ_four]
  have hD : Kalman.dinv Kalman.posH (rLocal q (exSee p q W hW)).1 (toG gl) =
      (1 / 2 : ℝ) • (1 : Matrix (Fin 2) (Fin 2) ℝ) := by
    unfold Kalman.dinv
    have : Kalman.posH * (toG gl).P * Kalman.posHᵀ + (rLocal q (exSee p q W hW)).1.P =
        (2 : ℝ) • (1 : Matrix (Fin 2) (Fin 2) ℝ) := posH_self
    rw [this, half_inv]
  have e1 : (Kalman.correct Kalman.posH (7 / 10) (rLocal q (exSee p q W hW)).1 (toG gl)).w = W := by
    unfold Kalman.correct
    rw [hinn, hD]
    show 1 * (7 / 10 * exDens p q / (7 / 10 * exDens p q / W)) = W
    have := (exDens_bounds p q).1
    field_simp
  have hsum : (((toLocal q t.pdf).mix.c.mapIdx fun i g =>
      ofG (Kalman.correct Kalman.posH (pd i) (rLocal q (exSee p q W hW)).1 (toG g))).map GM.Cmp.w).sum = W := by
    rw [hloc]
    simp [hpd, ofG, e1]
  unfold correctMix
  rw [((GM.C37_normalize _).1 (by rw [hsum]; exact hW1)).2.1, hsum]

/-- East and west of a place look the same from there. -/
theorem exDens_mirror (q : LL) (d : ℝ) : exDens ![q 0, q 1 + d] q = exDens ![q 0, q 1 - d] q := by
  have h : ∀ d : ℝ, CF.ll2ne ![q 0, q 1 + d] q =
      ![CF.nrad (q 0) * CF.cosd (q 0) * CF.sind (q 0) * (1 - CF.cosd d),
        CF.nrad (q 0) * CF.cosd (q 0) * CF.sind d] := by
    intro d
    have hc : CF.cosd (q 1 + d) = CF.cosd (q 1) * CF.cosd d - CF.sind (q 1) * CF.sind d := by
      unfold CF.cosd CF.sind
      rw [show (q 1 + d) * Real.pi / 180 = q 1 * Real.pi / 180 + d * Real.pi / 180 by ring, Real.cos_add]
    have hs : CF.sind (q 1 + d) = CF.sind (q 1) * CF.cosd d + CF.cosd (q 1) * CF.sind d := by
      unfold CF.cosd CF.sind
      rw [show (q 1 + d) * Real.pi / 180 = q 1 * Real.pi / 180 + d * Real.pi / 180 by ring, Real.sin_add]
    have hone : CF.cosd (q 1) * CF.cosd (q 1) = 1 - CF.sind (q 1) * CF.sind (q 1) := by
      unfold CF.cosd CF.sind
      have := Real.sin_sq_add_cos_sq (q 1 * Real.pi / 180)
      nlinarith
    unfold CF.ll2ne CF.ecef2ne CF.nerot CF.ll2ecef
    ext i
    fin_cases i
    · simp [Matrix.mulVec, dotProduct, Fin.sum_univ_three, hc, hs]
      linear_combination (CF.nrad (q 0) * CF.cosd (q 0) * CF.sind (q 0) * (1 - CF.cosd d)) * hone
    · simp [Matrix.mulVec, dotProduct, Fin.sum_univ_three, hc, hs]
      linear_combination (CF.nrad (q 0) * CF.cosd (q 0) * CF.sind d) * hone
  have h2 := h (-d)
  rw [← sub_eq_add_neg] at h2
  have hcd : CF.cosd (-d) = CF.cosd d := by
    unfold CF.cosd
    rw [neg_mul, neg_div, Real.cos_neg]
  have hsd : CF.sind (-d) = -CF.sind d := by
    unfold CF.sind
    rw [neg_mul, neg_div, Real.sin_neg]
  unfold exDens
  rw [h d, h2, hcd, hsd]
  unfold Kalman.likelihood
  congr 3
  rw [Matrix.smul_mulVec, Matrix.smul_mulVec, Matrix.one_mulVec, Matrix.one_mulVec]
  simp [dotProduct, Fin.sum_univ_two]

theorem exp_tiny : Real.exp (1 / 2 ^ 40) ≤ 21 / 20 := by
  have h := Real.add_one_le_exp (-(1 / 2 ^ 40 : ℝ))
  have h0 := Real.exp_pos (1 / 2 ^ 40 : ℝ)
  have h1 : Real.exp (1 / 2 ^ 40 : ℝ) * Real.exp (-(1 / 2 ^ 40 : ℝ)) = 1 := by
    rw [← Real.exp_add]; simp
  have h2 : (20 / 21 : ℝ) ≤ Real.exp (-(1 / 2 ^ 40 : ℝ)) := le_trans (by norm_num) h
  nlinarith

/-- The cost of an event of weight `x`. -/
theorem lg_val {x : ℝ} (hx : 0 < x) : ∃ q, exEye.lg x = fin q ∧ ew q ≤ 21 / 20 * x ∧ x ≤ 21 / 20 * ew q := by
  have h := exSens_near x hx.le
  have hw := near_weight h
  rcases h with ⟨h, _⟩ | ⟨_, q, hq, _⟩
  · exact absurd h hx.ne'
  · refine ⟨q, hq, ?_, ?_⟩
    · have h1 := hw.1
      rw [hq] at h1
      exact le_trans h1 (mul_le_mul_of_nonneg_right exp_tiny hx.le)
    · have h1 := hw.2
      rw [hq] at h1
      exact le_trans h1 (mul_le_mul_of_nonneg_right exp_tiny (ew_pos q).le)

/-- Events whose weights differ enough have different costs. -/
theorem lg_lt {x y : ℝ} (hx : 0 < x) (hy : 6 / 5 * x ≤ y) {p q : ℚ} (hp : exEye.lg x = fin p)
    (hq : exEye.lg y = fin q) : q < p := by
  obtain ⟨p', h1, h2, _⟩ := lg_val hx
  obtain ⟨q', k1, _, k3⟩ := lg_val (show 0 < y by linarith)
  rw [hp] at h1
  rw [hq] at k1
  cases h1
  cases k1
  by_contra h
  have := ew_antitone (not_lt.1 h)
  linarith

/-- Four events with different costs. -/
theorem lg_four {x y : ℝ} (hx : x = 80000 ∨ x = 8 ∨ x = 6 / 25 ∨ x = 1 / 5)
    (hy : y = 80000 ∨ y = 8 ∨ y = 6 / 25 ∨ y = 1 / 5) (h : exEye.lg x = exEye.lg y) : x = y := by
  have hpx : 0 < x := by rcases hx with h | h | h | h <;> rw [h] <;> norm_num
  have hpy : 0 < y := by rcases hy with h | h | h | h <;> rw [h] <;> norm_num
  obtain ⟨p, hp, _⟩ := lg_val hpx
  have hq := h.symm.trans hp
  by_contra hne
  have hor : 6 / 5 * x ≤ y ∨ 6 / 5 * y ≤ x := by
    rcases hx with rfl | rfl | rfl | rfl <;> rcases hy with rfl | rfl | rfl | rfl <;>
      first | exact absurd rfl hne | (left; norm_num; done) | (right; norm_num; done)
  rcases hor with h | h
  · exact absurd (lg_lt hpx h hp hq) (lt_irrefl _)
  · exact absurd (lg_lt hpy h hq hp) (lt_irrefl _)

/-- Two scans after the first report. -/
theorem exNext2 (l l' : LL → List Rpt) (hl : ∀ q, (l q).length ≤ 10) (hl' : ∀ q, (l' q).length ≤ 10) :
    ∃ F s a t g,
    run (env exOpts3) exPrm F [exScan3 [exAt 0 1 one_pos]] St.empty = some s ∧
    s.heap a = some t ∧ s.targets = [a] ∧ t.r = 4 / 5 ∧ t.pdf.mix.c = [g] ∧ g.w = 1 ∧ g.x.2 = 1 ∧
    t.pdf.box = exBox ∧ (∀ b t', s.heap b = some t' → b = a) ∧
    (∃ s2 reps, correct (env exOpts3) (sensor exOpts3 exEye) exPrm exCh F
      ((l (pos t.pdf)).map fun z => ⟨z, none, 0⟩) ⟨exRpt 0 0, none, 0⟩ s = some (s2, reps)) ∧
    ∃ s2 reps, correct (env exOpts3) (sensor exOpts3 exEye) exPrm exCh F
      ((l' (pos t.pdf)).map fun z => ⟨z, none, 0⟩) ⟨exRpt 0 0, none, 0⟩ s = some (s2, reps) := by
  obtain ⟨F, s, a, t, g, h1, h2, h3, h4, h5, h6, h7, h8, h9, s2, reps, h10, _⟩ := exNext l hl
  have hc2 : ∀ c ∈ [exScan3 [exAt 0 1 one_pos], exScan3 (l' (pos t.pdf))], SysCall exOpts3 exPrm c := by
    intro c hc
    simp only [List.mem_cons, List.not_mem_nil, or_false] at hc
    rcases hc with rfl | rfl
    · exact exScan3_ok _ (by simp)
    · exact exScan3_ok _ (hl' _)
  obtain ⟨F', s2', hF⟩ := C26_defined (env_box exOpts3) exPrm
    [exScan3 [exAt 0 1 one_pos], exScan3 (l' (pos t.pdf))]
    (fun c h => sysCall_ok (hc2 c h))
    (by
      intro c hc
      simp only [List.mem_cons, List.not_mem_nil, or_false] at hc
      rcases hc with rfl | rfl <;> exact exScan3_costs _)
    (by
      have := hl' (pos t.pdf)
      simp [exScan3, Call.reports]
      omega)
  have hF := hF (max F F') (le_max_right _ _)
  have hrun := run_mono (le_max_left F F') _ _ _ h1
  refine ⟨max F F', s, a, t, g, hrun, h2, h3, h4, h5, h6, h7, h8, h9,
    ⟨s2, reps, correct_mono (le_max_left F F') h10⟩, ?_⟩
  have hst : run (env exOpts3) exPrm (max F F') [exScan3 (l' (pos t.pdf))] s = some s2' := by
    have : [exScan3 [exAt 0 1 one_pos], exScan3 (l' (pos t.pdf))] =
      [exScan3 [exAt 0 1 one_pos]] ++ [exScan3 (l' (pos t.pdf))] := rfl
    rw [this, run_append, hrun, Option.bind_some] at hF
    exact hF
  simp only [exScan3, run, step] at hst
  cases hx : correct (env exOpts3) (sensor exOpts3 exEye) exPrm exCh (max F F')
    ((l' (pos t.pdf)).map fun z => ⟨z, none, 0⟩) ⟨exRpt 0 0, none, 0⟩ s with
  | none => simp [hx] at hst
  | some y => exact ⟨y.1, y.2, rfl⟩

theorem exSee_box (p q : LL) {W : ℝ} (hW : 0 < W) (hW2 : 2 ≤ W) : exOpts3.rbox (exSee p q W hW) = exBox := by
  show (if (7 / 10 * exDens p q / W) = 1 / 2 then exBoxAt 500 500 else exBox) = exBox
  rw [if_neg]
  intro h
  have := exDens_bounds p q
  rw [div_eq_iff hW.ne'] at h
  linarith

theorem exMiss {t : Tgt Pdf} {g : Cmp} (h4 : t.r = 4 / 5) (h5 : t.pdf.mix.c = [g]) (h6 : g.w = 1) (a : Nat) (o : LL) :
    (sensor exOpts3 exEye).missCost a t.r (toLocal o t.pdf) = exEye.lg (6 / 25) := by
  show exEye.lg (t.r * (1 - missedEta (exEye.pdMiss a) (toLocal o t.pdf).mix)) = _
  have : missedEta (exEye.pdMiss a) (toLocal o t.pdf).mix = 7 / 10 := by
    unfold missedEta
    show List.foldl _ _ ((cLocal o t.pdf.mix.c).mapIdx _) = _
    rw [h5]
    simp [cLocal, exEye, h6]
  rw [this, h4]
  norm_num

theorem exFls {t : Tgt Pdf} (h4 : t.r = 4 / 5) : (sensor exOpts3 exEye).flsCost t.r = exEye.lg (1 / 5) := by
  show (if t.r < 1 then exEye.lg (1 - t.r) else XR.fin 30000) = _
  rw [if_pos (by rw [h4]; norm_num), h4]
  norm_num

/-- The two sides of a place have the same clutter. -/
example (q : LL) : (exSee ![q 0, q 1 + 1] q 10 (by norm_num)).1.kappa = (exSee ![q 0, q 1 - 1] q 10 (by norm_num)).1.kappa := by
  show 7 / 10 * exDens _ q / 10 = 7 / 10 * exDens _ q / 10
  rw [exDens_mirror]

/-- The concrete case for `C107_tracker`: two reports in one place that differ in their clutter. -/
theorem exOrder : ∃ F s s' s'' a t reps reps',
    run (env exOpts3) exPrm F [exScan3 [exAt 0 1 one_pos]] St.empty = some s ∧ s.heap a = some t ∧
    correct (env exOpts3) (sensor exOpts3 exEye) exPrm exCh F [⟨exSee (pos t.pdf) (pos t.pdf) 100000 (by norm_num), none, 0⟩,
      ⟨exSee (pos t.pdf) (pos t.pdf) 10 (by norm_num), none, 0⟩] ⟨exRpt 0 0, none, 0⟩ s = some (s', reps) ∧
    correct (env exOpts3) (sensor exOpts3 exEye) exPrm exCh F [⟨exSee (pos t.pdf) (pos t.pdf) 10 (by norm_num), none, 0⟩,
      ⟨exSee (pos t.pdf) (pos t.pdf) 100000 (by norm_num), none, 0⟩] ⟨exRpt 0 0, none, 0⟩ s = some (s'', reps') ∧
    (reps' 0).rB = (reps 1).rB ∧ (reps' 1).rB = (reps 0).rB := by
  obtain ⟨F, s, a, t, g, h1, h2, h3, h4, h5, h6, h7, h8, h9, ⟨s', reps, e1⟩, s'', reps', e2⟩ :=
    exNext2 (fun q => [exSee q q 100000 (by norm_num), exSee q q 10 (by norm_num)])
      (fun q => [exSee q q 10 (by norm_num), exSee q q 100000 (by norm_num)]) (by simp) (by simp)
  refine ⟨F, s, s', s'', a, t, reps, reps', h1, h2, e1, e2, ?_⟩
  set q := pos t.pdf with hq
  have hc : ∀ c ∈ [exScan3 [exAt 0 1 one_pos]], SysCall exOpts3 exPrm c := by
    intro c hc
    rw [List.mem_singleton] at hc
    subst hc
    exact exScan3_ok _ (by simp)
  have hsys := exScan3_ok [exSee q q 100000 (by norm_num), exSee q q 10 (by norm_num)] (by simp)
  have hsys' := exScan3_ok [exSee q q 10 (by norm_num), exSee q q 100000 (by norm_num)] (by simp)
  have hs := run_inv (env_box exOpts3) (Inv.empty _) (fun c h => sysCall_ok (hc c h)) h1
  have det : ∀ (p : LL) (W : ℝ) (hW : 0 < W), 1 / 100000000 < W →
      (sensor exOpts3 exEye).detCost a t.r (toLocal q t.pdf) (rLocal q (exSee p q W hW)) = exEye.lg (4 / 5 * W) := by
    intro p W hW hW1
    show exEye.lg (t.r * (correctMix _ _ (toLocal q t.pdf).mix).eta) = _
    rw [see_ratio h5 h6 h7 hq p hW hW1 _ rfl, h4]
  obtain ⟨hA, _⟩ := C107_tracker exOpts3_ok hc h1 (exScan3_costs []).1 rfl hsys hsys' (π := Equiv.swap 0 1) (by
    intro j
    match j with
    | 0 => rw [Equiv.swap_apply_left]; rfl
    | 1 => rw [Equiv.swap_apply_right]; rfl
    | j + 2 => rw [Equiv.swap_apply_of_ne_of_ne (by omega) (by omega)]; rfl) e1 e2 (by
    intro cls s1 rcid hprep c hcm ts rs hts hrs
    obtain ⟨_, _, _, p1, p2, _, _, _, p6, p7, _, p9, p10⟩ := prepare_ok (env_box exOpts3) (sysCall_ok hsys).1
      (sysCall_ok hsys).2.2 hs.ok
    erw [hprep] at p1
    rw [Option.some.injEq, Prod.mk.injEq, Prod.mk.injEq] at p1
    obtain ⟨rfl, rfl, rfl⟩ := p1
    have hct : ∀ b ∈ c.targets, b = a := by
      intro b hb
      obtain ⟨t', ht', _⟩ := (p7 b).1 ⟨c, hcm, hb⟩
      exact h9 b t' ht'
    have hcn := (List.nodup_flatMap.1 p2.tnd).1 c hcm
    have hrn := (List.nodup_flatMap.1 p2.rnd).1 c hcm
    have hr2 : ∀ j ∈ c.reports, j = 0 ∨ j = 1 := by
      intro j hj
      have h := List.mem_range.1 (p6.mem_iff.1 (List.mem_flatMap.2 ⟨c, hcm, hj⟩))
      have h : j < 2 := h
      omega
    obtain ⟨u, hu, su⟩ := p9 a t h2
    obtain ⟨r1, r2⟩ := readAll_spec hts
    cases ts with
    | nil => exact Or.inl fun σ τ _ _ _ _ i => absurd i.isLt (by simp)
    | cons x ts =>
      have hx : x = (a, u) := by
        have e1 : x.1 = a := hct _ (by rw [← r1]; simp)
        have e2 := r2 x (by simp)
        rw [e1, hu] at e2
        exact Prod.ext e1 (Option.some.inj e2).symm
      subst hx
      cases ts with
      | cons y ts =>
        exfalso
        have e1 : y.1 = a := hct _ (by rw [← r1]; simp)
        rw [← r1] at hcn
        simp [e1] at hcn
      | nil =>
        have hval : ∀ j ∈ c.reports, (initReps [(⟨exSee q q 100000 (by norm_num), none, 0⟩ : Rep Rpt),
            ⟨exSee q q 10 (by norm_num), none, 0⟩] rcid ⟨exRpt 0 0, none, 0⟩ j).val.1.x = q := by
          intro j hj
          rcases hr2 j hj with rfl | rfl <;> rfl
        have hcen : (env exOpts3).center (rs.map (env exOpts3).rpos ++ [((a, u) : Nat × Tgt Pdf)].map fun t =>
            (env exOpts3).pos t.2.pdf) = q := by
          have hall : ∀ y ∈ rs.map (env exOpts3).rpos ++ [((a, u) : Nat × Tgt Pdf)].map (fun t =>
              (env exOpts3).pos t.2.pdf), y = q := by
            intro y hy
            rcases List.mem_append.1 hy with hy | hy
            · obtain ⟨z, hz, rfl⟩ := List.mem_map.1 hy
              rw [hrs] at hz
              obtain ⟨j, hj, rfl⟩ := List.mem_map.1 hz
              exact hval j hj
            · rw [List.map_cons, List.map_nil, List.mem_singleton] at hy
              rw [hy]
              show pos u.pdf = q
              rw [su.2.2.1]
          have hrep := List.eq_replicate_of_mem hall
          rw [hrep]
          show (1 / ((List.replicate _ q).length : ℝ)) • (List.replicate _ q).sum = q
          rw [List.length_replicate, List.sum_replicate, ← Nat.cast_smul_eq_nsmul ℝ, smul_smul, one_div,
            inv_mul_cancel₀ (by
              simp
              positivity), one_smul]
        rw [hcen]
        apply settled_one
        -- the costs of the columns
        have hlen : rs.length = c.reports.length := by rw [hrs, List.length_map]
        have hdet : ∀ (j : Fin rs.length), (sensor exOpts3 exEye).detCost a u.r (toLocal q u.pdf) (rLocal q (rs.get j)) =
            if c.reports[j.val]'(hlen ▸ j.isLt) = 0 then exEye.lg 80000 else exEye.lg 8 := by
          intro j
          rw [su.2.1, su.2.2.1]
          have e3 : rs.get j = (initReps [(⟨exSee q q 100000 (by norm_num), none, 0⟩ : Rep Rpt),
            ⟨exSee q q 10 (by norm_num), none, 0⟩] rcid ⟨exRpt 0 0, none, 0⟩
              (c.reports[j.val]'(hlen ▸ j.isLt))).val := by
            simp [hrs]
          rw [e3]
          rcases hr2 _ (List.getElem_mem (hlen ▸ j.isLt : j.val < c.reports.length)) with h | h
          · rw [h, if_pos rfl]
            refine (det q 100000 (by norm_num) (by norm_num)).trans ?_
            norm_num
          · rw [h, if_neg (by decide)]
            refine (det q 10 (by norm_num) (by norm_num)).trans ?_
            norm_num
        have hm := exMiss (t := u) (g := g) (by rw [su.2.1]; exact h4) (by rw [su.2.2.1]; exact h5) h6 a q
        have hf := exFls (t := u) (by rw [su.2.1]; exact h4)
        have hcost : ∀ k : Fin (rs.length + 2 * 1), ∃ x : ℝ,
            (x = 80000 ∨ x = 8 ∨ x = 6 / 25 ∨ x = 1 / 5) ∧
            matrixOf (env exOpts3) (sensor exOpts3 exEye) q [((a, u) : Nat × Tgt Pdf)].get rs.get 0 k = exEye.lg x ∧
            ((∃ h : k.val < rs.length, x = if c.reports[k.val]'(hlen ▸ h) = 0 then 80000 else 8) ∨
              k.val = rs.length ∧ x = 6 / 25 ∨ k.val = rs.length + 1 ∧ x = 1 / 5) := by
          intro k
          by_cases hk : k.val < rs.length
          · refine ⟨if c.reports[k.val]'(hlen ▸ hk) = 0 then 80000 else 8, ?_, ?_, Or.inl ⟨hk, rfl⟩⟩
            · split_ifs <;> simp
            · unfold matrixOf Hyp.costMatrix
              rw [dif_pos hk]
              refine (hdet ⟨k.val, hk⟩).trans ?_
              split_ifs <;> rfl
          · by_cases hk1 : k.val = rs.length
            · refine ⟨6 / 25, by simp, ?_, Or.inr (Or.inl ⟨hk1, rfl⟩)⟩
              unfold matrixOf Hyp.costMatrix
              rw [dif_neg hk, if_pos (by simp [hk1])]
              exact hm
            · have hk2 : k.val = rs.length + 1 := by
                have := k.isLt
                omega
              refine ⟨1 / 5, by simp, ?_, Or.inr (Or.inr ⟨hk2, rfl⟩)⟩
              unfold matrixOf Hyp.costMatrix
              rw [dif_neg hk, if_neg (by simp [hk2]), if_pos (by simp [hk2])]
              exact hf
        intro k k' v hk hk'
        obtain ⟨x, x1, x2, x3⟩ := hcost k
        obtain ⟨y, y1, y2, y3⟩ := hcost k'
        have hxy : x = y := lg_four x1 y1 (by rw [← x2, ← y2]; exact hk.trans hk'.symm)
        subst hxy
        rcases x3 with ⟨l1, x3⟩ | ⟨l1, x3⟩ | ⟨l1, x3⟩ <;> rcases y3 with ⟨m1, y3⟩ | ⟨m1, y3⟩ | ⟨m1, y3⟩
        · have hm2 : ∀ j ∈ c.reports, (if j = 0 then (80000 : ℝ) else 8) = x → j = if x = 8 then 1 else 0 := by
            intro j hj h
            rcases hr2 j hj with rfl | rfl
            · rw [if_pos rfl] at h
              rw [if_neg (by rw [← h]; norm_num)]
            · rw [if_neg (by decide)] at h
              rw [if_pos h.symm]
          have e3 := hm2 _ (List.getElem_mem (hlen ▸ l1 : k.val < c.reports.length)) x3.symm
          have e4 := hm2 _ (List.getElem_mem (hlen ▸ m1 : k'.val < c.reports.length)) y3.symm
          exact Fin.ext ((List.Nodup.getElem_inj_iff hrn).1 (e3.trans e4.symm))
        all_goals first
          | exact Fin.ext (by omega)
          | (exfalso; rw [x3] at y3; revert y3; (try split_ifs) <;> norm_num; done))
  have g0 := (hA 0 (by simp)).1
  have g1 := (hA 1 (by simp)).1
  rw [Equiv.swap_apply_left] at g0
  rw [Equiv.swap_apply_right] at g1
  exact ⟨g1, g0⟩

/-- East and west of a target, equally likely. -/
noncomputable def exSides (q : LL) : List Rpt :=
  [exSee q q 100000 (by norm_num), exSee ![q 0, q 1 + 1] q 10 (by norm_num), exSee ![q 0, q 1 - 1] q 10 (by norm_num)]

/-- **C107 refuted without the condition on the costs** With the default parameters, a target, a report where it is
expected and two reports of the same, small likelihood east and west of it: of two hypotheses with the same
weight, below `w_lim` of the total, the one that is found first counts and the other one does not.  Which report
that is depends on the order in which the scan lists them. -/
theorem C107_ties_refuted : ¬ ∀ (fuel : Nat) (calls : List (Call Pdf Rpt)) (s s' s'' : St Pdf) (ch : Choices)
    (scan scan' : List (Rep Rpt)) (dflt : Rep Rpt) (reps reps' : Nat → Rep Rpt) (π : Equiv.Perm ℕ),
    (∀ c ∈ calls, SysCall exOpts3 exPrm c) → SysCall exOpts3 exPrm (.correct (sensor exOpts3 exEye) ch scan dflt) →
    run (env exOpts3) exPrm fuel calls St.empty = some s → (∀ j, scan'[π j]? = scan[j]?) →
    correct (env exOpts3) (sensor exOpts3 exEye) exPrm ch fuel scan dflt s = some (s', reps) →
    correct (env exOpts3) (sensor exOpts3 exEye) exPrm ch fuel scan' dflt s = some (s'', reps') →
    ∀ j < scan.length, (reps' (π j)).rB = (reps j).rB := by
  intro H
  obtain ⟨F, s, a, t, g, h1, h2, h3, h4, h5, h6, h7, h8, h9, ⟨s', reps, e1⟩, s'', reps', e2⟩ :=
    exNext2 exSides (fun q => [exSee q q 100000 (by norm_num), exSee ![q 0, q 1 - 1] q 10 (by norm_num),
      exSee ![q 0, q 1 + 1] q 10 (by norm_num)]) (by simp [exSides]) (by simp)
  set q := pos t.pdf with hq
  have hc : ∀ c ∈ [exScan3 [exAt 0 1 one_pos]], SysCall exOpts3 exPrm c := by
    intro c hc
    rw [List.mem_singleton] at hc
    subst hc
    exact exScan3_ok _ (by simp)
  have hsys := exScan3_ok (exSides q) (by simp [exSides])
  -- the centre
  have hcen : q = center [(exSee q q 100000 (by norm_num)).1.x, (exSee ![q 0, q 1 + 1] q 10 (by norm_num)).1.x,
      (exSee ![q 0, q 1 - 1] q 10 (by norm_num)).1.x, pos t.pdf] := by
    show q = (1 / ((4 : ℕ) : ℝ)) • (q + (![q 0, q 1 + 1] + (![q 0, q 1 - 1] + (pos t.pdf + 0))))
    rw [← hq]
    ext i
    fin_cases i
    · show q 0 = 1 / ((4 : ℕ) : ℝ) * (q 0 + (q 0 + (q 0 + (q 0 + 0))))
      push_cast
      ring
    · show q 1 = 1 / ((4 : ℕ) : ℝ) * (q 1 + (q 1 + 1 + (q 1 - 1 + (q 1 + 0))))
      push_cast
      ring
  obtain ⟨c0, k0, u0, v0⟩ := lg_val (x := 80000) (by norm_num)
  obtain ⟨c1, k1, u1, v1⟩ := lg_val (x := 8) (by norm_num)
  have det : ∀ (p : LL) (W : ℝ) (hW : 0 < W), 1 / 100000000 < W →
      (sensor exOpts3 exEye).detCost a t.r (toLocal q t.pdf) (rLocal q (exSee p q W hW)) = exEye.lg (4 / 5 * W) := by
    intro p W hW hW1
    show exEye.lg (t.r * (correctMix _ _ (toLocal q t.pdf).mix).eta) = _
    rw [see_ratio h5 h6 h7 hq p hW hW1 _ rfl, h4]
  have key := C107_tied (env_box exOpts3) center_perm exPrm F _ (fun c h => sysCall_ok (hc c h)) s h1
    (sensor exOpts3 exEye) (exScan3_costs []).1 exCh exCh_pick ⟨exSee q q 100000 (by norm_num), none, 0⟩
    ⟨exSee ![q 0, q 1 + 1] q 10 (by norm_num), none, 0⟩ ⟨exSee ![q 0, q 1 - 1] q 10 (by norm_num), none, 0⟩
    ⟨exRpt 0 0, none, 0⟩ (sysCall_ok hsys)
    (by
      show (exOpts3.rbox _).1 = (exOpts3.rbox _).1
      rw [exSee_box _ _ _ (by norm_num), exSee_box _ _ _ (by norm_num)]) rfl h2 h9
    (by
      constructor
      · show (exOpts3.rbox _).1.Touch t.pdf.box.1
        rw [exSee_box _ _ _ (by norm_num), h8]
        exact exBox_touch
      · show (exOpts3.rbox _).1.Touch t.pdf.box.1
        rw [exSee_box _ _ _ (by norm_num), h8]
        exact exBox_touch)
    q hcen (q0 := c0) (q := c1)
    ((det _ _ (by norm_num) (by norm_num)).trans (by norm_num; exact k0))
    ((det _ _ (by norm_num) (by norm_num)).trans (by norm_num; exact k1))
    ((det _ _ (by norm_num) (by norm_num)).trans (by norm_num; exact k1))
    (lg_lt (x := 8) (y := 80000) (by norm_num) (by norm_num) k1 k0)
    (by
      intro q' h
      have h := (exMiss h4 h5 h6 a q).symm.trans h
      exact lg_lt (by norm_num) (by norm_num) h k1)
    (by
      intro q' h
      have h := (exFls h4).symm.trans h
      exact lg_lt (by norm_num) (by norm_num) h k1)
    (ew_pos _) (ew_pos _)
    (by
      show ew c1 < 1 / 100 * (ew c0 + ew c1)
      linarith)
    (by show (1 / 100 : ℝ) ≤ 1; norm_num) (by show (1 : ℝ) < 100; norm_num) s' s'' reps reps' e1 e2
  have hH := H F _ s s' s'' exCh _ _ _ reps reps' (Equiv.swap 1 2) hc hsys h1 (by
    intro j
    match j with
    | 0 => rw [Equiv.swap_apply_of_ne_of_ne (by decide) (by decide)]; rfl
    | 1 => rw [Equiv.swap_apply_left]; rfl
    | 2 => rw [Equiv.swap_apply_right]; rfl
    | j + 3 => rw [Equiv.swap_apply_of_ne_of_ne (by omega) (by omega)]; rfl) e1 e2 1 (by simp [exSides])
  rw [Equiv.swap_apply_left] at hH
  have hpos : exCh.wt c1 / (exCh.wt c0 + exCh.wt c1) ≠ 0 := by
    have h0 : 0 < exCh.wt c0 := ew_pos _
    have h1 : 0 < exCh.wt c1 := ew_pos _
    positivity
  rcases key with ⟨g1, _, _, g4⟩ | ⟨g1, _, _, g4⟩
  · rw [g1, g4] at hH
    injection hH with hH
    exact hpos (by linarith)
  · rw [g1, g4] at hH
    injection hH with hH
    exact hpos (by linarith)

end Verif.System

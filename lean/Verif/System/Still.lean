import Verif.System.Age
import Verif.CF.Drift

/-!
# C126: predictions keep the velocity, and what does not move stays
-/

namespace Verif.System

open Verif.Tracker Matrix
open Verif.Kalman (cvF cvQ linearUpdate)

/-- A prediction by a user: any order of the targets, `CV` (`models.hpp:6-45`) or `NM` (`models.hpp:58-72`) with any
parameters. -/
def Predicts (c : Call Pdf Rpt) : Prop := ∃ m ord, c = .predict m ord ∧ (∀ l, (ord l).Perm l) ∧
  ((∃ pS q dT, m = cv pS q dT) ∨ ∃ pS Q, m = nm pS Q)

theorem predict_full {k : Opts} {F Q : Matrix (Fin 4) (Fin 4) ℝ} {m : Motion Pdf}
    (hm : m.pdf = moveMix F Q) {t : Tgt Pdf} (hs : (t.pdf.mix.c.map GM.Cmp.w).sum = 1) :
    (predictTgt (env k) m t).pdf.mix.c = t.pdf.mix.c.map fun g =>
      ⟨(setHead (CF.ne2ll (head (F *ᵥ setHead (CF.ll2ne (head g.x.1) (pos t.pdf)) g.x.1)) (pos t.pdf))
        (F *ᵥ setHead (CF.ll2ne (head g.x.1) (pos t.pdf)) g.x.1), F * g.x.2 * Fᵀ + Q), g.w⟩ := by
  set p := m.pdf (toLocal (pos t.pdf) t.pdf) with hp
  have hpc : p.mix.c = t.pdf.mix.c.map fun g => ofG (linearUpdate F Q
      (toG ⟨(setHead (CF.ll2ne (head g.x.1) (pos t.pdf)) g.x.1, g.x.2), g.w⟩)) := by
    rw [hp, hm]
    simp only [moveMix, toLocal, cLocal, List.map_map]
    rfl
  have ho : p.origin = pos t.pdf := by rw [hp, hm]; rfl
  have hps : (p.mix.c.map GM.Cmp.w).sum = 1 := by
    rw [hpc, List.map_map, ← hs]
    rfl
  have hb : 1 / 100000000 < (p.mix.c.map GM.Cmp.w).sum := by rw [hps]; norm_num
  show cGlobal p.origin (GM.normalize p.mix).c = _
  rw [GM.normalize_c _ hb, hps, hpc, ho]
  simp only [cGlobal, List.map_map]
  apply List.map_congr_left
  intro g _
  simp only [Function.comp, ofG, toG, linearUpdate, div_one]

/-- What a prediction must not change: weights and velocities of the components, `gm.hpp:115-121`. -/
def moving (p : Pdf) : List (ℝ × ℝ × ℝ) := p.mix.c.map fun g => (g.w, g.x.1 2, g.x.1 3)

theorem moving_sum (p : Pdf) : (p.mix.c.map GM.Cmp.w).sum = ((moving p).map fun y => y.1).sum := by
  unfold moving
  rw [List.map_map]
  rfl

theorem moving_mean (p : Pdf) : Kalman.mean (p.mix.c.map toG) 2 = ((moving p).map fun y => y.1 * y.2.1).sum ∧
    Kalman.mean (p.mix.c.map toG) 3 = ((moving p).map fun y => y.1 * y.2.2).sum := by
  rw [Kalman.mean_eq]
  unfold moving
  constructor
  all_goals
    induction p.mix.c with
    | nil => simp
    | cons g l ih =>
      simp only [List.map_cons, List.sum_cons, Pi.add_apply] at ih ⊢
      rw [ih]
      rfl

theorem keep {F Q : Matrix (Fin 4) (Fin 4) ℝ} {k : Opts} {m : Motion Pdf} (hm : m.pdf = moveMix F Q)
    (hF : ∀ x : Fin 4 → ℝ, (F *ᵥ x) 2 = x 2 ∧ (F *ᵥ x) 3 = x 3)
    (hF0 : ∀ x : Fin 4 → ℝ, x 2 = 0 → x 3 = 0 → F *ᵥ x = x) {t : Tgt Pdf}
    (hs : (t.pdf.mix.c.map GM.Cmp.w).sum = 1) :
    moving (predictTgt (env k) m t).pdf = moving t.pdf ∧
    ∀ v w, moving t.pdf = [(w, v)] → v = 0 →
      CF.len (CF.ll2ecef (pos (predictTgt (env k) m t).pdf) - CF.ll2ecef (pos t.pdf)) ≤ 2 / 10 ^ 4 := by
  have e := predict_full (k := k) hm hs
  refine ⟨?_, ?_⟩
  · unfold moving
    rw [e, List.map_map]
    apply List.map_congr_left
    intro g _
    simp only [Function.comp]
    have h2 := hF (setHead (CF.ll2ne (head g.x.1) (pos t.pdf)) g.x.1)
    refine Prod.ext rfl (Prod.ext ?_ ?_)
    · exact h2.1
    · exact h2.2
  · intro v w hv h0
    unfold moving at hv
    obtain ⟨g, hg, h1⟩ := List.map_eq_singleton_iff.1 hv
    rw [hg] at e hs
    have hw : g.w = 1 := by simpa using hs
    subst h0
    have hv2 : g.x.1 2 = 0 := congrArg (fun y => y.2.1) h1
    have hv3 : g.x.1 3 = 0 := congrArg (fun y => y.2.2) h1
    have hpos : pos t.pdf = head g.x.1 := by
      unfold pos
      rw [Kalman.mean_eq, hg]
      ext i
      fin_cases i <;> simp [toG, head, hw]
    have hst : F *ᵥ setHead (CF.ll2ne (head g.x.1) (pos t.pdf)) g.x.1 =
        setHead (CF.ll2ne (head g.x.1) (pos t.pdf)) g.x.1 := hF0 _ hv2 hv3
    have hh : ∀ (p : LL) (x : Fin 4 → ℝ), head (setHead p x) = p := by
      intro p x
      ext i
      fin_cases i <;> rfl
    have hpos' : pos (predictTgt (env k) m t).pdf = CF.roundTrip (pos t.pdf) (pos t.pdf) := by
      unfold pos at *
      rw [Kalman.mean_eq, e]
      simp only [List.map_cons, List.map_nil, List.sum_cons, List.sum_nil, add_zero, toG, hw, one_smul, hst, hh]
      rw [← hpos]
      rfl
    rw [hpos']
    have := CF.C101_drift (pos t.pdf) (pos t.pdf)
    rw [sub_self] at this
    have z : CF.len 0 = 0 := by simp [CF.len]
    rw [z] at this
    norm_num at this ⊢
    exact this

theorem predicts_step {k : Opts} {m : Motion Pdf} (h : (∃ pS q dT, m = cv pS q dT) ∨ ∃ pS Q, m = nm pS Q) {t : Tgt Pdf}
    (hs : (t.pdf.mix.c.map GM.Cmp.w).sum = 1) :
    moving (predictTgt (env k) m t).pdf = moving t.pdf ∧
    ∀ v w, moving t.pdf = [(w, v)] → v = 0 →
      CF.len (CF.ll2ecef (pos (predictTgt (env k) m t).pdf) - CF.ll2ecef (pos t.pdf)) ≤ 2 / 10 ^ 4 := by
  rcases h with ⟨pS, q, dT, rfl⟩ | ⟨pS, Q, rfl⟩
  · refine keep (F := cvF dT) (Q := cvQ q dT) rfl (fun x => ?_) (fun x h2 h3 => ?_) hs
    · constructor <;> simp [cvF, Matrix.mulVec, dotProduct, Fin.sum_univ_four]
    · ext i
      fin_cases i <;> simp [cvF, Matrix.mulVec, dotProduct, Fin.sum_univ_four, h2, h3]
  · exact keep (F := 1) (Q := Q) rfl (fun x => by simp) (fun x _ _ => by simp) hs

theorem predicts_run {k : Opts} {prm : Params} {fuel : Nat} : ∀ (ps : List (Call Pdf Rpt)) (s s2 : St Pdf),
    (∀ c ∈ ps, Predicts c) → Ok (env k) s (fun _ => False) →
    (∀ a t, s.heap a = some t → (t.pdf.mix.c.map GM.Cmp.w).sum = 1) →
    run (env k) prm fuel ps s = some s2 → ∀ a u, s2.heap a = some u → ∃ t, s.heap a = some t ∧ u.id = t.id ∧
      moving u.pdf = moving t.pdf ∧ ∀ v w, moving t.pdf = [(w, v)] → v = 0 →
        CF.len (CF.ll2ecef (pos u.pdf) - CF.ll2ecef (pos t.pdf)) ≤ ps.length * (2 / 10 ^ 4) := by
  intro ps
  induction ps with
  | nil =>
    intro s s2 _ _ _ e a u hu
    simp only [run, Option.some.injEq] at e
    subst e
    refine ⟨u, hu, rfl, rfl, fun v w _ _ => ?_⟩
    simp [CF.len]
  | cons c l ih =>
    intro s s2 hp hs h1 e a u hu
    obtain ⟨m, ord, rfl, ho, hm⟩ := hp c List.mem_cons_self
    obtain ⟨s1, e1, hs1, _, q1, _⟩ := predict_spec (env_box k) prm m ho hs
    simp only [run, step, e1] at e
    have hback : ∀ a t1, s1.heap a = some t1 → ∃ t, s.heap a = some t ∧ t1 = predictTgt (env k) m t := by
      intro a t1 h
      rw [q1, Option.filter_eq_some_iff, Option.map_eq_some_iff] at h
      obtain ⟨⟨t, ht, rfl⟩, _⟩ := h
      exact ⟨t, ht, rfl⟩
    have h1' : ∀ a t, s1.heap a = some t → (t.pdf.mix.c.map GM.Cmp.w).sum = 1 := by
      intro a t1 h
      obtain ⟨t, ht, rfl⟩ := hback a t1 h
      rw [moving_sum, (predicts_step hm (h1 a t ht)).1, ← moving_sum]
      exact h1 a t ht
    obtain ⟨t1, ht1, hid, hmv, hd⟩ := ih s1 s2 (fun c h => hp c (List.mem_cons_of_mem _ h)) hs1 h1' e a u hu
    obtain ⟨t, ht, rfl⟩ := hback a t1 ht1
    obtain ⟨k1, k2⟩ := predicts_step (k := k) hm (h1 a t ht)
    refine ⟨t, ht, hid, hmv.trans k1, fun v w hv h0 => ?_⟩
    have d1 := hd v w (k1.trans hv) h0
    have d2 := k2 v w hv h0
    have tri := CF.len_add (CF.ll2ecef (pos u.pdf) - CF.ll2ecef (pos (predictTgt (env k) m t).pdf))
      (CF.ll2ecef (pos (predictTgt (env k) m t).pdf) - CF.ll2ecef (pos t.pdf))
    rw [sub_add_sub_cancel] at tri
    rw [List.length_cons]
    push_cast
    linarith

/-- **C126, velocity** After any history, any number of predictions with any models and time steps: a target that is
left has the number, and each of its components the weight and the velocity that it had before, so the velocity
reported for it is the same.  A target of one component without velocity moves by at most a fifth of a millimetre
with each prediction, whatever the time step. -/
theorem C126_velocity {k : Opts} (hk : OptsOk k) {prm : Params} (hB0 : 0 ≤ prm.rBmax)
    (hB1 : prm.rBmax ≤ 1) {calls : List (Call Pdf Rpt)} (hc : ∀ c ∈ calls, SysCall k prm c)
    {fuel : Nat} {s s2 : St Pdf} (e : run (env k) prm fuel calls St.empty = some s)
    {ps : List (Call Pdf Rpt)} (hp : ∀ c ∈ ps, Predicts c) (e2 : run (env k) prm fuel ps s = some s2)
    {a : Nat} {u : Tgt Pdf} (hu : s2.heap a = some u) :
    ∃ t, s.heap a = some t ∧ u.id = t.id ∧
      u.pdf.mix.c.map (fun g => (g.w, g.x.1 2, g.x.1 3)) = t.pdf.mix.c.map (fun g => (g.w, g.x.1 2, g.x.1 3)) ∧
      Kalman.mean (u.pdf.mix.c.map toG) 2 = Kalman.mean (t.pdf.mix.c.map toG) 2 ∧
      Kalman.mean (u.pdf.mix.c.map toG) 3 = Kalman.mean (t.pdf.mix.c.map toG) 3 ∧
      ∀ g, t.pdf.mix.c = [g] → g.x.1 2 = 0 → g.x.1 3 = 0 →
        CF.len (CF.ll2ecef (pos u.pdf) - CF.ll2ecef (pos t.pdf)) ≤ ps.length * (2 / 10 ^ 4) := by
  have hs := run_inv (env_box k) (Inv.empty (env k)) (fun c h => sysCall_ok (hc c h)) e
  obtain ⟨t, ht, hid, hmv, hd⟩ := predicts_run ps s s2 hp hs.ok
    (fun a t ht => (C66_densities_proper hk hB0 hB1 hc e a t ht).2.2.2.2.1) e2 a u hu
  refine ⟨t, ht, hid, hmv, ?_, ?_, fun g hg h2 h3 => hd 0 g.w ?_ rfl⟩
  · rw [(moving_mean u.pdf).1, hmv, ← (moving_mean t.pdf).1]
  · rw [(moving_mean u.pdf).2, hmv, ← (moving_mean t.pdf).2]
  · unfold moving
    rw [hg]
    simp only [List.map_cons, List.map_nil, h2, h3]
    rfl

/-- **C126, new targets** After the first scan and any number of predictions, every target has one component of
weight 1 without velocity and is where it was after the scan, to within a fifth of a millimetre for each prediction: a
moving object is not followed before its second report. -/
theorem C126_new {k : Opts} (hk : OptsOk k) {prm : Params} (hB0 : 0 ≤ prm.rBmax) (hB1 : prm.rBmax ≤ 1)
    {S : Sensor Pdf Rpt} {ch : Choices} {scan : List (Rep Rpt)} {dflt : Rep Rpt}
    (hc : SysCall k prm (.correct S ch scan dflt)) {fuel : Nat} {s s2 : St Pdf}
    (e1 : run (env k) prm fuel [.correct S ch scan dflt] St.empty = some s)
    {ps : List (Call Pdf Rpt)} (hp : ∀ c ∈ ps, Predicts c) (e2 : run (env k) prm fuel ps s = some s2)
    {a : Nat} {u : Tgt Pdf} (hu : s2.heap a = some u) :
    ∃ g t, u.pdf.mix.c = [g] ∧ g.w = 1 ∧ g.x.1 2 = 0 ∧ g.x.1 3 = 0 ∧ s.heap a = some t ∧
      CF.len (CF.ll2ecef (pos u.pdf) - CF.ll2ecef (pos t.pdf)) ≤ ps.length * (2 / 10 ^ 4) := by
  have hcs : ∀ c ∈ [Call.correct S ch scan dflt], SysCall k prm c := by
    intro c h
    rw [List.mem_singleton.1 h]
    exact hc
  obtain ⟨t, ht, _, hmv, _, _, hd⟩ := C126_velocity hk hB0 hB1 hcs e1 hp e2 hu
  have e1' : ∃ reps, correct (env k) S prm ch fuel scan dflt St.empty = some (s, reps) := by
    simp only [run, step] at e1
    split at e1
    · cases e1
    · rename_i s' h
      obtain ⟨y, hy, rfl⟩ := Option.map_eq_some_iff.1 h
      simp only [Option.some.injEq] at e1
      subst e1
      exact ⟨y.2, hy⟩
  obtain ⟨reps, e1'⟩ := e1'
  obtain ⟨y, hy, o, ho⟩ := first_scan (env_box k) prm fuel S ch scan dflt (sysCall_ok hc) s reps e1' a t ht
  obtain ⟨⟨sn, _, rfl⟩, _⟩ := hc
  obtain ⟨g, hg, hw, h2, h3⟩ : ∃ g : Cmp, t.pdf.mix.c = [g] ∧ g.w = 1 ∧ g.x.1 2 = 0 ∧ g.x.1 3 = 0 := by
    rw [ho]
    exact ⟨_, rfl, rfl, rfl, rfl⟩
  have hm := hmv
  rw [hg] at hm
  obtain ⟨g', hg', h⟩ := List.map_eq_singleton_iff.1 hm
  refine ⟨g', t, hg', ?_, ?_, ?_, ht, hd g hg h2 h3⟩
  · exact (congrArg (fun y => y.1) h).trans hw
  · exact (congrArg (fun y => y.2.1) h).trans h2
  · exact (congrArg (fun y => y.2.2) h).trans h3

/-! ## Example -/

/-- A hundred predictions after the first scan. -/
example : ∃ s s2 a t u, run (env exOpts) exPrm 0 (exHist.take 1) St.empty = some s ∧ s.heap a = some t ∧
    run (env exOpts) exPrm 0 (List.replicate 100 (.predict (nm 1 0) id)) s = some s2 ∧ s2.heap a = some u ∧
    Kalman.mean (u.pdf.mix.c.map toG) 3 = 0 ∧
    CF.len (CF.ll2ecef (pos u.pdf) - CF.ll2ecef (pos t.pdf)) ≤ 1 / 50 := by
  obtain ⟨s, a, t, g, h1, h2, h3, h4, h5, h6⟩ := exNewborn
  have hok : ∀ c ∈ exHist.take 1, SysCall exOpts exPrm c := fun c h => exHist_ok c (List.mem_of_mem_take h)
  obtain ⟨s2, p1, u, hu, _, _⟩ := nm_steps 100 (fun c h => sysCall_ok (hok c h)) h1 h2 h4 h5
    (by rw [h3]; show (1 : ℝ) / 20 ≤ 1 / 2; norm_num) h6
  have hp : ∀ c ∈ List.replicate 100 (Call.predict (nm 1 0) id : Call Pdf Rpt), Predicts c := by
    intro c hc
    rw [List.eq_of_mem_replicate hc]
    exact ⟨_, _, rfl, fun l => List.Perm.refl _, Or.inr ⟨_, _, rfl⟩⟩
  have b0 : (0 : ℝ) ≤ exPrm.rBmax := by show (0 : ℝ) ≤ 4 / 5; norm_num
  have b1 : exPrm.rBmax ≤ 1 := by show (4 : ℝ) / 5 ≤ 1; norm_num
  obtain ⟨g', t', q1, q2, _, q3, q4, q5⟩ := C126_new exOpts_ok b0 b1 (exHist_ok _ List.mem_cons_self) h1 hp p1 hu
  rw [h2] at q4
  cases q4
  refine ⟨s, s2, a, t, u, h1, h2, p1, hu, ?_, q5.trans ?_⟩
  · rw [Kalman.mean_eq, q1]
    simp [toG, q3]
  · rw [List.length_replicate]
    norm_num

end Verif.System

import Verif.Tracker.Props3
import Verif.Tracker.Conc

/-! # Properties of the tracker: first scan, concurrency, metric queries (C32, C33, C58) -/

namespace Verif.Tracker

open Verif.RTree (Rect WF items)
open Verif.Cluster (Cl)
open Verif.Hyp Verif.Lap Verif.Murty

variable {P R O : Type}

/-! ## C58 -/

/-- **C58** A scan that reaches no target: the call is defined, no existing target changes, and
either every report gives birth to a target with existence probability
`min (lambdaB / n) rB_max`, or (if `lambdaB / n < r_lim` or `n < r_lim`) none does. -/
theorem C58_unreached_scan {E : Env P R O} (hbox : BoxOk E) (prm : Params) (fuel : Nat)
    (calls : List (Call P R)) (hc : ∀ d ∈ calls, CallOk E d) (s : St P)
    (e : run E prm fuel calls St.empty = some s) (S : Sensor P R) (ch : Choices)
    (scan : List (Rep R)) (dflt : Rep R) (hok : CallOk E (.correct S ch scan dflt))
    (hfree : ∀ a, ¬ Gated E S scan s a) :
    ∃ s' reps new, correct E S prm ch fuel scan dflt s = some (s', reps) ∧
      s'.targets = s.targets ++ new ∧ (∀ a ∈ s.targets, s'.heap a = s.heap a) ∧
      (∀ a ∈ new, ∃ t, s'.heap a = some t ∧ t.r = min (S.lambdaB / scan.length) prm.rBmax) ∧
      (prm.rlim ≤ scan.length → prm.rlim ≤ S.lambdaB / scan.length → new.length = scan.length) ∧
      (scan.length < prm.rlim ∨ S.lambdaB / scan.length < prm.rlim → new = []) := by
  classical
  have hs := run_inv hbox (Inv.empty E) hc e
  obtain ⟨hf, hch, hz⟩ := hok
  obtain ⟨cls0, st0, rcid0, p1, p2, p3, p4, p5, p6, p7, p8, _⟩ := prepare_ok hbox hf hz hs.ok
  have hnt : ∀ c ∈ cls0, c.targets = [] := by
    intro c hcm
    rw [List.eq_nil_iff_forall_not_mem]
    intro a ha
    exact hfree a ((p7 a).1 ⟨c, hcm, ha⟩)
  have hcomp : ∀ c ∈ cls0, ∃ v, compOf E S prm ch.pick fuel ch.wt st0.heap
      (initReps scan rcid0 dflt) c = some v ∧ ∀ x ∈ v.rB, x = some 1 := by
    intro c hcm
    simp only [compOf, hnt c hcm, readAll, compute]
    refine ⟨_, rfl, ?_⟩
    intro x hx
    obtain ⟨_, _, rfl⟩ := List.mem_map.1 hx
    rfl
  obtain ⟨cls, st, rcid, q1, ⟨⟨c, hcm, hn⟩, _⟩ | ⟨s', reps, new, e2, i2, d⟩⟩ :=
    correct_spec hbox hf (prm := prm) hch fuel hz dflt hs.ok hs.idc
  · rw [p1, Option.some.injEq, Prod.mk.injEq, Prod.mk.injEq] at q1
    obtain ⟨rfl, rfl, rfl⟩ := q1
    obtain ⟨v, hv, _⟩ := hcomp c hcm
    rw [hv] at hn; cases hn
  · rw [p1, Option.some.injEq, Prod.mk.injEq, Prod.mk.injEq] at q1
    obtain ⟨rfl, rfl, rfl⟩ := q1
    have hrB : ∀ j < scan.length, (reps j).rB = some 1 := by
      obtain ⟨cls, s1, rcid, q1, q2⟩ := C24_fresh_rB hbox prm fuel calls hc s e S ch scan dflt
        ⟨hf, hch, hz⟩ s' reps e2
      rw [p1, Option.some.injEq, Prod.mk.injEq, Prod.mk.injEq] at q1
      obtain ⟨rfl, rfl, rfl⟩ := q1
      intro j hj
      obtain ⟨i, k, c, v, r1, r2, _, r3, r4⟩ := q2 j hj
      obtain ⟨v', h1, h2⟩ := hcomp c (List.mem_of_getElem? r1)
      rw [r3] at h1
      obtain rfl := Option.some.inj h1
      exact h2 _ (List.mem_of_getElem? r4)
    have hsum : rBsum scan.length reps = some (scan.length : ℝ) := by
      rw [rBsum_spec]
      refine ⟨fun j hj => ⟨1, hrB j hj⟩, ?_⟩
      rw [List.map_congr_left (g := fun _ => (1 : ℝ)) fun j hj => by
        rw [hrB j (List.mem_range.1 hj), Option.getD_some]]
      simp
    have hno : ∀ a, finalHeap E S prm ch.pick fuel ch.wt st0.heap (initReps scan rcid0 dflt) cls0 a =
        s.heap a := by
      intro a
      rw [finalHeap, if_neg, p8 a (hfree a)]
      simp only [List.any_eq_true, List.contains_iff_mem, not_exists, not_and]
      intro c hcm ha
      rw [hnt c hcm] at ha
      simp at ha
    have hlive : ∀ a ∈ s.targets, a ∉ new := by
      intro a ha hn
      have := d.fresh a hn
      rw [hno] at this
      obtain ⟨t, ht⟩ := (hs.ok.live a).2 ha
      rw [ht] at this; cases this
    have hborn : ∀ (l : List Nat), (∀ j ∈ l, j < scan.length) →
        bornOf S prm (scan.length : ℝ) reps l =
        if prm.rlim ≤ S.lambdaB / scan.length then l.map fun j => (j, S.lambdaB / scan.length)
        else [] := by
      intro l
      induction l with
      | nil => intro _; split <;> rfl
      | cons j l ih =>
        intro hl
        have ih := ih fun i hi => hl i (List.mem_cons_of_mem _ hi)
        unfold bornOf at ih ⊢
        rw [List.filterMap_cons]
        simp only [hrB j (hl j List.mem_cons_self), one_mul, ih]
        by_cases h : prm.rlim ≤ S.lambdaB / scan.length
        · simp [h]
        · simp [h]
    have hmem : ∀ j ∈ ch.ord (cls0.flatMap Cl.reports), j < scan.length := fun j hj =>
      List.mem_range.1 (((hch.ord _).trans p6).mem_iff.1 hj)
    have hb : births S prm ch.ord cls0 scan.length reps =
        if prm.rlim ≤ scan.length ∧ prm.rlim ≤ S.lambdaB / scan.length then
          (ch.ord (cls0.flatMap Cl.reports)).map fun j => (j, S.lambdaB / scan.length) else [] := by
      unfold births
      simp only [hsum]
      rw [hborn _ hmem]
      by_cases h1 : prm.rlim ≤ scan.length <;> by_cases h2 : prm.rlim ≤ S.lambdaB / scan.length <;>
        simp [h1, h2]
    refine ⟨s', reps, new, e2, ?_, ?_, ?_, ?_, ?_⟩
    · rw [d.targets]
      congr 1
      rw [List.filter_eq_self]
      intro a ha
      rw [hno]
      obtain ⟨t, ht⟩ := (hs.ok.live a).2 ha
      simp [ht]
    · intro a ha
      rw [d.old a (hlive a ha), hno]
    · intro a ha
      obtain ⟨k, hk⟩ := List.mem_iff_getElem?.1 ha
      obtain ⟨j, x, hjx, hh⟩ := d.new_born hk
      refine ⟨_, hh, ?_⟩
      have hm := List.mem_of_getElem? hjx
      rw [hb] at hm
      split at hm
      · obtain ⟨_, _, h⟩ := List.mem_map.1 hm
        have := congrArg Prod.snd h
        simp only at this
        rw [← this]
      · simp at hm
    · intro h1 h2
      rw [d.len, hb, if_pos ⟨h1, h2⟩, List.length_map, ((hch.ord _).trans p6).length_eq,
        List.length_range]
    · intro h
      apply List.length_eq_zero_iff.1
      rw [d.len, hb, if_neg]
      · rfl
      · rintro ⟨h1, h2⟩
        rcases h with h | h
        · exact absurd h1 (not_le.2 h)
        · exact absurd h2 (not_le.2 h)

/-- The first scan of the example gives three targets with existence probability 1/6. -/
theorem exFirst (fuel : Nat) : ∃ s reps, correct exE exS exPrm exCh fuel exScan ⟨0, none, 0⟩
      (St.empty : St ℚ) = some (s, reps) ∧ s.targets.length = 3 ∧
      ∀ a ∈ s.targets, ∃ t, s.heap a = some t ∧ t.r = 1 / 6 := by
  obtain ⟨s, reps, new, h1, h2, _, h3, h4, _⟩ := C58_unreached_scan exE_box exPrm fuel [] (by simp)
    St.empty rfl exS exCh exScan _ exOk (by rintro a ⟨t, ht, _⟩; simp [St.empty] at ht)
  have hl := h4 (by simp only [exPrm, exScan]; norm_num) (by simp only [exPrm, exScan, exS]; norm_num)
  simp only [St.empty, List.nil_append] at h2
  refine ⟨s, reps, h1, by rw [h2, hl]; rfl, ?_⟩
  intro a ha
  rw [h2] at ha
  obtain ⟨t, ht, hr⟩ := h3 a ha
  refine ⟨t, ht, ?_⟩
  rw [hr]
  simp only [exPrm, exScan, exS]
  norm_num

theorem compute_reps {E : Env P R O} {S : Sensor P R} {prm : Params}
    {pick : ∀ r c, List (Node r c) → Nat} {fuel : Nat} {wt : ℚ → ℝ} {ts : List (Nat × Tgt P)}
    {rs : List R} {v : Comp P R} (e : compute E S prm pick fuel wt ts rs = some v) :
    ∃ o, v.rs = rs.map fun z => E.rGlobal o (E.rLocal o z) := by
  refine ⟨E.center (rs.map E.rpos ++ ts.map fun t => E.pos t.2.pdf), ?_⟩
  unfold compute at e
  simp only at e
  split at e
  · injection e with e
    subst e
    simp
  · split at e
    · cases e
    · split at e
      · injection e with e
        subst e
        simp
      · injection e with e
        subst e
        simp

/-- **C58, reports** After `correct` every report holds its own value, moved to a local frame and
back; with exact transforms the scan keeps its values. -/
theorem C58_reports_kept {E : Env P R O} (hbox : BoxOk E) (prm : Params) (fuel : Nat)
    (calls : List (Call P R)) (hc : ∀ d ∈ calls, CallOk E d) (s : St P)
    (e : run E prm fuel calls St.empty = some s) (S : Sensor P R) (ch : Choices)
    (scan : List (Rep R)) (dflt : Rep R) (hok : CallOk E (.correct S ch scan dflt)) (s' : St P)
    (reps : Nat → Rep R) (e' : correct E S prm ch fuel scan dflt s = some (s', reps)) (j : Nat)
    (z : Rep R) (hj : scan[j]? = some z) :
    ∃ o, (reps j).val = E.rGlobal o (E.rLocal o z.val) := by
  have hs := run_inv hbox (Inv.empty E) hc e
  obtain ⟨hf, hch, hz⟩ := hok
  obtain ⟨cls, s1, rcid, new, h1, _⟩ := correct_origin hbox hf hch hz hs e'
  obtain ⟨cls', s1', rcid', p1, p2, p3, p4, p5, p6, _⟩ := prepare_ok hbox hf hz hs.ok
  rw [h1.prep, Option.some.injEq, Prod.mk.injEq, Prod.mk.injEq] at p1
  obtain ⟨rfl, rfl, rfl⟩ := p1
  obtain ⟨c, hcm, hjc⟩ := List.mem_flatMap.1 (p6.mem_iff.2
    (List.mem_range.2 (List.getElem?_eq_some_iff.1 hj).1))
  obtain ⟨i, hi⟩ := List.mem_iff_getElem?.1 hcm
  obtain ⟨v, hv⟩ := h1.comps c hcm
  obtain ⟨_, l2, l3, _⟩ := compOf_length hv
  obtain ⟨f1, f2⟩ := find_reports p2.rnd hi hjc
  obtain ⟨k, w, b, k1, k2, k3, k4⟩ := writeReps_mem (reps := initReps scan rcid dflt)
    ((List.nodup_flatMap.1 p2.rnd).1 c hcm) l2 l3 hjc
  have hval : (reps j).val = w := by
    rw [h1.rep]
    unfold finalReps
    rw [f1]
    simp only [hv, k4]
  unfold compOf at hv
  cases hr : readAll s1.heap c.targets with
  | none => simp [hr] at hv
  | some ts =>
    simp only [hr] at hv
    obtain ⟨o, ho⟩ := compute_reps hv
    refine ⟨o, ?_⟩
    rw [hval]
    rw [ho, List.getElem?_map, List.getElem?_map, k1] at k2
    simp only [Option.map_some, Option.some.injEq] at k2
    rw [← k2]
    simp [initReps, List.getD_eq_getElem?_getD, hj]

example : ∃ (F : Nat) (s1 s : St ℚ) (reps : Nat → Rep ℚ),
    correct exE exS exPrm exCh F exScan ⟨0, none, 0⟩ s1 = some (s, reps) ∧ (reps 2).val = 4 := by
  obtain ⟨F, s1, s, reps, h1, h2⟩ := exCorrect
  obtain ⟨o, h⟩ := C58_reports_kept exE_box exPrm F _ exTake_ok s1 h1 exS exCh exScan _ exOk s reps h2
    2 ⟨4, some 7, 3⟩ rfl
  refine ⟨F, s1, s, reps, h2, ?_⟩
  rw [h]
  show (4 : ℚ) - o + o = 4
  ring

/-- After the first scan every target has been started from one of its reports, moved to a local frame
and back. -/
theorem first_scan {E : Env P R O} (hbox : BoxOk E) (prm : Params) (fuel : Nat)
    (S : Sensor P R) (ch : Choices) (scan : List (Rep R)) (dflt : Rep R)
    (hok : CallOk E (.correct S ch scan dflt)) (s : St P) (reps : Nat → Rep R)
    (e : correct E S prm ch fuel scan dflt St.empty = some (s, reps)) (a : Nat) (t : Tgt P)
    (ht : s.heap a = some t) :
    ∃ y ∈ scan, ∃ o, t.pdf = S.init (E.rGlobal o (E.rLocal o y.val)) := by
  obtain ⟨hf, hch, hz⟩ := hok
  obtain ⟨cls, s1, rcid, new, d, _⟩ := correct_origin hbox hf hch hz (Inv.empty E) e
  obtain ⟨cls', s1', rcid', p1, p2, p3, p4, p5, p6, _⟩ := prepare_ok hbox hf hz (Inv.empty E).ok
  rw [d.prep, Option.some.injEq, Prod.mk.injEq, Prod.mk.injEq] at p1
  obtain ⟨rfl, rfl, rfl⟩ := p1
  have hs : Inv E s := step_inv hbox (Inv.empty E) (c := .correct S ch scan dflt) ⟨hf, hch, hz⟩
    (prm := prm) (fuel := fuel) (by simp [step, e])
  have ha : a ∈ new := by
    have := (hs.ok.live a).1 ⟨t, ht⟩
    rw [d.targets] at this
    simpa [St.empty] using this
  obtain ⟨k, hk⟩ := List.mem_iff_getElem?.1 ha
  obtain ⟨j, x, hjx, hh⟩ := d.new_born hk
  have hj := (births_mem hch.ord p6 (List.mem_of_getElem? hjx)).1
  obtain ⟨o, ho⟩ := C58_reports_kept hbox prm fuel [] (by simp) St.empty rfl S ch scan dflt
    ⟨hf, hch, hz⟩ s reps e j scan[j] (List.getElem?_eq_getElem hj)
  rw [ht] at hh
  obtain rfl := Option.some.inj hh
  exact ⟨scan[j], List.getElem_mem hj, o, congrArg S.init ho⟩

/-! ## C32 -/

theorem removeLoop_heap {E : Env P R O} (l : List Nat) {s s' : St P}
    (e : removeLoop E l s = some s') : s'.heap = s.heap ∧ ∀ a ∈ l, ∃ t, s.heap a = some t := by
  induction l generalizing s with
  | nil => simp only [removeLoop, Option.some.injEq] at e; subst e; simp
  | cons b l ih =>
    simp only [removeLoop, remove] at e
    cases hb : s.heap b with
    | none => simp [hb] at e
    | some t =>
      cases hr : RTree.removeWith E.areas (E.box t.pdf) b s.tree with
      | none => simp [hb, hr] at e
      | some tr =>
        simp only [hb, hr] at e
        obtain ⟨h1, h2⟩ := ih e
        refine ⟨h1, ?_⟩
        intro a ha
        rcases List.mem_cons.1 ha with rfl | ha
        · exact ⟨t, hb⟩
        · exact h2 a ha

theorem settle_dead {E : Env P R O} {prm : Params} (l : List Nat) {s s' : St P} {a : Nat}
    (h : s.heap a = none) (e : settle E prm l s = some s') : s'.heap a = none := by
  induction l generalizing s with
  | nil => simp only [settle, Option.some.injEq] at e; subst e; exact h
  | cons b l ih =>
    simp only [settle] at e
    cases hb : s.heap b with
    | none => simp [hb] at e
    | some t =>
      simp only [hb] at e
      by_cases hv : viable E prm t = true
      · simp only [hv, if_true, replace, hb] at e
        cases hr : RTree.insertWith E.areas (E.box t.pdf) b s.tree with
        | none => simp [hr] at e
        | some tr => simp only [hr] at e; exact ih (s := { s with tree := tr }) h e
      · simp only [hv, erase, hb] at e
        refine ih ?_ e
        simp only [setHeap, h]
        split <;> rfl

theorem clStep_dead {E : Env P R O} {S : Sensor P R} {prm : Params}
    {pick : ∀ r c, List (Node r c) → Nat} {fuel : Nat} {wt : ℚ → ℝ} {cls : List Cl} {i : Nat}
    {g g' : Cfg P R} {a : Nat} (h : g.st.heap a = none)
    (e : clStep E S prm pick fuel wt cls i g = some g') :
    g'.st.heap a = none ∧ (∀ k ≠ i, g'.pc k = g.pc k) ∧
      ∀ c, cls[i]? = some c → g.pc i = 0 → a ∉ c.targets := by
  unfold clStep at e
  cases hi : cls[i]? with
  | none => simp [hi] at e
  | some c =>
    simp only [hi] at e
    have hpc : ∀ k ≠ i, (if k = i then g.pc i + 1 else g.pc k) = g.pc k := fun k hk => if_neg hk
    split at e
    · rename_i h0
      cases hr : removeLoop E c.targets g.st with
      | none => simp [hr] at e
      | some s =>
        simp only [hr, Option.some.injEq] at e
        subst e
        obtain ⟨h1, h2⟩ := removeLoop_heap _ hr
        refine ⟨by rw [h1]; exact h, hpc, ?_⟩
        rintro _ hc _ ha
        obtain rfl := Option.some.inj hc
        obtain ⟨t, ht⟩ := h2 a ha
        rw [h] at ht; cases ht
    · rename_i h0
      cases hr : readAll g.st.heap c.targets with
      | none => simp [hr] at e
      | some ts =>
        simp only [hr] at e
        split at e
        · cases e
        · simp only [Option.some.injEq] at e
          subst e
          refine ⟨?_, hpc, fun _ _ h => by omega⟩
          show writeAll _ _ _ a = none
          rw [writeAll_notMem, h]
          intro ha
          obtain ⟨h1, h2⟩ := readAll_spec hr
          rw [← h1, List.mem_map] at ha
          obtain ⟨x, hx, rfl⟩ := ha
          have := h2 x hx
          rw [h] at this; cases this
    · rename_i h0
      cases hr : settle E prm c.targets g.st with
      | none => simp [hr] at e
      | some s =>
        simp only [hr, Option.some.injEq] at e
        subst e
        exact ⟨settle_dead _ h hr, hpc, fun _ _ h => by omega⟩
    · cases e

theorem clRun_dead {E : Env P R O} {S : Sensor P R} {prm : Params}
    {pick : ∀ r c, List (Node r c) → Nat} {fuel : Nat} {wt : ℚ → ℝ} {cls : List Cl} {i a : Nat}
    {c : Cl} (hi : cls[i]? = some c) (ha : a ∈ c.targets) (sched : List Nat) (hs : i ∈ sched)
    {g : Cfg P R} (h : g.st.heap a = none) (h0 : g.pc i = 0) :
    clRun E S prm pick fuel wt cls sched g = none := by
  induction sched generalizing g with
  | nil => simp at hs
  | cons k l ih =>
    simp only [clRun]
    cases hk : clStep E S prm pick fuel wt cls k g with
    | none => rfl
    | some g' =>
      simp only
      obtain ⟨d1, d2, d3⟩ := clStep_dead h hk
      by_cases hki : k = i
      · subst hki
        exact absurd ha (d3 c hi h0)
      · rcases List.mem_cons.1 hs with rfl | hs
        · exact absurd rfl hki
        · exact ih hs d1 (by rw [d2 i (Ne.symm hki)]; exact h0)

/-- **C32** Whatever the state, sensor, scan and schedule: if `predict` deletes a target that a
scan being processed has already looked up, the correction uses the deleted target. -/
theorem C32_use_after_delete {E : Env P R O} (hbox : BoxOk E) (prm : Params)
    (fuel : Nat) (calls : List (Call P R)) (hc : ∀ d ∈ calls, CallOk E d) (s : St P)
    (e : run E prm fuel calls St.empty = some s) (S : Sensor P R) (ch : Choices)
    (scan : List (Rep R)) (dflt : Rep R) (hok : CallOk E (.correct S ch scan dflt)) (m : Motion P)
    (ord : List Nat → List Nat) (hord : CallOk E (.predict (R := R) m ord)) (a : Nat) (t : Tgt P)
    (ht : s.heap a = some t) (hg : Gated E S scan s a)
    (hv : viable E prm (predictTgt E m t) = false) :
    correctDuring E S prm ch fuel scan dflt m ord 0 s = none := by
  have hs := run_inv hbox (Inv.empty E) hc e
  obtain ⟨hf, hch, hz⟩ := hok
  obtain ⟨cls, s1, rcid, p1, p2, p3, p4, p5, p6, p7, p8, p9, _⟩ := prepare_ok hbox hf hz hs.ok
  obtain ⟨u, hu, u1, u2, u3, u4⟩ := p9 a t ht
  obtain ⟨s2, q1, q2, q3, q4, q5⟩ := predict_spec hbox prm m hord p3
  obtain ⟨c, hcm, hac⟩ := (p7 a).2 hg
  obtain ⟨i, hi⟩ := List.mem_iff_getElem?.1 hcm
  have hlt := (List.getElem?_eq_some_iff.1 hi).1
  have hdead : s2.heap a = none := by
    rw [q4, hu]
    have : viable E prm (predictTgt E m u) = false := by
      rw [← hv]
      have : predictTgt E m u = { predictTgt E m t with cid := u.cid, id := u.id } := by
        simp only [predictTgt, u2, u3]
      rw [this]
      rfl
    simp [Option.filter, this]
  have hmem : i ∈ ch.sched cls := by
    have := hch.sched cls i
    rw [if_pos hlt] at this
    exact List.count_pos_iff.1 (by omega)
  simp only [correctDuring, p1, List.take_zero, clRun, q1, List.drop_zero]
  rw [clRun_dead hi hac _ hmem hdead rfl]

/-- **C32** The claim is false: there is a history after which each of the two orders of `predict`
and `correct` is defined, but running `predict` while `correct` is under way is not. -/
theorem C32_refuted : ∃ (F : Nat) (s : St ℚ) (m : Motion ℚ),
    run exE exPrm F (exCalls.take 1) St.empty = some s ∧
    (∃ s', run exE exPrm F [.predict m id, .correct exS exCh exScan ⟨0, none, 0⟩] s = some s') ∧
    (∃ s', run exE exPrm F [.correct exS exCh exScan ⟨0, none, 0⟩, .predict m id] s = some s') ∧
    correctDuring exE exS exPrm exCh F exScan ⟨0, none, 0⟩ m id 0 s = none := by
  have hp : CallOk exE (.predict (R := ℚ) ⟨fun p => p, 1 / 10⟩ id) := fun l => List.Perm.refl _
  have d1 := C26_defined exE_box exPrm [.correct exS exCh exScan ⟨0, none, 0⟩,
    .predict ⟨fun p => p, 1 / 10⟩ id, .correct exS exCh exScan ⟨0, none, 0⟩]
    (by
      intro c hc
      simp only [List.mem_cons, List.not_mem_nil, or_false] at hc
      rcases hc with rfl | rfl | rfl
      · exact exOk
      · exact hp
      · exact exOk)
    (by
      intro c hc
      simp only [List.mem_cons, List.not_mem_nil, or_false] at hc
      rcases hc with rfl | rfl | rfl
      · exact ⟨exS_costs, exCh_pick⟩
      · exact trivial
      · exact ⟨exS_costs, exCh_pick⟩) (by simp [Call.reports, exScan])
  have d2 := C26_defined exE_box exPrm [.correct exS exCh exScan ⟨0, none, 0⟩,
    .correct exS exCh exScan ⟨0, none, 0⟩, .predict ⟨fun p => p, 1 / 10⟩ id]
    (by
      intro c hc
      simp only [List.mem_cons, List.not_mem_nil, or_false] at hc
      rcases hc with rfl | rfl | rfl
      · exact exOk
      · exact exOk
      · exact hp)
    (by
      intro c hc
      simp only [List.mem_cons, List.not_mem_nil, or_false] at hc
      rcases hc with rfl | rfl | rfl
      · exact ⟨exS_costs, exCh_pick⟩
      · exact ⟨exS_costs, exCh_pick⟩
      · exact trivial) (by simp [Call.reports, exScan])
  obtain ⟨F1, t1, h1⟩ := d1
  obtain ⟨F2, t2, h2⟩ := d2
  have g1 := h1 (F1 + F2) (by omega)
  have g2 := h2 (F1 + F2) (by omega)
  obtain ⟨s, reps, k1, k2, k3⟩ := exFirst (F1 + F2)
  refine ⟨F1 + F2, s, ⟨fun p => p, 1 / 10⟩, ?_, ⟨t1, ?_⟩, ⟨t2, ?_⟩, ?_⟩
  · simp only [exCalls, List.take_succ_cons, List.take_zero, run, step, k1, Option.map_some]
  · rw [run] at g1
    simpa only [step, k1, Option.map_some] using g1
  · rw [run] at g2
    simpa only [step, k1, Option.map_some] using g2
  · have hne : s.targets ≠ [] := by intro h; rw [h] at k2; simp at k2
    obtain ⟨a, ha⟩ := List.exists_mem_of_ne_nil _ hne
    obtain ⟨t, ht, hr⟩ := k3 a ha
    have hrun : run exE exPrm (F1 + F2) (exCalls.take 1) St.empty = some s := by
      simp only [exCalls, List.take_succ_cons, List.take_zero, run, step, k1, Option.map_some]
    obtain ⟨old, new, idx, x, q1, q2, q3, q3', _, q4, q5, _⟩ := C25_births exE_box exPrm (F1 + F2) []
      (by simp) St.empty rfl exS exCh exScan _ exOk s reps k1
    have hold : old = [] := by simpa [St.empty] using q2
    rw [hold, List.nil_append] at q1
    refine C32_use_after_delete exE_box exPrm (F1 + F2) (exCalls.take 1)
      (fun c h => exCalls_ok c (List.mem_of_mem_take h)) s hrun exS exCh exScan _ exOk _ id hp a t ht
      ?_ ?_
    · obtain ⟨k, hk⟩ := List.mem_iff_getElem?.1 (by rw [← q1]; exact ha : a ∈ new)
      have hlt := (List.getElem?_eq_some_iff.1 hk).1
      obtain ⟨_, b, t', _, _, ht', _, _, hpdf⟩ := q5 k a _ _ hk
        (List.getElem?_eq_getElem (by omega)) (List.getElem?_eq_getElem (by omega))
      rw [ht] at ht'
      obtain rfl := Option.some.inj ht'
      have hj := q4 _ (List.getElem_mem (l := idx) (n := k) (by omega))
      obtain ⟨o, ho⟩ := C58_reports_kept exE_box exPrm (F1 + F2) [] (by simp) St.empty rfl exS exCh
        exScan _ exOk s reps k1 _ _ (List.getElem?_eq_getElem hj)
      refine ⟨t, ht, Or.inr ⟨_, List.getElem_mem hj, ?_⟩⟩
      rw [hpdf, ho]
      generalize (exScan[idx[k]'(by omega)]'hj).val = z
      refine ⟨z, 0, ⟨le_refl _, le_refl _, le_refl _, zero_le_one⟩, ?_⟩
      show z - o + o - 1 ≤ z ∧ z ≤ z - o + o + 1 ∧ (0 : ℚ) ≤ 0 ∧ (0 : ℚ) ≤ 1
      exact ⟨by linarith, by linarith, le_refl _, zero_le_one⟩
    · simp only [viable, predictTgt, exE, hr, exPrm]
      rw [if_pos (by norm_num)]

/-- **C32, duplicates** Even if `predict` deletes nothing: when it runs while a cluster has its
targets out of the index, it puts all targets back, and the cluster puts its own back a second
time.  Stated for the last two steps of a cluster, from any coherent state. -/
theorem C32_duplicate_entry {E : Env P R O} (hbox : BoxOk E) (S : Sensor P R)
    (prm : Params) (pick : ∀ r c, List (Node r c) → Nat) (fuel : Nat) (wt : ℚ → ℝ) (cls : List Cl)
    (i a : Nat) (c : Cl) (hi : cls[i]? = some c) (ha : c.targets = [a]) (g g' : Cfg P R)
    (hs : Ok E g.st fun _ => False) (h1 : g.pc i = 1)
    (e : clRun E S prm pick fuel wt cls [i, i] g = some g') (hl : ∃ t, g'.st.heap a = some t) :
    ((items g'.st.tree).map (·.2)).count a = 2 := by
  simp only [clRun] at e
  cases e1 : clStep E S prm pick fuel wt cls i g with
  | none => simp [e1] at e
  | some g1 =>
    simp only [e1] at e
    cases e2 : clStep E S prm pick fuel wt cls i g1 with
    | none => simp [e2] at e
    | some g2 =>
      simp only [e2, Option.some.injEq] at e
      subst e
      unfold clStep at e1
      simp only [hi, h1] at e1
      cases hr : readAll g.st.heap c.targets with
      | none => simp [hr] at e1
      | some ts =>
        simp only [hr] at e1
        split at e1
        · cases e1
        · rename_i v hv
          simp only [Option.some.injEq] at e1
          have hpc : g1.pc i = 2 := by rw [← e1]; simp
          have htree : g1.st.tree = g.st.tree := by rw [← e1]
          unfold clStep at e2
          simp only [hi, hpc] at e2
          cases hst : settle E prm c.targets g1.st with
          | none => simp [hst] at e2
          | some s2 =>
            simp only [hst, Option.some.injEq] at e2
            subst e2
            simp only at hl ⊢
            rw [ha] at hst
            simp only [settle] at hst
            have hlive : ∃ t, g.st.heap a = some t := by
              rw [ha] at hr
              simp only [readAll] at hr
              cases hh : g.st.heap a with
              | none => simp [hh] at hr
              | some t => exact ⟨t, rfl⟩
            have hone : ((items g.st.tree).map (·.2)).count a = 1 := by
              apply List.count_eq_one_of_mem hs.inod
              obtain ⟨t, ht⟩ := hlive
              exact List.mem_map.2 ⟨(E.box t.pdf, a), (hs.imem _ _).2
                ⟨(hs.live a).1 ⟨t, ht⟩, fun h => h, t, ht, rfl⟩, rfl⟩
            cases hh : g1.st.heap a with
            | none => simp [hh] at hst
            | some t =>
              simp only [hh] at hst
              by_cases hv : viable E prm t = true
              · obtain ⟨Bd, hA, hgd⟩ := hbox
                obtain ⟨t', it, _, pt⟩ := RTree.insertWith_spec hA (E.box t.pdf) a g1.st.tree (hgd _)
                  (by rw [htree]; exact hs.wf) (by rw [htree]; exact hs.inBd hgd)
                simp only [hv, if_true, replace, hh, it, Option.some.injEq] at hst
                subst hst
                show ((items t').map (·.2)).count a = 2
                rw [(pt.map (·.2)).count_eq, List.map_cons, List.count_cons_self, htree, hone]
              · simp only [hv, erase, hh] at hst
                simp only [Bool.false_eq_true, if_false, Option.some.injEq] at hst
                subst hst
                obtain ⟨t', ht'⟩ := hl
                simp [setHeap] at ht'

/-! ## C33 -/

theorem relocate_spec {E : Env P R O} {o : O} (l : List Nat) {s s' : St P} (hnd : l.Nodup)
    (e : relocate E o l s = some s') : s'.tree = s.tree ∧ s'.targets = s.targets ∧ s'.idc = s.idc ∧
      (∀ a ∉ l, s'.heap a = s.heap a) ∧
      ∀ a ∈ l, ∃ t, s.heap a = some t ∧ s'.heap a = some (back E (forth E o t)) := by
  induction l generalizing s with
  | nil => simp only [relocate, Option.some.injEq] at e; subst e; simp
  | cons b l ih =>
    rw [List.nodup_cons] at hnd
    simp only [relocate] at e
    cases hb : s.heap b with
    | none => simp [hb] at e
    | some t =>
      simp only [hb] at e
      obtain ⟨h1, h2, h3, h4, h5⟩ := ih hnd.2 e
      refine ⟨h1, h2, h3, ?_, ?_⟩
      · intro a ha
        rw [List.mem_cons, not_or] at ha
        rw [h4 a ha.2]
        simp [setHeap, ha.1]
      · intro a ha
        by_cases hab : a = b
        · subst hab
          refine ⟨t, hb, ?_⟩
          rw [h4 a hnd.1]
          simp [setHeap]
        · rcases List.mem_cons.1 ha with h | ha
          · exact absurd h hab
          · obtain ⟨u, hu, hu'⟩ := h5 a ha
            refine ⟨u, ?_, hu'⟩
            simpa [setHeap, hab] using hu

theorem relocate_total {E : Env P R O} {o : O} (l : List Nat) {s : St P}
    (h : ∀ a ∈ l, ∃ t, s.heap a = some t) : ∃ s', relocate E o l s = some s' := by
  induction l generalizing s with
  | nil => exact ⟨s, rfl⟩
  | cons b l ih =>
    obtain ⟨t, ht⟩ := h b List.mem_cons_self
    simp only [relocate, ht]
    apply ih
    intro a ha
    simp only [setHeap]
    split
    · exact ⟨_, rfl⟩
    · exact h a (List.mem_cons_of_mem _ ha)

/-- **C33, when it holds** If moving a density to the origin's frame and back keeps its box, then
`ospa`, `gospa` leave a coherent state coherent. -/
theorem C33_kept_if_box_kept {E : Env P R O} (o : O)
    (hsame : ∀ p, E.box (E.toGlobal (E.toLocal o p)) = E.box p) (s : St P) (hs : Inv E s) :
    ∃ s', metricQuery E o s = some s' ∧ Inv E s' := by
  obtain ⟨s', e⟩ := relocate_total (E := E) (o := o) s.targets (s := s)
    fun a ha => (hs.ok.live a).2 ha
  obtain ⟨h1, h2, h3, h4, h5⟩ := relocate_spec _ hs.ok.nodup e
  refine ⟨s', e, ⟨by rw [h1]; exact hs.ok.wf, by rw [h2]; exact hs.ok.nodup, ?_, by
    rw [h1]; exact hs.ok.inod, ?_⟩, by rw [h3]; exact hs.idc⟩
  · intro a
    rw [h2, ← hs.ok.live]
    by_cases ha : a ∈ s.targets
    · obtain ⟨t, ht, ht'⟩ := h5 a ha
      rw [ht, ht']; exact ⟨fun _ => ⟨_, rfl⟩, fun _ => ⟨_, rfl⟩⟩
    · rw [h4 a ha]
  · intro r a
    rw [h1, h2, hs.ok.imem]
    constructor
    · rintro ⟨g1, g2, t, ht, hr⟩
      obtain ⟨t', ht', hh⟩ := h5 a g1
      rw [ht] at ht'
      obtain rfl := Option.some.inj ht'
      exact ⟨g1, g2, _, hh, by rw [hr]; exact (hsame _).symm⟩
    · rintro ⟨g1, g2, u, hu, hr⟩
      obtain ⟨t, ht, hh⟩ := h5 a g1
      rw [hu] at hh
      obtain rfl := Option.some.inj hh
      exact ⟨g1, g2, t, ht, by rw [hr]; exact hsame _⟩

/-- **C33, stale index** After `ospa` or `gospa` every region query still goes by the boxes from
before the call, although the targets now have the boxes of the moved densities; as soon as one of
these differs, the index is not coherent any more. -/
theorem C33_stale {E : Env P R O} (hbox : BoxOk E) (o : O) (s s' : St P) (hs : Inv E s)
    (e : metricQuery E o s = some s') :
    (∀ b, b.Valid → ∃ l, query s' b = some l ∧ ∀ a, a ∈ l ↔
      ∃ t, s.heap a = some t ∧ b.Touch (E.box t.pdf)) ∧
    (∀ a t, s.heap a = some t → ∃ u, s'.heap a = some u ∧ u.pdf = E.toGlobal (E.toLocal o t.pdf)) ∧
    ∀ a t, s.heap a = some t → E.box (E.toGlobal (E.toLocal o t.pdf)) ≠ E.box t.pdf →
      ¬ Coherent E s' := by
  obtain ⟨h1, h2, h3, h4, h5⟩ := relocate_spec _ hs.ok.nodup e
  refine ⟨?_, ?_, ?_⟩
  · intro b hb
    obtain ⟨l, q1, q2, q3⟩ := query_ok hbox hs.ok b hb
    refine ⟨l, by rw [← q1]; simp only [query, h1], ?_⟩
    intro a
    rw [q3]
    constructor
    · rintro ⟨_, _, h⟩; exact h
    · rintro ⟨t, ht, h⟩; exact ⟨(hs.ok.live a).1 ⟨t, ht⟩, fun h => h, t, ht, h⟩
  · intro a t ht
    obtain ⟨t', ht', hh⟩ := h5 a ((hs.ok.live a).1 ⟨t, ht⟩)
    rw [ht] at ht'
    obtain rfl := Option.some.inj ht'
    exact ⟨_, hh, rfl⟩
  · intro a t ht hne hco
    obtain ⟨t', ht', hh⟩ := h5 a ((hs.ok.live a).1 ⟨t, ht⟩)
    rw [ht] at ht'
    obtain rfl := Option.some.inj ht'
    have : (E.box t.pdf, a) ∈ items s'.tree := by
      rw [h1, hs.ok.imem]
      exact ⟨(hs.ok.live a).1 ⟨t, ht⟩, fun h => h, t, ht, rfl⟩
    obtain ⟨u, hu, hr⟩ := (hco.index _ _).1 this
    rw [hh] at hu
    obtain rfl := Option.some.inj hu
    exact hne hr.symm

/-- **C33, intensity** `pos_phd` on a region always succeeds and leaves the index, the list of targets and
the counter as they are; every target whose box touches the region is moved to the frame of the grid and
back, no other target changes, and of the moved ones only the density. -/
theorem C33_phd {E : Env P R O} (hbox : BoxOk E) (o : O) (s : St P) (hs : Inv E s) (fov : RTree.Rect)
    (hf : fov.Valid) :
    ∃ s', phdQuery E o fov s = some s' ∧ s'.tree = s.tree ∧ s'.targets = s.targets ∧ s'.idc = s.idc ∧
      ∀ a, (∀ t, s.heap a = some t → fov.Touch (E.box t.pdf) →
          s'.heap a = some { t with pdf := E.toGlobal (E.toLocal o t.pdf) }) ∧
        ((∀ t, s.heap a = some t → ¬ fov.Touch (E.box t.pdf)) → s'.heap a = s.heap a) := by
  obtain ⟨l, q1, q2, q3⟩ := query_ok hbox hs.ok fov hf
  obtain ⟨s', e⟩ := relocate_total (E := E) (o := o) l (s := s) (fun a ha => by
    obtain ⟨_, _, t, ht, _⟩ := (q3 a).1 ha
    exact ⟨t, ht⟩)
  obtain ⟨h1, h2, h3, h4, h5⟩ := relocate_spec l q2 e
  refine ⟨s', by simp only [phdQuery, q1, e], h1, h2, h3, fun a => ⟨fun t ht hto => ?_, fun hno => ?_⟩⟩
  · obtain ⟨t', ht', hh⟩ := h5 a ((q3 a).2 ⟨(hs.ok.live a).1 ⟨t, ht⟩, fun h => h, t, ht, hto⟩)
    rw [ht] at ht'
    obtain rfl := Option.some.inj ht'
    exact hh
  · refine h4 a fun ha => ?_
    obtain ⟨_, _, t, ht, hto⟩ := (q3 a).1 ha
    exact hno t ht hto

theorem readAll_none {h : Nat → Option (Tgt P)} {l : List Nat} {a : Nat} (ha : a ∈ l)
    (hd : h a = none) : readAll h l = none := by
  cases hr : readAll h l with
  | none => rfl
  | some ts =>
    obtain ⟨h1, h2⟩ := readAll_spec hr
    rw [← h1, List.mem_map] at ha
    obtain ⟨x, hx, rfl⟩ := ha
    have := h2 x hx
    rw [hd] at this; cases this

/-- **C33, dangling entries** If removing a target under its current box leaves its entry in the
index (as can happen once the box has been moved, see `C33_refuted`) and the correction finds the
target no longer viable, then after the correction of its cluster the index holds a pointer to the
deleted target, and every region query that touches the old box uses it. -/
theorem C33_dangling {E : Env P R O} (S : Sensor P R) (prm : Params)
    (pick : ∀ r c, List (Node r c) → Nat) (fuel : Nat) (wt : ℚ → ℝ) (cls : List Cl)
    (i a : Nat) (c : Cl) (hi : cls[i]? = some c) (ha : c.targets = [a]) (g : Cfg P R)
    (h0 : g.pc i = 0) (t : Tgt P) (ht : g.st.heap a = some t) (tr : RTree.Tree Nat)
    (hrem : RTree.removeWith E.areas (E.box t.pdf) a g.st.tree = some tr) (hwf : WF tr) (r : Rect)
    (hstay : (r, a) ∈ items tr) (v : Comp P R)
    (hv : compute E S prm pick fuel wt [(a, t)] (c.reports.map fun j => (g.reps j).val) = some v)
    (hgone : ∀ u ∈ v.ts, viable E prm u = false) :
    ∃ g', clRun E S prm pick fuel wt cls [i, i, i] g = some g' ∧ g'.st.heap a = none ∧
      (r, a) ∈ items g'.st.tree ∧ ∀ b, b.Valid → b.Touch r → getIn g'.st b = none := by
  obtain ⟨l1, _⟩ := compute_length hv
  obtain ⟨u, hu⟩ : ∃ u, v.ts = [u] := List.length_eq_one_iff.1 l1
  have hnv := hgone u (by rw [hu]; simp)
  have q0 : removeLoop E c.targets g.st = some { g.st with tree := tr } := by
    simp only [ha, removeLoop, remove, ht, hrem]
  have q1 : clStep E S prm pick fuel wt cls i g = some { g with
      st := { g.st with tree := tr }, pc := fun k => if k = i then g.pc i + 1 else g.pc k } := by
    unfold clStep
    simp only [hi, h0, q0]
  refine ⟨⟨⟨setHeap (setHeap g.st.heap a (some u)) a none, g.st.targets.filter (· ≠ a), tr,
    g.st.idc⟩,
    writeReps g.reps c.reports v.rs v.rB, fun k => if k = i then 3 else g.pc k⟩, ?_, ?_, hstay, ?_⟩
  · simp only [clRun, q1]
    have q2 : readAll g.st.heap [a] = some [(a, t)] := by simp only [readAll, ht]
    unfold clStep
    simp only [hi, if_true, h0, ha, q2, hv, hu, writeAll]
    simp only [settle, setHeap, if_true, hnv, erase, Bool.false_eq_true, if_false]
    congr 2
    funext k
    by_cases hk : k = i <;> simp [hk]
  · simp [setHeap]
  · intro b hb htouch
    have hvalid := hwf.items_valid _ hstay
    have hover := (RTree.touch_iff_overlap hb hvalid).1 htouch
    have hfeed : ∀ (l : List Nat) (acc : List Nat),
        RTree.feed (fun (acc : List Nat) (d : Nat) => (acc ++ [d], true)) acc l =
          (acc ++ l, l.length, true) := by
      intro l
      induction l with
      | nil => intro acc; simp [RTree.feed]
      | cons d l ih => intro acc; simp [RTree.feed, ih]
    simp only [getIn, query]
    rw [RTree.search_spec _ _ _ _ hwf, hfeed]
    simp only [List.nil_append, Option.map_some]
    apply readAll_none (a := a)
    · unfold RTree.hits
      exact List.mem_map.2 ⟨(r, a), List.mem_filter.2 ⟨hstay, hover⟩, rfl⟩
    · simp [setHeap]

/-- Targets created one after the other, as in `birth`. -/
noncomputable def exMany : List ℚ → St ℚ → Option (St ℚ)
  | [], s => some s
  | p :: l, s =>
    match newTarget exE exCh.alloc s (1 / 2) p 0 with
    | none => none
    | some s' => exMany l s'

theorem exMany_spec (l : List ℚ) (s : St ℚ) (hs : Inv exE s) : ∃ s', exMany l s = some s' ∧
    Inv exE s' := by
  induction l generalizing s with
  | nil => exact ⟨s, rfl, hs⟩
  | cons p l ih =>
    obtain ⟨s1, h1, _, _, _, h5, h6⟩ := newTarget_ok exE_box exCh_ok.alloc hs.ok (1 / 2) p 0
    simp only [exMany, h1]
    exact ih s1 ⟨h6, by rw [h5]; exact Nat.mod_lt _ (by positivity)⟩

/-- The tree of `exMany`, with the list of addresses. -/
def exTree : List ℚ → List Nat → RTree.Tree Nat → Option (RTree.Tree Nat)
  | [], _, t => some t
  | p :: l, as, t =>
    match RTree.insert ⟨p - 1, 0, p + 1, 1⟩ (as.sum + 1) t with
    | none => none
    | some t' => exTree l (as ++ [as.sum + 1]) t'

theorem exMany_tree (l : List ℚ) (s s' : St ℚ) (e : exMany l s = some s') :
    exTree l s.targets s.tree = some s'.tree ∧
      ∀ a, (∃ t, s.heap a = some t) → s'.heap a = s.heap a := by
  induction l generalizing s with
  | nil => simp only [exMany, Option.some.injEq] at e; subst e; exact ⟨rfl, fun _ _ => rfl⟩
  | cons p l ih =>
    simp only [exMany] at e
    cases h : newTarget exE exCh.alloc s (1 / 2) p 0 with
    | none => simp only [h] at e; cases e
    | some s1 =>
      simp only [h] at e
      obtain ⟨i1, i2⟩ := ih s1 e
      unfold newTarget at h
      simp only at h
      split at h
      · cases h
      · rename_i hn
        cases hi : RTree.insertWith exE.areas (exE.box p) (exCh.alloc s.targets) s.tree with
        | none => simp [hi] at h
        | some t' =>
          simp only [hi, Option.some.injEq] at h
          subst h
          refine ⟨?_, ?_⟩
          · have hi' : RTree.insert ⟨p - 1, 0, p + 1, 1⟩ (s.targets.sum + 1) s.tree = some t' := hi
            simp only [exTree, hi']
            exact i1
          · intro a ⟨t, ht⟩
            have hne : a ≠ exCh.alloc s.targets := by rintro rfl; rw [ht] at hn; cases hn
            have : setHeap s.heap (exCh.alloc s.targets) (some ⟨s.idc, 1 / 2, p, 0, 'i'⟩) a =
                s.heap a := by simp [setHeap, hne]
            rw [i2 a ⟨t, by simp only [this, ht]⟩]
            exact this

/-- The positions of nine targets. -/
def exPos : List ℚ := [0, 10, 20, 30, 40, 50, 60, 70, 80]

/-- Removing the first of nine targets under a box far from all others leaves its entry. -/
theorem exTree_stays : ((exTree exPos [] RTree.empty).bind fun t =>
    (RTree.remove ⟨999, 0, 1001, 1⟩ 1 t).map fun t' => decide ((⟨-1, 0, 1, 1⟩, 1) ∈ items t')) =
    some true := by decide +kernel

/-- **C33** The claim is false: nine targets, `ospa` with a far origin, and a correction of the
first target (here no longer viable, its covariance exceeding `cov_lim`): from then on asking for
the targets in a region around its old place uses a deleted target. -/
theorem C33_refuted : ∃ (s s' : St ℚ) (F : Nat) (prm : Params) (g : Cfg ℚ ℚ),
    exMany exPos St.empty = some s ∧ Coherent exE s ∧ metricQuery exE (-1000) s = some s' ∧
    clRun exE exS prm exCh.pick F ew [⟨0, [], [1]⟩] [0, 0, 0]
      ⟨s', fun _ => ⟨0, none, 0⟩, fun _ => 0⟩ = some g ∧
    g.st.heap 1 = none ∧ getIn g.st ⟨-5, -5, 5, 5⟩ = none := by
  obtain ⟨s, e, hs⟩ := exMany_spec exPos St.empty (Inv.empty exE)
  obtain ⟨etree, _⟩ := exMany_tree exPos St.empty s e
  obtain ⟨s1, f1, _, f3, f4, f5, f6⟩ := newTarget_ok exE_box exCh_ok.alloc (Ok.empty exE) (1 / 2) 0 0
  have f3' : s1.heap 1 = some ⟨0, 1 / 2, 0, 0, 'i'⟩ := by rw [f3]; rfl
  have e' : exMany (exPos.drop 1) s1 = some s := by
    have : exPos = 0 :: exPos.drop 1 := rfl
    rw [this] at e
    simpa only [exMany, f1] using e
  have h1 : s.heap 1 = some ⟨0, 1 / 2, 0, 0, 'i'⟩ := by
    rw [(exMany_tree _ _ _ e').2 1 ⟨_, f3'⟩, f3']
  obtain ⟨s', e2⟩ := relocate_total (E := exE) (o := -1000) s.targets (s := s)
    fun a ha => (hs.ok.live a).2 ha
  obtain ⟨g1, g2, g3, g4, g5⟩ := relocate_spec _ hs.ok.nodup e2
  obtain ⟨t, ht, ht'⟩ := g5 1 ((hs.ok.live 1).1 ⟨_, h1⟩)
  rw [h1] at ht
  obtain rfl := Option.some.inj ht
  set u : Tgt ℚ := back exE (forth exE (-1000) ⟨0, 1 / 2, 0, 0, 'i'⟩) with hu
  have hb : exE.box u.pdf = ⟨999, 0, 1001, 1⟩ := by
    simp only [hu, back, forth, exE]
    norm_num
  have hst := exTree_stays
  simp only [St.empty] at etree
  rw [etree, Option.bind_some, Option.map_eq_some_iff] at hst
  obtain ⟨tr, htr, hmem⟩ := hst
  have hmem := of_decide_eq_true hmem
  have hwf : WF tr := by
    obtain ⟨b, t', q1, q2, _⟩ := RTree.removeRect_spec ⟨999, 0, 1001, 1⟩ 1 s.tree hs.ok.wf
    simp only [RTree.remove, q1, Option.map_some, Option.some.injEq] at htr
    rw [← htr]; exact q2
  obtain ⟨F, v, hv⟩ := compute_total (E := exE) exS_costs { exPrm with covlim := 1 / 2 } exCh_pick ew
    [(1, u)] [] (by simp)
  obtain ⟨g, k1, k2, _, k3⟩ := C33_dangling exS { exPrm with covlim := 1 / 2 } exCh.pick F ew
    [⟨0, [], [1]⟩] 0 1 ⟨0, [], [1]⟩ rfl rfl ⟨s', fun _ => ⟨0, none, 0⟩, fun _ => 0⟩ rfl u ht' tr
    (by rw [hb]; show RTree.removeWith exE.areas _ _ s'.tree = _; rw [g1]; exact htr) hwf _ hmem v
    (hv F (le_refl _)) (by
      intro w _
      have : (1 / 2 : ℝ) < 1 := by norm_num
      simp only [viable, exE, this, if_true]
      split <;> rfl)
  refine ⟨s, s', F, _, g, e, hs.coherent, e2, k1, k2, k3 _ ?_ ?_⟩
  · constructor <;> · show (-5 : ℚ) ≤ 5; norm_num
  · refine ⟨0, 0, ?_, ?_⟩
    · show (-5 : ℚ) ≤ 0 ∧ (0 : ℚ) ≤ 5 ∧ (-5 : ℚ) ≤ 0 ∧ (0 : ℚ) ≤ 5
      norm_num
    · show (-1 : ℚ) ≤ 0 ∧ (0 : ℚ) ≤ 1 ∧ (0 : ℚ) ≤ 0 ∧ (0 : ℚ) ≤ 1
      norm_num

/-- The stale index in the example: after three births, `ospa` with origin 2 moves all targets. -/
example (F : Nat) : ∃ s s' : St ℚ, (∃ reps, correct exE exS exPrm exCh F exScan ⟨0, none, 0⟩
      (St.empty : St ℚ) = some (s, reps)) ∧ metricQuery exE 2 s = some s' ∧ ¬ Coherent exE s' := by
  obtain ⟨s, reps, h1, h2, h3⟩ := exFirst F
  have hs : Inv exE s := step_inv exE_box (Inv.empty exE) exOk (prm := exPrm) (fuel := F)
    (by simp [step, h1])
  obtain ⟨s', e⟩ := relocate_total (E := exE) (o := 2) s.targets (s := s)
    fun a ha => (hs.ok.live a).2 ha
  have hne : s.targets ≠ [] := by intro h; rw [h] at h2; simp at h2
  obtain ⟨a, ha⟩ := List.exists_mem_of_ne_nil _ hne
  obtain ⟨t, ht, _⟩ := h3 a ha
  refine ⟨s, s', ⟨reps, h1⟩, e, (C33_stale exE_box 2 s s' hs e).2.2 a t ht ?_⟩
  simp only [exE, ne_eq, Rect.mk.injEq, and_true, true_and]
  rintro ⟨h, _⟩
  linarith

/-- After three births, the intensity over a region that is the box of one of the targets, on a grid with
origin 2: that target has moved by 2. -/
example (F : Nat) : ∃ (s s' : St ℚ) (a : Nat) (t : Tgt ℚ), (∃ reps, correct exE exS exPrm exCh F exScan
      ⟨0, none, 0⟩ (St.empty : St ℚ) = some (s, reps)) ∧ s.heap a = some t ∧
      phdQuery exE 2 (exE.box t.pdf) s = some s' ∧ s'.heap a = some { t with pdf := t.pdf - 2 } := by
  obtain ⟨s, reps, h1, h2, h3⟩ := exFirst F
  have hs : Inv exE s := step_inv exE_box (Inv.empty exE) exOk (prm := exPrm) (fuel := F)
    (by simp [step, h1])
  have hne : s.targets ≠ [] := by intro h; rw [h] at h2; simp at h2
  obtain ⟨a, ha⟩ := List.exists_mem_of_ne_nil _ hne
  obtain ⟨t, ht, _⟩ := h3 a ha
  obtain ⟨s', e, _, _, _, h⟩ := C33_phd exE_box 2 s hs (exE.box t.pdf) (exE_box.valid _)
  refine ⟨s, s', a, t, ⟨reps, h1⟩, ht, e, (h a).1 t ht ⟨t.pdf, 0, ?_, ?_⟩⟩ <;>
    exact ⟨by simp [exE], by simp [exE], by simp [exE], by simp [exE]⟩

/-- With origin 0 nothing moves. -/
example (s : St ℚ) (hs : Inv exE s) : ∃ s', metricQuery exE 0 s = some s' ∧ Inv exE s' :=
  C33_kept_if_box_kept 0 (fun p => by simp [exE]) s hs

/-- A duplicate in the example: one target, whose cluster is past its first critical section when
`predict` has put the target back. -/
example : ∃ (F : Nat) (s : St ℚ) (g : Cfg ℚ ℚ), exMany [0] St.empty = some s ∧
    clRun exE exS { exPrm with rlim := 0 } exCh.pick F ew [⟨0, [], [1]⟩] [0, 0]
      ⟨s, fun _ => ⟨0, none, 0⟩, fun _ => 1⟩ = some g ∧
    ((items g.st.tree).map (·.2)).count 1 = 2 := by
  obtain ⟨s, f1, _, f3, f4, f5, f6⟩ := newTarget_ok exE_box exCh_ok.alloc (Ok.empty exE) (1 / 2) 0 0
  have h1 : s.heap 1 = some ⟨0, 1 / 2, 0, 0, 'i'⟩ := by rw [f3]; rfl
  obtain ⟨F, v, hv⟩ := compute_total (E := exE) exS_costs { exPrm with rlim := 0 } exCh_pick ew
    [(1, ⟨0, 1 / 2, 0, 0, 'i'⟩)] [] (by simp)
  have hv := hv F (le_refl _)
  obtain ⟨l1, _⟩ := compute_length hv
  obtain ⟨u, hu⟩ : ∃ u, v.ts = [u] := List.length_eq_one_iff.1 l1
  have hk := compute_keeps exKeeps (fun _ _ _ _ => trivial) (fun _ _ _ => trivial)
    (fun q => (ew_pos q).le) (ts := [(1, ⟨0, 1 / 2, 0, 0, 'i'⟩)])
    (by
      intro x hx
      rw [List.mem_singleton] at hx
      subst hx
      exact ⟨by norm_num, by norm_num, trivial⟩) hv u (by rw [hu]; simp)
  have hvi : viable exE { exPrm with rlim := 0 } u = true := by
    have h : ¬ u.r < 0 := not_lt.2 hk.1
    have h' : ¬ (150 : ℝ) < 1 := by norm_num
    simp only [viable, h, if_false, exE, exPrm, h']
  obtain ⟨t', it, _, _⟩ := RTree.insert_spec (exE.box u.pdf) 1 s.tree (exE_box.valid _) f6.wf
  rw [RTree.insert, show RTree.Areas.exact = exE.areas from rfl] at it
  have hrun : ∃ g, clRun exE exS { exPrm with rlim := 0 } exCh.pick F ew [⟨0, [], [1]⟩] [0, 0]
      ⟨s, fun _ => ⟨0, none, 0⟩, fun _ => 1⟩ = some g ∧ ∃ t, g.st.heap 1 = some t := by
    have q2 : readAll s.heap [1] = some [(1, ⟨0, 1 / 2, 0, 0, 'i'⟩)] := by simp only [readAll, h1]
    refine ⟨⟨⟨setHeap s.heap 1 (some u), s.targets, t', s.idc⟩,
      writeReps (fun _ => ⟨0, none, 0⟩) [] v.rs v.rB, fun k => if k = 0 then 3 else 1⟩, ?_, u,
      by simp [setHeap]⟩
    · simp only [clRun]
      unfold clStep
      simp only [List.getElem?_cons_zero, if_true, q2, List.map_nil, hv, hu, writeAll]
      simp only [settle, setHeap, if_true, hvi, replace, it]
      congr 2
      funext k
      by_cases hk : k = 0 <;> simp [hk]
  obtain ⟨g, hg, hl⟩ := hrun
  refine ⟨F, s, g, by simp only [exMany, f1], hg, ?_⟩
  exact C32_duplicate_entry exE_box exS _ exCh.pick F ew _ 0 1 ⟨0, [], [1]⟩ rfl rfl _ g f6 rfl hg hl

end Verif.Tracker

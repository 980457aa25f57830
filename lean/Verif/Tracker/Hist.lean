import Verif.Tracker.Correct
import Verif.Hyp.Props
import Verif.Hyp.Bounds

/-! # Histories: invariants, and when a call is defined -/

namespace Verif.Tracker

open Verif.RTree (Rect WF items)
open Verif.Cluster (Cl)
open Verif.Hyp Verif.Lap Verif.Murty

variable {P R O : Type}

/-- The arguments of a call are possible ones: the parallel loops run each iteration once, critical
sections interleave in some order, `new` returns an address that is not in use, and boxes passed in
are boxes. -/
def CallOk (E : Env P R O) : Call P R → Prop
  | .predict _ ord => ∀ l, (ord l).Perm l
  | .correct S ch scan _ => S.fovBox.Valid ∧ ChOk ch ∧ ∀ z ∈ scan, (E.rbox z.val).Valid

/-- The number of reports in a call. -/
def Call.reports : Call P R → Nat
  | .predict _ _ => 0
  | .correct _ _ scan _ => scan.length

/-- The index holds, each once, the listed targets under their current boxes; a target is listed,
once, iff it is alive. -/
structure Coherent (E : Env P R O) (s : St P) : Prop where
  listed : s.targets.Nodup
  live : ∀ a, a ∈ s.targets ↔ (s.heap a).isSome
  once : ((items s.tree).map (·.2)).Nodup
  index : ∀ r a, (r, a) ∈ items s.tree ↔ ∃ t, s.heap a = some t ∧ r = E.box t.pdf

/-- The invariant of histories. -/
structure Inv (E : Env P R O) (s : St P) : Prop where
  ok : Ok E s fun _ => False
  idc : s.idc < 2 ^ 32

theorem Inv.coherent {E : Env P R O} {s : St P} (h : Inv E s) : Coherent E s := by
  refine ⟨h.ok.nodup, fun a => ?_, h.ok.inod, fun r a => ?_⟩
  · rw [Option.isSome_iff_exists]; exact (h.ok.live a).symm
  · rw [h.ok.imem]
    constructor
    · rintro ⟨_, _, h⟩; exact h
    · rintro ⟨t, ht, hr⟩; exact ⟨(h.ok.live a).1 ⟨t, ht⟩, fun h => h, t, ht, hr⟩

theorem Inv.empty (E : Env P R O) : Inv E (St.empty : St P) := ⟨Ok.empty E, by simp [St.empty]⟩

theorem step_inv {E : Env P R O} (hbox : BoxOk E) {prm : Params} {fuel : Nat}
    {s s' : St P} (hs : Inv E s) {c : Call P R} (hc : CallOk E c)
    (e : step E prm fuel s c = some s') : Inv E s' := by
  cases c with
  | predict m ord =>
    obtain ⟨s1, h1, h2, h3, _⟩ := predict_spec hbox prm m hc hs.ok
    simp only [step, h1, Option.some.injEq] at e
    subst e
    exact ⟨h2, by rw [h3]; exact hs.idc⟩
  | correct S ch scan dflt =>
    obtain ⟨hf, hch, hz⟩ := hc
    obtain ⟨cls, s1, rcid, _, ⟨_, h⟩ | ⟨s2, reps, new, h1, h2, h3⟩⟩ :=
      correct_spec hbox hf (prm := prm) hch fuel hz dflt hs.ok hs.idc
    · simp [step, h] at e
    · simp only [step, h1, Option.map_some, Option.some.injEq] at e
      subst e
      exact ⟨h2, by rw [h3.idc]; exact Nat.mod_lt _ (by positivity)⟩

theorem run_inv {E : Env P R O} (hbox : BoxOk E) {prm : Params} {fuel : Nat}
    {calls : List (Call P R)} {s s' : St P} (hs : Inv E s) (hc : ∀ c ∈ calls, CallOk E c)
    (e : run E prm fuel calls s = some s') : Inv E s' := by
  induction calls generalizing s with
  | nil => simp only [run, Option.some.injEq] at e; subst e; exact hs
  | cons c l ih =>
    simp only [run] at e
    cases h : step E prm fuel s c with
    | none => simp [h] at e
    | some s1 =>
      simp only [h] at e
      exact ih (step_inv hbox hs (hc c List.mem_cons_self) h)
        (fun d hd => hc d (List.mem_cons_of_mem _ hd)) e

/-! ## What a call does to single targets -/

/-- The targets at the addresses `old` are the same ones in both states: they are alive in both, under the same `id`
(specification; `id` is `target.hpp:52`). -/
def Stay (s s' : St P) (old : List Nat) : Prop :=
  ∀ a ∈ old, ∃ t u, s.heap a = some t ∧ s'.heap a = some u ∧ u.id = t.id

/-- Where a target alive after `correct` comes from: it was not reached by the scan and is
unchanged; or it was in a cluster, kept its `id` and is viable; or it is newborn, for one report. -/
theorem correct_origin {E : Env P R O} (hbox : BoxOk E) {S : Sensor P R}
    (hf : S.fovBox.Valid) {prm : Params} {ch : Choices} (hch : ChOk ch) {fuel : Nat}
    {scan : List (Rep R)} (hz : ∀ z ∈ scan, (E.rbox z.val).Valid) {dflt : Rep R} {s : St P}
    (hs : Inv E s) {s2 : St P} {reps : Nat → Rep R}
    (e : correct E S prm ch fuel scan dflt s = some (s2, reps)) :
    ∃ cls s1 rcid new, Done E S prm ch fuel scan dflt s s2 reps cls s1 rcid new ∧
      (∀ a ∈ new, a ∉ s.targets ∨ Gated E S scan s a) ∧
      (∀ a ∉ new, ¬ Gated E S scan s a → s2.heap a = s.heap a) ∧
      (∀ a ∉ new, Gated E S scan s a → ∀ u, s2.heap a = some u → viable E prm u = true ∧
        ∃ (t : Tgt P) (c : Cl) (v : Comp P R) (k : Nat), s.heap a = some t ∧ u.id = t.id ∧ c ∈ cls ∧ c.targets[k]? = some a ∧
          compOf E S prm ch.pick fuel ch.wt s1.heap (initReps scan rcid dflt) c = some v ∧
          v.ts[k]? = some u) := by
  obtain ⟨cls, s1, rcid, hp, ⟨_, h⟩ | ⟨s2', reps', new, h1, h2, h3⟩⟩ :=
    correct_spec hbox hf (prm := prm) hch fuel hz dflt hs.ok hs.idc
  · rw [h] at e; cases e
  rw [h1] at e
  injection e with e
  obtain ⟨rfl, rfl⟩ := Prod.mk.inj e
  obtain ⟨cls', s1', rcid', p1, p2, p3, p4, p5, p6, p7, p8, p9, p10⟩ := prepare_ok hbox hf hz hs.ok
  rw [hp, Option.some.injEq, Prod.mk.injEq, Prod.mk.injEq] at p1
  obtain ⟨rfl, rfl, rfl⟩ := p1
  have hany : ∀ a, (cls.any fun c => c.targets.contains a) = true ↔ Gated E S scan s a := by
    intro a
    rw [← p7 a, List.any_eq_true]
    simp
  refine ⟨cls, s1, rcid, new, h3, ?_, ?_, ?_⟩
  · intro a ha
    by_cases hg : Gated E S scan s a
    · exact Or.inr hg
    · left
      have := h3.fresh a ha
      rw [finalHeap, if_neg (mt (hany a).1 hg), p8 a hg] at this
      rw [← hs.ok.live a, this]
      simp
  · intro a ha hg
    rw [h3.old a ha, finalHeap, if_neg (mt (hany a).1 hg), p8 a hg]
  · intro a ha hg u hu
    rw [h3.old a ha, finalHeap, if_pos ((hany a).2 hg), Option.filter_eq_some_iff] at hu
    obtain ⟨hu, hv⟩ := hu
    refine ⟨hv, ?_⟩
    obtain ⟨c, hc, hac⟩ := (p7 a).2 hg
    obtain ⟨i, hi⟩ := List.mem_iff_getElem?.1 hc
    obtain ⟨v, hcv⟩ := h3.comps c hc
    unfold midHeap at hu
    rw [(find_targets p2.tnd hi hac).1] at hu
    simp only [hcv] at hu
    obtain ⟨l1, _, _, l4⟩ := compOf_length hcv
    obtain ⟨k, t, k1, k2, k3⟩ := writeAll_mem (h := s1.heap)
      ((List.nodup_flatMap.1 p2.tnd).1 c hc) l1 hac
    rw [k3] at hu
    injection hu with hu
    subst hu
    obtain ⟨a', x, q1, q2, q3, _⟩ := l4 k t k2
    rw [k1] at q1
    injection q1 with q1
    subst q1
    obtain ⟨t0, r1, r2, _⟩ := p10 a x q2
    exact ⟨t0, c, v, k, r1, q3.trans r2, hc, k1, hcv, k2⟩

/-- The targets that are not new stay. -/
theorem origin_stay {E : Env P R O} {S : Sensor P R} {prm : Params} {ch : Choices} {fuel : Nat}
    {scan : List (Rep R)} {dflt : Rep R} {s : St P} (hs : Inv E s) {s2 : St P} {reps : Nat → Rep R} {cls : List Cl}
    {s1 : St P} {rcid : Nat → Nat} {new : List Nat} (d : Done E S prm ch fuel scan dflt s s2 reps cls s1 rcid new)
    (h : (∀ a ∉ new, ¬ Gated E S scan s a → s2.heap a = s.heap a) ∧
      (∀ a ∉ new, Gated E S scan s a → ∀ u, s2.heap a = some u → viable E prm u = true ∧
        ∃ (t : Tgt P) (c : Cl) (v : Comp P R) (k : Nat), s.heap a = some t ∧ u.id = t.id ∧ c ∈ cls ∧ c.targets[k]? = some a ∧
          compOf E S prm ch.pick fuel ch.wt s1.heap (initReps scan rcid dflt) c = some v ∧ v.ts[k]? = some u)) :
    Stay s s2 (s.targets.filter fun a =>
      (finalHeap E S prm ch.pick fuel ch.wt s1.heap (initReps scan rcid dflt) cls a).isSome) := by
  intro a ha
  obtain ⟨ha1, ha2⟩ := List.mem_filter.1 ha
  obtain ⟨t, ht⟩ := (hs.ok.live a).2 ha1
  have hn : a ∉ new := fun hn => by rw [d.fresh a hn] at ha2; cases ha2
  by_cases hg : Gated E S scan s a
  · obtain ⟨u, hu⟩ := Option.isSome_iff_exists.1 ((d.old a hn).symm ▸ ha2)
    obtain ⟨_, t', _, _, _, g1, g2, _⟩ := h.2 a hn hg u hu
    exact ⟨t', u, g1, hu, g2⟩
  · exact ⟨t, t, ht, by rw [h.1 a hn hg, ht], rfl⟩

/-- Newborn targets have the listed values. -/
theorem Done.new_born {E : Env P R O} {S : Sensor P R} {prm : Params} {ch : Choices} {fuel : Nat}
    {scan : List (Rep R)} {dflt : Rep R} {s s2 : St P} {reps : Nat → Rep R} {cls : List Cl}
    {s1 : St P} {rcid : Nat → Nat} {new : List Nat}
    (h : Done E S prm ch fuel scan dflt s s2 reps cls s1 rcid new) {k a : Nat}
    (hk : new[k]? = some a) : ∃ j x, (births S prm ch.ord cls scan.length reps)[k]? = some (j, x) ∧
      s2.heap a = some ⟨(s.idc + k) % 2 ^ 32, min x prm.rBmax, S.init (reps j).val,
        (reps j).cid, 'i'⟩ := by
  have hlt := (List.getElem?_eq_some_iff.1 hk).1
  rw [h.len] at hlt
  exact ⟨_, _, List.getElem?_eq_getElem hlt, h.born k a _ _ hk (List.getElem?_eq_getElem hlt)⟩

theorem births_mem {S : Sensor P R} {prm : Params} {ord : List Nat → List Nat}
    (hord : ∀ l, (ord l).Perm l) {cls : List Cl} {n : Nat} {reps : Nat → Rep R}
    (hperm : (cls.flatMap Cl.reports).Perm (List.range n)) {j : Nat} {x : ℝ}
    (h : (j, x) ∈ births S prm ord cls n reps) :
    j < n ∧ prm.rlim ≤ x ∧ ∃ b sum, (reps j).rB = some b ∧ rBsum n reps = some sum ∧
      prm.rlim ≤ sum ∧ x = b * S.lambdaB / sum := by
  classical
  unfold births at h
  cases hr : rBsum n reps with
  | none => simp [hr] at h
  | some sum =>
    simp only [hr] at h
    split at h
    · rename_i hsum
      unfold bornOf at h
      rw [List.mem_filterMap] at h
      obtain ⟨j', hj', h⟩ := h
      cases hb : (reps j').rB with
      | none => simp [hb] at h
      | some b =>
        simp only [hb] at h
        split at h
        · rename_i hlim
          injection h with h
          obtain ⟨rfl, rfl⟩ := Prod.mk.inj h
          refine ⟨?_, hlim, b, sum, hb, rfl, hsum, rfl⟩
          exact List.mem_range.1 (hperm.mem_iff.1 ((hord _).mem_iff.1 hj'))
        · cases h
    · simp at h

theorem births_nodup {S : Sensor P R} {prm : Params} {ord : List Nat → List Nat}
    (hord : ∀ l, (ord l).Perm l) {cls : List Cl} {n : Nat} {reps : Nat → Rep R}
    (hperm : (cls.flatMap Cl.reports).Perm (List.range n)) :
    ((births S prm ord cls n reps).map (·.1)).Nodup := by
  classical
  unfold births
  cases rBsum n reps with
  | none => simp
  | some sum =>
    simp only
    split
    · have hnd : (ord (cls.flatMap Cl.reports)).Nodup :=
        ((hord _).trans hperm).nodup_iff.2 List.nodup_range
      generalize ord (cls.flatMap Cl.reports) = l at hnd
      have hsub : ((bornOf S prm sum reps l).map (·.1)).Sublist l := by
        induction l with
        | nil => simp [bornOf]
        | cons j l ih =>
          have ih := ih (List.nodup_cons.1 hnd).2
          unfold bornOf at ih ⊢
          rw [List.filterMap_cons]
          cases hb : (reps j).rB with
          | none => simp only; exact ih.cons _
          | some b =>
            simp only
            split
            · rename_i h
              split at h
              · cases h
              · exact ih.cons _
            · rename_i h
              split at h
              · injection h with h; subst h; exact ih.cons_cons _
              · cases h
      exact hsub.nodup hnd
    · simp

theorem births_length {S : Sensor P R} {prm : Params} {ord : List Nat → List Nat}
    (hord : ∀ l, (ord l).Perm l) {cls : List Cl} {n : Nat} {reps : Nat → Rep R}
    (hperm : (cls.flatMap Cl.reports).Perm (List.range n)) :
    (births S prm ord cls n reps).length ≤ n := by
  have h1 := births_nodup (S := S) (prm := prm) (reps := reps) hord hperm
  have h2 : ((births S prm ord cls n reps).map (·.1)).Subperm (List.range n) := by
    refine h1.subperm fun j hj => ?_
    obtain ⟨⟨j', x⟩, hm, rfl⟩ := List.mem_map.1 hj
    exact List.mem_range.2 (births_mem hord hperm hm).1
  simpa using h2.length_le

/-- Where the ids after a call come from. -/
theorem step_ids {E : Env P R O} (hbox : BoxOk E) {prm : Params} {fuel : Nat}
    {s s' : St P} (hs : Inv E s) {c : Call P R} (hc : CallOk E c)
    (e : step E prm fuel s c = some s') (hn : s.idc + c.reports < 2 ^ 32) :
    ∃ new : List Nat, new.Nodup ∧ new.length ≤ c.reports ∧ s'.idc = s.idc + new.length ∧
      (∀ (k : Nat) a, new[k]? = some a → ∃ t, s'.heap a = some t ∧ t.id = s.idc + k) ∧
      ∀ a ∉ new, ∀ u, s'.heap a = some u → ∃ t, s.heap a = some t ∧ t.id = u.id := by
  cases c with
  | predict m ord =>
    obtain ⟨s1, h1, h2, h3, h4, h5⟩ := predict_spec hbox prm m hc hs.ok
    simp only [step, h1, Option.some.injEq] at e
    subst e
    refine ⟨[], List.nodup_nil, by simp, by simpa using h3, by simp, ?_⟩
    intro a _ u hu
    rw [h4, Option.filter_eq_some_iff, Option.map_eq_some_iff] at hu
    obtain ⟨⟨t, ht, rfl⟩, _⟩ := hu
    exact ⟨t, ht, rfl⟩
  | correct S ch scan dflt =>
    obtain ⟨hf, hch, hz⟩ := hc
    simp only [step, Option.map_eq_some_iff] at e
    obtain ⟨⟨s2, reps⟩, e, rfl⟩ := e
    have hinv : Inv E s2 := step_inv hbox hs (c := .correct S ch scan dflt) ⟨hf, hch, hz⟩
      (prm := prm) (fuel := fuel) (by simp [step, e])
    obtain ⟨cls, s1, rcid, new, h1, h2, h3, h4⟩ := correct_origin hbox hf hch hz hs e
    obtain ⟨cls', s1', rcid', p1, p2, p3, p4, p5, p6, _⟩ := prepare_ok hbox hf hz hs.ok
    rw [h1.prep] at p1
    injection p1 with p1
    obtain ⟨rfl, p1⟩ := Prod.mk.inj p1
    have hlen : new.length ≤ scan.length := by
      rw [h1.len]; exact births_length hch.ord p6
    simp only [Call.reports] at hn
    refine ⟨new, ?_, hlen, ?_, ?_, ?_⟩
    · have := hinv.ok.nodup
      rw [h1.targets, List.nodup_append] at this
      exact this.2.1
    · rw [h1.idc]; exact Nat.mod_eq_of_lt (by omega)
    · intro k a hk
      obtain ⟨j, x, _, hh⟩ := h1.new_born hk
      have := (List.getElem?_eq_some_iff.1 hk).1
      exact ⟨_, hh, Nat.mod_eq_of_lt (by omega)⟩
    · intro a ha u hu
      by_cases hg : Gated E S scan s a
      · obtain ⟨_, t, _, _, _, ht, hid, _⟩ := h4 a ha hg u hu
        exact ⟨t, ht, hid.symm⟩
      · rw [h3 a ha hg] at hu; exact ⟨u, hu, rfl⟩

/-! ## When a call is defined -/

/-- The costs of a call are numbers (possibly plus infinity), and the costs of a target being false
are finite. -/
structure CostsOk (S : Sensor P R) : Prop where
  det : ∀ a r p z, XR.IsC (S.detCost a r p z)
  miss : ∀ a r p, XR.IsC (S.missCost a r p)
  fls : ∀ r, XR.IsFin (S.flsCost r)

theorem compute_total {E : Env P R O} {S : Sensor P R} (hS : CostsOk S) (prm : Params)
    {pick : ∀ r c, List (Node r c) → Nat} (hp : ∀ r c, PickOk (pick r c)) (wt : ℚ → ℝ)
    (ts : List (Nat × Tgt P)) (rs : List R) (hlen : ts.length ≤ 30) :
    ∃ F v, ∀ fuel, F ≤ fuel → compute E S prm pick fuel wt ts rs = some v := by
  by_cases h0 : ts.length = 0
  · obtain rfl := List.length_eq_zero_iff.1 h0
    exact ⟨0, _, fun fuel _ => rfl⟩
  · set o := E.center (rs.map E.rpos ++ ts.map fun t => E.pos t.2.pdf) with ho
    set rl := rs.map (E.rLocal o) with hrl
    set tl := ts.map fun t => (t.1, forth E o t.2) with htl
    have hl : tl.length = ts.length := by simp [htl]
    obtain ⟨F, L, a, g1, _⟩ := hypotheses_spec (M := tl.length) (N := rl.length)
      (C := costMatrix
        (fun i j => S.detCost (tl.get i).1 (tl.get i).2.r (tl.get i).2.pdf (rl.get j))
        (fun i => S.missCost (tl.get i).1 (tl.get i).2.r (tl.get i).2.pdf)
        (fun i => S.flsCost (tl.get i).2.r))
      (costMatrix_ok (fun _ _ => hS.det _ _ _ _) (fun _ => hS.miss _ _ _) (fun _ => hS.fls _))
      (by omega) (by omega) (hp _ _) wt prm.wlim prm.nhypMax
    by_cases hn : a.n = 0
    · refine ⟨F, ⟨0, tl.map fun t => back E t.2, rl.map (E.rGlobal o), rl.map fun _ => some 1⟩,
        fun fuel hfu => ?_⟩
      unfold compute
      simp only [← ho, ← hrl, ← htl]
      rw [if_neg (by omega), g1 fuel hfu]
      simp only [hn, if_true]
    · refine ⟨F, ⟨a.n, List.ofFn fun i => back E (corrected E S (tl.get i).1 (tl.get i).2 rl
          (List.ofFn fun j => a.R i j / a.wsum) (a.rowSum i)), rl.map (E.rGlobal o),
          List.ofFn a.rB⟩, fun fuel hfu => ?_⟩
      unfold compute
      simp only [← ho, ← hrl, ← htl]
      rw [if_neg (by omega), g1 fuel hfu]
      simp only [hn, if_false]
      rfl

theorem compOf_total {E : Env P R O} {S : Sensor P R} (hS : CostsOk S) (prm : Params)
    {pick : ∀ r c, List (Node r c) → Nat} (hp : ∀ r c, PickOk (pick r c)) (wt : ℚ → ℝ)
    {h0 : Nat → Option (Tgt P)} (reps0 : Nat → Rep R) {c : Cl}
    (hl : ∀ a ∈ c.targets, ∃ t, h0 a = some t) (hlen : c.targets.length ≤ 30) :
    ∃ F v, ∀ fuel, F ≤ fuel → compOf E S prm pick fuel wt h0 reps0 c = some v := by
  obtain ⟨ts, hts⟩ := readAll_some hl
  have : ts.length ≤ 30 := by
    have := (readAll_spec hts).1
    rw [← this, List.length_map] at hlen
    exact hlen
  obtain ⟨F, v, h⟩ := compute_total (E := E) hS prm hp wt ts
    (c.reports.map fun j => (reps0 j).val) this
  exact ⟨F, v, fun fuel hfu => by simp only [compOf, hts]; exact h fuel hfu⟩

/-- `correct` terminates and is defined, with a result that does not depend on the fuel, if no
cluster has more than 30 targets. -/
theorem correct_total {E : Env P R O} (hbox : BoxOk E) {S : Sensor P R}
    (hf : S.fovBox.Valid) (hS : CostsOk S) (prm : Params) {ch : Choices} (hch : ChOk ch)
    (hp : ∀ r c, PickOk (ch.pick r c)) {scan : List (Rep R)}
    (hz : ∀ z ∈ scan, (E.rbox z.val).Valid) (dflt : Rep R) {s : St P} (hs : Inv E s)
    (hcl : ∀ cls s1 rcid, prepare E S scan s = some (cls, s1, rcid) →
      ∀ c ∈ cls, c.targets.length ≤ 30) :
    ∃ F res, ∀ fuel, F ≤ fuel → correct E S prm ch fuel scan dflt s = some res := by
  obtain ⟨cls, s1, rcid, p1, p2, p3, p4, p5, p6, p7, _⟩ := prepare_ok hbox hf hz hs.ok
  have hlive : ∀ c ∈ cls, ∀ a ∈ c.targets, ∃ t, s1.heap a = some t := fun c hc a ha =>
    (p3.live a).2 (p2.tin c hc a ha)
  have hall : ∃ F, ∀ c ∈ cls, ∃ v, ∀ fuel, F ≤ fuel →
      compOf E S prm ch.pick fuel ch.wt s1.heap (initReps scan rcid dflt) c = some v := by
    have hlen := hcl cls s1 rcid p1
    clear p1 p2 p6 p7 hcl
    induction cls with
    | nil => exact ⟨0, by simp⟩
    | cons c l ih =>
      obtain ⟨F1, h1⟩ := ih (fun d hd => hlive d (List.mem_cons_of_mem _ hd))
        (fun d hd => hlen d (List.mem_cons_of_mem _ hd))
      obtain ⟨F2, v, h2⟩ := compOf_total (E := E) hS prm hp ch.wt (initReps scan rcid dflt)
        (hlive c List.mem_cons_self) (hlen c List.mem_cons_self)
      refine ⟨max F1 F2, fun d hd => ?_⟩
      rcases List.mem_cons.1 hd with rfl | hd
      · exact ⟨v, fun fuel hfu => h2 fuel (le_trans (le_max_right _ _) hfu)⟩
      · obtain ⟨w, hw⟩ := h1 d hd
        exact ⟨w, fun fuel hfu => hw fuel (le_trans (le_max_left _ _) hfu)⟩
  obtain ⟨F, hF⟩ := hall
  have hstep : ∀ fuel, F ≤ fuel → ∀ i (g : Cfg P R),
      LInv E S prm ch.pick fuel ch.wt s1 (initReps scan rcid dflt) cls g →
      LInv E S prm ch.pick F ch.wt s1 (initReps scan rcid dflt) cls g →
      (∀ i c, cls[i]? = some c → g.pc i ≤ 3) →
      clStep E S prm ch.pick fuel ch.wt cls i g = clStep E S prm ch.pick F ch.wt cls i g := by
    intro fuel hfu i g h1 h2 _
    unfold clStep
    cases hi : cls[i]? with
    | none => rfl
    | some c =>
      simp only
      split
      · rfl
      · rename_i hpc
        obtain ⟨e1, e2⟩ := h1.early i c hi (by omega)
        have hread : readAll g.st.heap c.targets = readAll s1.heap c.targets := readAll_congr e1
        have hreps : (c.reports.map fun j => (g.reps j).val) =
            c.reports.map fun j => (initReps scan rcid dflt j).val :=
          List.map_congr_left fun j hj => by rw [e2 j hj]
        obtain ⟨v, hv⟩ := hF c (List.mem_of_getElem? hi)
        have v1 := hv fuel hfu
        have v2 := hv F (le_refl _)
        unfold compOf at v1 v2
        rw [hread, hreps]
        cases hr : readAll s1.heap c.targets with
        | none => rfl
        | some ts =>
          simp only [hr] at v1 v2 ⊢
          rw [v1, v2]
      · rfl
      · rfl
  have hrun : ∀ fuel, F ≤ fuel → ∀ (l : List Nat) (g : Cfg P R),
      LInv E S prm ch.pick fuel ch.wt s1 (initReps scan rcid dflt) cls g →
      LInv E S prm ch.pick F ch.wt s1 (initReps scan rcid dflt) cls g →
      (∀ i, g.pc i + l.count i = if i < cls.length then 3 else 0) →
      clRun E S prm ch.pick fuel ch.wt cls l g = clRun E S prm ch.pick F ch.wt cls l g := by
    intro fuel hfu l
    induction l with
    | nil => intro g _ _ _; rfl
    | cons i l ih =>
      intro g h1 h2 hs
      have hi := hs i
      simp only [List.count_cons_self] at hi
      have hlt : i < cls.length := by by_contra h; simp [h] at hi
      simp only [hlt, if_true] at hi
      have hc := List.getElem?_eq_getElem hlt
      have hst := hstep fuel hfu i g h1 h2 (fun k c hk => by
        have := hs k
        have h3 := (List.getElem?_eq_some_iff.1 hk).1
        rw [if_pos h3] at this
        omega)
      obtain ⟨v, hv⟩ := hF cls[i] (List.getElem_mem hlt)
      rcases clStep_spec hbox p3 p2 h1 hc (by omega) with ⟨g', q1, q2, q3⟩ | ⟨q1, _⟩
      · rcases clStep_spec hbox p3 p2 h2 hc (by omega) with ⟨g'', r1, r2, r3⟩ | ⟨r1, _⟩
        · have : g' = g'' := by
            rw [hst, r1] at q1; exact (Option.some.inj q1).symm
          subst this
          simp only [clRun, q1, r1]
          apply ih g' q2 r2
          intro k
          rw [q3]
          have hk := hs k
          by_cases hki : k = i
          · subst hki
            simp only [if_true, hlt, List.count_cons_self] at hk ⊢; omega
          · rw [List.count_cons_of_ne (Ne.symm hki)] at hk
            simpa [hki] using hk
        · rw [hv F (le_refl _)] at r1; cases r1
      · rw [hv fuel hfu] at q1; cases q1
  rcases clRun_spec (E := E) hbox (S := S) (prm := prm) (pick := ch.pick) (fuel := F)
    (wt := ch.wt) p3 (reps0 := initReps scan rcid dflt) p2 (ch.sched cls) (hch.sched cls) with
    ⟨⟨c, hc, h1⟩, h2⟩ | ⟨h1, g, h2, h3, h4, h5, h6, h7⟩
  · obtain ⟨v, hv⟩ := hF c hc
    rw [hv F (le_refl _)] at h1; cases h1
  · obtain ⟨s2, new, b1, _⟩ := birth_ok (E := E) hbox (S := S) (prm := prm)
      hch.alloc ch.ord cls scan.length g.reps h3 (by rw [h4, p5]; exact hs.idc)
    refine ⟨F, (s2, g.reps), fun fuel hfu => ?_⟩
    have := hrun fuel hfu (ch.sched cls) ⟨s1, initReps scan rcid dflt, fun _ => 0⟩ (LInv.init p3)
      (LInv.init p3) (fun i => by simpa using hch.sched cls i)
    simp only [correct, p1, this, h2, b1]

end Verif.Tracker

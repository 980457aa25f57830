import Verif.Tracker.Index

/-! # The parallel loop over the clusters: every schedule gives the same result -/

namespace Verif.Tracker

open Verif.RTree (Rect WF items)
open Verif.Cluster (Cl)
open Verif.Hyp Verif.Lap Verif.Murty

variable {P R O : Type}

/-! ## Reading and writing -/

theorem readAll_congr {h h' : Nat → Option (Tgt P)} {l : List Nat} (e : ∀ a ∈ l, h a = h' a) :
    readAll h l = readAll h' l := by
  induction l with
  | nil => rfl
  | cons a l ih =>
    simp only [readAll]
    rw [e a List.mem_cons_self, ih fun b hb => e b (List.mem_cons_of_mem _ hb)]

theorem readAll_some {h : Nat → Option (Tgt P)} {l : List Nat} (hl : ∀ a ∈ l, ∃ t, h a = some t) :
    ∃ ts, readAll h l = some ts := by
  induction l with
  | nil => exact ⟨[], rfl⟩
  | cons a l ih =>
    obtain ⟨t, ht⟩ := hl a List.mem_cons_self
    obtain ⟨ts, hts⟩ := ih fun b hb => hl b (List.mem_cons_of_mem _ hb)
    exact ⟨(a, t) :: ts, by simp only [readAll, ht, hts]⟩

theorem readAll_spec {h : Nat → Option (Tgt P)} {l : List Nat} {ts : List (Nat × Tgt P)}
    (e : readAll h l = some ts) : ts.map (·.1) = l ∧ ∀ x ∈ ts, h x.1 = some x.2 := by
  induction l generalizing ts with
  | nil => simp only [readAll, Option.some.injEq] at e; subst e; simp
  | cons a l ih =>
    simp only [readAll] at e
    cases h1 : h a with
    | none => simp [h1] at e
    | some t =>
      cases h2 : readAll h l with
      | none => simp [h1, h2] at e
      | some ts' =>
        simp only [h1, h2, Option.some.injEq] at e
        subst e
        obtain ⟨i1, i2⟩ := ih h2
        refine ⟨by simp [i1], ?_⟩
        intro x hx
        rcases List.mem_cons.1 hx with rfl | hx
        · exact h1
        · exact i2 x hx

theorem writeAll_notMem {h : Nat → Option (Tgt P)} {l : List Nat} {ts : List (Tgt P)} {a : Nat}
    (ha : a ∉ l) : writeAll h l ts a = h a := by
  induction l generalizing h ts with
  | nil => cases ts <;> rfl
  | cons b l ih =>
    rw [List.mem_cons, not_or] at ha
    cases ts with
    | nil => rfl
    | cons t ts => simp only [writeAll]; rw [ih ha.2]; simp [setHeap, ha.1]

theorem writeAll_mem {h : Nat → Option (Tgt P)} {l : List Nat} {ts : List (Tgt P)} {a : Nat}
    (hnd : l.Nodup) (hlen : ts.length = l.length) :
    a ∈ l → ∃ (k : Nat) (t : Tgt P), l[k]? = some a ∧ ts[k]? = some t ∧ writeAll h l ts a = some t := by
  induction l generalizing h ts with
  | nil => intro ha; simp at ha
  | cons b l ih =>
    intro ha
    rw [List.nodup_cons] at hnd
    cases ts with
    | nil => simp at hlen
    | cons t ts =>
      simp only [List.length_cons, Nat.add_right_cancel_iff] at hlen
      by_cases hab : a = b
      · subst hab
        refine ⟨0, t, rfl, rfl, ?_⟩
        simp only [writeAll]
        rw [writeAll_notMem hnd.1]; simp [setHeap]
      · have ha' : a ∈ l := by simpa [hab] using ha
        obtain ⟨k, t', h1, h2, h3⟩ := ih (h := setHeap h b (some t)) hnd.2 hlen ha'
        exact ⟨k + 1, t', by simpa using h1, by simpa using h2, h3⟩

theorem writeAll_congr {h h' : Nat → Option (Tgt P)} {l : List Nat} {ts : List (Tgt P)} {a : Nat}
    (hlen : ts.length = l.length) (ha : a ∈ l ∨ h a = h' a) :
    writeAll h l ts a = writeAll h' l ts a := by
  induction l generalizing h h' ts with
  | nil =>
    have e : h a = h' a := by simpa using ha
    cases ts <;> exact e
  | cons b l ih =>
    cases ts with
    | nil => simp at hlen
    | cons t ts =>
      simp only [List.length_cons, Nat.add_right_cancel_iff] at hlen
      simp only [writeAll]
      apply ih hlen
      by_cases hab : a = b
      · right; simp [setHeap, hab]
      · rcases ha with ha | ha
        · left; simpa [hab] using ha
        · right; simp [setHeap, hab, ha]

theorem writeReps_notMem {reps : Nat → Rep R} {l : List Nat} {vs : List R} {bs : List (Option ℝ)}
    {j : Nat} (hj : j ∉ l) : writeReps reps l vs bs j = reps j := by
  induction l generalizing reps vs bs with
  | nil => simp [writeReps]
  | cons b l ih =>
    rw [List.mem_cons, not_or] at hj
    cases vs with
    | nil => simp [writeReps]
    | cons v vs =>
      cases bs with
      | nil => simp [writeReps]
      | cons x bs => simp only [writeReps]; rw [ih hj.2]; simp [hj.1]

theorem writeReps_mem {reps : Nat → Rep R} {l : List Nat} {vs : List R} {bs : List (Option ℝ)}
    {j : Nat} (hnd : l.Nodup) (h1 : vs.length = l.length) (h2 : bs.length = l.length) :
    j ∈ l → ∃ (k : Nat) (v : R) (b : Option ℝ), l[k]? = some j ∧ vs[k]? = some v ∧ bs[k]? = some b ∧
      writeReps reps l vs bs j = ⟨v, b, (reps j).cid⟩ := by
  induction l generalizing reps vs bs with
  | nil => intro hj; simp at hj
  | cons i l ih =>
    intro hj
    rw [List.nodup_cons] at hnd
    cases vs with
    | nil => simp at h1
    | cons v vs =>
      cases bs with
      | nil => simp at h2
      | cons b bs =>
        simp only [List.length_cons, Nat.add_right_cancel_iff] at h1 h2
        by_cases hji : j = i
        · subst hji
          refine ⟨0, v, b, rfl, rfl, rfl, ?_⟩
          simp only [writeReps]
          rw [writeReps_notMem hnd.1]; simp
        · have hj' : j ∈ l := by simpa [hji] using hj
          obtain ⟨k, v', b', e1, e2, e3, e4⟩ := ih
            (reps := fun k => if k = i then ⟨v, b, (reps i).cid⟩ else reps k) hnd.2 h1 h2 hj'
          refine ⟨k + 1, v', b', by simpa using e1, by simpa using e2, by simpa using e3, ?_⟩
          simp only [writeReps]
          rw [e4]; simp [hji]

theorem writeReps_congr {reps reps' : Nat → Rep R} {l : List Nat} {vs : List R}
    {bs : List (Option ℝ)} {j : Nat} (e : reps j = reps' j) :
    writeReps reps l vs bs j = writeReps reps' l vs bs j := by
  induction l generalizing reps reps' vs bs with
  | nil => simp only [writeReps]; exact e
  | cons i l ih =>
    cases vs with
    | nil => simp only [writeReps]; exact e
    | cons v vs =>
      cases bs with
      | nil => simp only [writeReps]; exact e
      | cons b bs =>
        simp only [writeReps]
        apply ih
        by_cases hji : j = i
        · subst hji; simp [e]
        · simp [hji, e]

/-! ## The computation of one cluster -/

theorem compute_length {E : Env P R O} {S : Sensor P R} {prm : Params}
    {pick : ∀ r c, List (Node r c) → Nat} {fuel : Nat} {wt : ℚ → ℝ} {ts : List (Nat × Tgt P)}
    {rs : List R} {v : Comp P R} (e : compute E S prm pick fuel wt ts rs = some v) :
    v.ts.length = ts.length ∧ v.rs.length = rs.length ∧ v.rB.length = rs.length ∧
      ∀ (k : Nat) (t : Tgt P), v.ts[k]? = some t → ∃ (x : Nat × Tgt P), ts[k]? = some x ∧
        t.id = x.2.id ∧ t.cid = x.2.cid := by
  unfold compute at e
  simp only at e
  split at e
  · rename_i h0
    simp only [List.length_map] at h0
    injection e with e
    subst e
    simp [h0]
  · split at e
    · cases e
    · rename_i a ha
      split at e
      · injection e with e
        subst e
        simp only [List.length_map, true_and]
        intro k t ht
        rw [List.map_map, List.getElem?_map, Option.map_eq_some_iff] at ht
        obtain ⟨x, hx, rfl⟩ := ht
        exact ⟨x, hx, rfl, rfl⟩
      · injection e with e
        subst e
        simp only [List.length_map, List.length_ofFn, true_and]
        intro k t ht
        rw [List.getElem?_ofFn] at ht
        simp only [Option.dite_none_right_eq_some, Option.some.injEq] at ht
        obtain ⟨hk, rfl⟩ := ht
        have hk' : k < ts.length := by simpa using hk
        refine ⟨ts[k], List.getElem?_eq_getElem hk', ?_, ?_⟩
        · simp only [back, corrected, List.get_eq_getElem, List.getElem_map, forth]; rfl
        · simp only [back, corrected, List.get_eq_getElem, List.getElem_map, forth]; rfl

section
variable (E : Env P R O) (S : Sensor P R) (prm : Params) (pick : ∀ r c, List (Node r c) → Nat)
  (fuel : Nat) (wt : ℚ → ℝ) (h0 : Nat → Option (Tgt P)) (reps0 : Nat → Rep R)

/-- What a cluster computes when it starts from the given heap and reports. -/
noncomputable def compOf (c : Cl) : Option (Comp P R) :=
  match readAll h0 c.targets with
  | none => none
  | some ts => compute E S prm pick fuel wt ts (c.reports.map fun j => (reps0 j).val)

/-- The targets after the computation of the clusters: a target is written by its cluster. -/
noncomputable def midHeap (cls : List Cl) (a : Nat) : Option (Tgt P) :=
  match cls.find? (fun c => c.targets.contains a) with
  | none => h0 a
  | some c =>
    match compOf E S prm pick fuel wt h0 reps0 c with
    | none => none
    | some v => writeAll h0 c.targets v.ts a

/-- The heap after the parallel loop: clustered targets that are not viable are gone. -/
noncomputable def finalHeap (cls : List Cl) (a : Nat) : Option (Tgt P) :=
  if cls.any (fun c => c.targets.contains a) then
    (midHeap E S prm pick fuel wt h0 reps0 cls a).filter fun t => viable E prm t
  else h0 a

/-- The reports after the parallel loop: a report is written by its cluster. -/
noncomputable def finalReps (cls : List Cl) (j : Nat) : Rep R :=
  match cls.find? (fun c => c.reports.contains j) with
  | none => reps0 j
  | some c =>
    match compOf E S prm pick fuel wt h0 reps0 c with
    | none => reps0 j
    | some v => writeReps reps0 c.reports v.rs v.rB j

end

/-- In a list of clusters with pairwise different targets, the cluster of a target is found. -/
theorem find_targets {cls : List Cl} (hnd : (cls.flatMap Cl.targets).Nodup) {i : Nat} {c : Cl}
    (hc : cls[i]? = some c) {a : Nat} (ha : a ∈ c.targets) :
    cls.find? (fun c => c.targets.contains a) = some c ∧
      ∀ k c', cls[k]? = some c' → a ∈ c'.targets → k = i := by
  induction cls generalizing i with
  | nil => simp at hc
  | cons d cls ih =>
    rw [List.flatMap_cons, List.nodup_append] at hnd
    obtain ⟨n1, n2, n3⟩ := hnd
    cases i with
    | zero =>
      simp only [List.getElem?_cons_zero, Option.some.injEq] at hc
      subst hc
      refine ⟨by simp [ha], ?_⟩
      intro k c' hk hac
      cases k with
      | zero => rfl
      | succ k =>
        rw [List.getElem?_cons_succ] at hk
        exact absurd rfl (n3 a ha a (List.mem_flatMap.2 ⟨c', List.mem_of_getElem? hk, hac⟩))
    | succ i =>
      rw [List.getElem?_cons_succ] at hc
      have had : a ∉ d.targets := fun h =>
        absurd rfl (n3 a h a (List.mem_flatMap.2 ⟨c, List.mem_of_getElem? hc, ha⟩))
      obtain ⟨i1, i2⟩ := ih n2 hc
      refine ⟨by simpa [had] using i1, ?_⟩
      intro k c' hk hac
      cases k with
      | zero =>
        simp only [List.getElem?_cons_zero, Option.some.injEq] at hk
        subst hk
        exact absurd hac had
      | succ k =>
        rw [List.getElem?_cons_succ] at hk
        rw [i2 k c' hk hac]

theorem find_reports {cls : List Cl} (hnd : (cls.flatMap Cl.reports).Nodup) {i : Nat} {c : Cl}
    (hc : cls[i]? = some c) {a : Nat} (ha : a ∈ c.reports) :
    cls.find? (fun c => c.reports.contains a) = some c ∧
      ∀ k c', cls[k]? = some c' → a ∈ c'.reports → k = i := by
  induction cls generalizing i with
  | nil => simp at hc
  | cons d cls ih =>
    rw [List.flatMap_cons, List.nodup_append] at hnd
    obtain ⟨n1, n2, n3⟩ := hnd
    cases i with
    | zero =>
      simp only [List.getElem?_cons_zero, Option.some.injEq] at hc
      subst hc
      refine ⟨by simp [ha], ?_⟩
      intro k c' hk hac
      cases k with
      | zero => rfl
      | succ k =>
        rw [List.getElem?_cons_succ] at hk
        exact absurd rfl (n3 a ha a (List.mem_flatMap.2 ⟨c', List.mem_of_getElem? hk, hac⟩))
    | succ i =>
      rw [List.getElem?_cons_succ] at hc
      have had : a ∉ d.reports := fun h =>
        absurd rfl (n3 a h a (List.mem_flatMap.2 ⟨c, List.mem_of_getElem? hc, ha⟩))
      obtain ⟨i1, i2⟩ := ih n2 hc
      refine ⟨by simpa [had] using i1, ?_⟩
      intro k c' hk hac
      cases k with
      | zero =>
        simp only [List.getElem?_cons_zero, Option.some.injEq] at hk
        subst hk
        exact absurd hac had
      | succ k =>
        rw [List.getElem?_cons_succ] at hk
        rw [i2 k c' hk hac]

/-- The conditions on the clusters under which the loop runs. -/
structure ClOk (s0 : St P) (cls : List Cl) : Prop where
  tnd : (cls.flatMap Cl.targets).Nodup
  rnd : (cls.flatMap Cl.reports).Nodup
  tin : ∀ c ∈ cls, ∀ a ∈ c.targets, a ∈ s0.targets

/-- Invariant of the loop. -/
structure LInv (E : Env P R O) (S : Sensor P R) (prm : Params)
    (pick : ∀ r c, List (Node r c) → Nat) (fuel : Nat) (wt : ℚ → ℝ) (s0 : St P)
    (reps0 : Nat → Rep R) (cls : List Cl) (g : Cfg P R) : Prop where
  ok : Ok E g.st fun a => ∃ i c, cls[i]? = some c ∧ a ∈ c.targets ∧ (g.pc i = 1 ∨ g.pc i = 2)
  idc : g.st.idc = s0.idc
  tgt : g.st.targets = s0.targets.filter fun a => (g.st.heap a).isSome
  early : ∀ i c, cls[i]? = some c → g.pc i ≤ 1 → (∀ a ∈ c.targets, g.st.heap a = s0.heap a) ∧
    ∀ j ∈ c.reports, g.reps j = reps0 j
  late : ∀ i c, cls[i]? = some c → 2 ≤ g.pc i → ∃ v,
    compOf E S prm pick fuel wt s0.heap reps0 c = some v ∧
    (∀ a ∈ c.targets, g.st.heap a = if g.pc i = 2 then writeAll s0.heap c.targets v.ts a else
      (writeAll s0.heap c.targets v.ts a).filter fun t => viable E prm t) ∧
    ∀ j ∈ c.reports, g.reps j = writeReps reps0 c.reports v.rs v.rB j
  rest : ∀ a, (∀ c ∈ cls, a ∉ c.targets) → g.st.heap a = s0.heap a
  rrest : ∀ j, (∀ c ∈ cls, j ∉ c.reports) → g.reps j = reps0 j

theorem compOf_length {E : Env P R O} {S : Sensor P R} {prm : Params}
    {pick : ∀ r c, List (Node r c) → Nat} {fuel : Nat} {wt : ℚ → ℝ} {h0 : Nat → Option (Tgt P)}
    {reps0 : Nat → Rep R} {c : Cl} {v : Comp P R}
    (e : compOf E S prm pick fuel wt h0 reps0 c = some v) :
    v.ts.length = c.targets.length ∧ v.rs.length = c.reports.length ∧
      v.rB.length = c.reports.length ∧
      ∀ (k : Nat) (t : Tgt P), v.ts[k]? = some t → ∃ (a : Nat) (x : Tgt P),
        c.targets[k]? = some a ∧ h0 a = some x ∧ t.id = x.id ∧ t.cid = x.cid := by
  unfold compOf at e
  cases hr : readAll h0 c.targets with
  | none => simp [hr] at e
  | some ts =>
    simp only [hr] at e
    obtain ⟨h1, h2, h3, h4⟩ := compute_length e
    obtain ⟨m1, m2⟩ := readAll_spec hr
    have hlen : ts.length = c.targets.length := by rw [← m1]; simp
    refine ⟨h1.trans hlen, by simpa using h2, by simpa using h3, ?_⟩
    intro k t ht
    obtain ⟨x, hx, hi, hcid⟩ := h4 k t ht
    refine ⟨x.1, x.2, ?_, m2 x (List.mem_of_getElem? hx), hi, hcid⟩
    rw [← m1, List.getElem?_map, hx]; rfl

theorem LInv.init {E : Env P R O} {S : Sensor P R} {prm : Params}
    {pick : ∀ r c, List (Node r c) → Nat} {fuel : Nat} {wt : ℚ → ℝ} {s0 : St P}
    {reps0 : Nat → Rep R} {cls : List Cl} (h : Ok E s0 fun _ => False) :
    LInv E S prm pick fuel wt s0 reps0 cls ⟨s0, reps0, fun _ => 0⟩ := by
  refine ⟨h.congr ?_, rfl, ?_, ?_, ?_, fun _ _ => rfl, fun _ _ => rfl⟩
  · intro a _
    simp
  · symm
    rw [List.filter_eq_self]
    intro a ha
    obtain ⟨t, ht⟩ := (h.live a).2 ha
    simp [ht]
  · intro i c _ _; exact ⟨fun _ _ => rfl, fun _ _ => rfl⟩
  · intro i c _ h; simp at h

theorem clStep_spec {E : Env P R O} (hbox : BoxOk E) {S : Sensor P R} {prm : Params}
    {pick : ∀ r c, List (Node r c) → Nat} {fuel : Nat} {wt : ℚ → ℝ} {s0 : St P}
    (hs0 : Ok E s0 fun _ => False)
    {reps0 : Nat → Rep R} {cls : List Cl} (hcl : ClOk s0 cls) {g : Cfg P R}
    (hg : LInv E S prm pick fuel wt s0 reps0 cls g) {i : Nat} {c : Cl} (hi : cls[i]? = some c)
    (hpc : g.pc i < 3) :
    (∃ g', clStep E S prm pick fuel wt cls i g = some g' ∧
      LInv E S prm pick fuel wt s0 reps0 cls g' ∧
      g'.pc = fun k => if k = i then g.pc i + 1 else g.pc k) ∨
    (compOf E S prm pick fuel wt s0.heap reps0 c = none ∧
      clStep E S prm pick fuel wt cls i g = none) := by
  have hcm : c ∈ cls := List.mem_of_getElem? hi
  have hcnd : c.targets.Nodup := by
    have := (List.nodup_flatMap.1 hcl.tnd).1
    exact this c hcm
  have hrnd : c.reports.Nodup := (List.nodup_flatMap.1 hcl.rnd).1 c hcm
  have huniq : ∀ k c', cls[k]? = some c' → ∀ a, a ∈ c.targets → a ∈ c'.targets → k = i :=
    fun k c' hk a ha ha' => (find_targets hcl.tnd hi ha).2 k c' hk ha'
  have hruniq : ∀ k c', cls[k]? = some c' → ∀ a, a ∈ c.reports → a ∈ c'.reports → k = i :=
    fun k c' hk a ha ha' => (find_reports hcl.rnd hi ha).2 k c' hk ha'
  have hci : ∀ c', cls[i]? = some c' → c' = c := by
    intro c' h; rw [hi] at h; exact (Option.some.inj h).symm
  have hlive : ∀ a ∈ c.targets, ∃ t, s0.heap a = some t := fun a ha =>
    (hs0.live a).2 (hcl.tin c hcm a ha)
  have hoth : ∀ k c', cls[k]? = some c' → k ≠ i → ∀ a ∈ c'.targets, a ∉ c.targets :=
    fun k c' hk hki a ha ha' => hki (huniq k c' hk a ha' ha)
  have hroth : ∀ k c', cls[k]? = some c' → k ≠ i → ∀ a ∈ c'.reports, a ∉ c.reports :=
    fun k c' hk hki a ha ha' => hki (hruniq k c' hk a ha' ha)
  have hout : ∀ a ∈ c.targets, ∀ {p : Nat → Prop},
      (∃ k c', cls[k]? = some c' ∧ a ∈ c'.targets ∧ p k) ↔ p i := by
    intro a ha p
    constructor
    · rintro ⟨k, c', hk, ha', hp⟩
      rwa [huniq k c' hk a ha ha'] at hp
    · intro hp; exact ⟨i, c, hi, ha, hp⟩
  obtain hp | hp | hp : g.pc i = 0 ∨ g.pc i = 1 ∨ g.pc i = 2 := by omega
  · -- first critical section
    left
    obtain ⟨e1, e2⟩ := hg.early i c hi (by omega)
    obtain ⟨s', f1, f2, f3, f4, f5⟩ := removeLoop_ok hbox c.targets hg.ok hcnd (by
      intro a ha
      obtain ⟨t, ht⟩ := hlive a ha
      refine ⟨(hg.ok.live a).1 ⟨t, by rw [e1 a ha, ht]⟩, ?_⟩
      rw [hout a ha]; omega)
    refine ⟨⟨s', g.reps, fun k => if k = i then g.pc i + 1 else g.pc k⟩,
      by simp only [clStep, hi, hp, f1], ⟨f5.congr ?_, f4.trans hg.idc, ?_, ?_, ?_, ?_, hg.rrest⟩, rfl⟩
    · intro a _
      by_cases ha : a ∈ c.targets
      · rw [hout a ha, hout a ha]; simp [ha, hp]
      · simp only [ha, or_false]
        constructor
        · rintro ⟨k, c', hk, ha', hpk⟩
          have : k ≠ i := by rintro rfl; rw [hci c' hk] at ha'; exact ha ha'
          exact ⟨k, c', hk, ha', by simpa [this] using hpk⟩
        · rintro ⟨k, c', hk, ha', hpk⟩
          have : k ≠ i := by rintro rfl; rw [hci c' hk] at ha'; exact ha ha'
          exact ⟨k, c', hk, ha', by simpa [this] using hpk⟩
    · simp only [f2, f3]; exact hg.tgt
    · intro k c' hk hpk
      simp only [f2]
      by_cases hki : k = i
      · subst hki; exact hg.early k c' hk (by omega)
      · simp only [hki, if_false] at hpk; exact hg.early k c' hk hpk
    · intro k c' hk hpk
      simp only [f2]
      by_cases hki : k = i
      · subst hki; simp only [if_true] at hpk; omega
      · simp only [hki, if_false] at hpk ⊢; exact hg.late k c' hk hpk
    · simp only [f2]; exact hg.rest
  · -- computation
    obtain ⟨e1, e2⟩ := hg.early i c hi (by omega)
    have hread : readAll g.st.heap c.targets = readAll s0.heap c.targets := readAll_congr e1
    have hreps : (c.reports.map fun j => (g.reps j).val) = c.reports.map fun j => (reps0 j).val :=
      List.map_congr_left fun j hj => by rw [e2 j hj]
    obtain ⟨ts, hts⟩ := readAll_some hlive
    cases hv : compOf E S prm pick fuel wt s0.heap reps0 c with
    | none =>
      right
      refine ⟨rfl, ?_⟩
      simp only [compOf, hts] at hv
      simp only [clStep, hi, hp, hread, hreps, hts, hv]
    | some v =>
      left
      obtain ⟨l1, l2, l3, _⟩ := compOf_length hv
      have hv' := hv
      simp only [compOf, hts] at hv'
      refine ⟨⟨{ g.st with heap := writeAll g.st.heap c.targets v.ts },
        writeReps g.reps c.reports v.rs v.rB, fun k => if k = i then g.pc i + 1 else g.pc k⟩, by
        simp only [clStep, hi, hp, hread, hreps, hts, hv'], ?_, rfl⟩
      have hsome : ∀ a, (writeAll g.st.heap c.targets v.ts a).isSome = (g.st.heap a).isSome := by
        intro a
        by_cases ha : a ∈ c.targets
        · obtain ⟨k, t, _, _, h3⟩ := writeAll_mem (h := g.st.heap) hcnd l1 ha
          obtain ⟨t', ht'⟩ := hlive a ha
          rw [h3, e1 a ha, ht']; rfl
        · rw [writeAll_notMem ha]
      refine ⟨⟨hg.ok.wf, hg.ok.nodup, ?_, hg.ok.inod, ?_⟩, hg.idc, ?_, ?_, ?_, ?_, ?_⟩
      · intro a
        have := hg.ok.live a
        rw [← Option.isSome_iff_exists] at this ⊢
        rw [← this]
        simp only [hsome]
      · intro r a
        have := hg.ok.imem r a
        simp only
        rw [this]
        by_cases ha : a ∈ c.targets
        · rw [hout a ha, hout a ha]
          simp only [if_true, hp]
          simp
        · rw [writeAll_notMem ha]
          apply and_congr_right
          intro _
          apply and_congr_left
          intro _
          apply not_congr
          constructor
          · rintro ⟨k, c', hk, ha', hpk⟩
            have : k ≠ i := by rintro rfl; rw [hci c' hk] at ha'; exact ha ha'
            exact ⟨k, c', hk, ha', by simpa [this] using hpk⟩
          · rintro ⟨k, c', hk, ha', hpk⟩
            have : k ≠ i := by rintro rfl; rw [hci c' hk] at ha'; exact ha ha'
            exact ⟨k, c', hk, ha', by simpa [this] using hpk⟩
      · simp only [hsome]; exact hg.tgt
      · intro k c' hk hpk
        by_cases hki : k = i
        · subst hki; simp only [if_true] at hpk; omega
        · simp only [hki, if_false] at hpk
          obtain ⟨q1, q2⟩ := hg.early k c' hk hpk
          refine ⟨fun a ha => ?_, fun j hj => ?_⟩
          · simp only; rw [writeAll_notMem (hoth k c' hk hki a ha)]; exact q1 a ha
          · simp only; rw [writeReps_notMem (hroth k c' hk hki j hj)]; exact q2 j hj
      · intro k c' hk hpk
        by_cases hki : k = i
        · subst hki
          rw [hci c' hk]
          refine ⟨v, hv, fun a ha => ?_, fun j hj => ?_⟩
          · simp only [hp, if_true]
            exact writeAll_congr l1 (Or.inl ha)
          · exact writeReps_congr (e2 j hj)
        · simp only [hki, if_false] at hpk ⊢
          obtain ⟨v', q1, q2, q3⟩ := hg.late k c' hk hpk
          refine ⟨v', q1, fun a ha => ?_, fun j hj => ?_⟩
          · rw [writeAll_notMem (hoth k c' hk hki a ha)]; exact q2 a ha
          · rw [writeReps_notMem (hroth k c' hk hki j hj)]; exact q3 j hj
      · intro a ha
        simp only
        rw [writeAll_notMem (ha c hcm)]; exact hg.rest a ha
      · intro j hj
        simp only
        rw [writeReps_notMem (hj c hcm)]; exact hg.rrest j hj
  · -- second critical section
    left
    obtain ⟨v, hv, v1, v2⟩ := hg.late i c hi (by omega)
    obtain ⟨l1, l2, l3, _⟩ := compOf_length hv
    obtain ⟨s', f1, f2, f3, f4, f5⟩ := settle_ok hbox prm c.targets hg.ok hcnd (by
      intro a ha
      obtain ⟨k, t, _, _, h3⟩ := writeAll_mem (h := s0.heap) hcnd l1 ha
      have := v1 a ha
      rw [if_pos hp, h3] at this
      refine ⟨(hg.ok.live a).1 ⟨t, this⟩, ?_⟩
      rw [hout a ha]; exact Or.inr hp)
    have hne : ∀ a, a ∉ c.targets → s'.heap a = g.st.heap a := by
      intro a ha; rw [f2, settleHeap, if_neg ha]
    refine ⟨⟨s', g.reps, fun k => if k = i then g.pc i + 1 else g.pc k⟩,
      by simp only [clStep, hi, hp, f1], ⟨f5.congr ?_, f4.trans hg.idc, ?_, ?_, ?_, ?_, hg.rrest⟩, rfl⟩
    · intro a _
      by_cases ha : a ∈ c.targets
      · rw [hout a ha, hout a ha]; simp [ha, hp]
      · simp only [ha, not_false_eq_true, and_true]
        constructor
        · rintro ⟨k, c', hk, ha', hpk⟩
          have : k ≠ i := by rintro rfl; rw [hci c' hk] at ha'; exact ha ha'
          exact ⟨k, c', hk, ha', by simpa [this] using hpk⟩
        · rintro ⟨k, c', hk, ha', hpk⟩
          have : k ≠ i := by rintro rfl; rw [hci c' hk] at ha'; exact ha ha'
          exact ⟨k, c', hk, ha', by simpa [this] using hpk⟩
    · simp only
      rw [f3, hg.tgt, List.filter_filter]
      apply List.filter_congr
      intro a _
      rw [f2]
      have : (settleHeap E prm c.targets g.st.heap a).isSome = true →
          (g.st.heap a).isSome = true := by
        unfold settleHeap
        split
        · cases g.st.heap a <;> simp
        · exact id
      revert this
      cases (settleHeap E prm c.targets g.st.heap a).isSome <;>
        cases (g.st.heap a).isSome <;> simp
    · intro k c' hk hpk
      by_cases hki : k = i
      · subst hki; simp only [if_true] at hpk; omega
      · simp only [hki, if_false] at hpk
        obtain ⟨q1, q2⟩ := hg.early k c' hk hpk
        exact ⟨fun a ha => by rw [hne a (hoth k c' hk hki a ha)]; exact q1 a ha, q2⟩
    · intro k c' hk hpk
      by_cases hki : k = i
      · subst hki
        rw [hci c' hk]
        refine ⟨v, hv, fun a ha => ?_, v2⟩
        simp only [hp, if_true]
        rw [f2, settleHeap, if_pos ha, v1 a ha, if_pos hp]
        simp
      · simp only [hki, if_false] at hpk ⊢
        obtain ⟨v', q1, q2, q3⟩ := hg.late k c' hk hpk
        exact ⟨v', q1, fun a ha => by rw [hne a (hoth k c' hk hki a ha)]; exact q2 a ha, q3⟩
    · intro a ha
      rw [hne a (ha c hcm)]; exact hg.rest a ha

/-- What the loop leaves behind when all clusters are done. -/
theorem LInv.final {E : Env P R O} {S : Sensor P R} {prm : Params}
    {pick : ∀ r c, List (Node r c) → Nat} {fuel : Nat} {wt : ℚ → ℝ} {s0 : St P}
    {reps0 : Nat → Rep R} {cls : List Cl} (hcl : ClOk s0 cls) {g : Cfg P R}
    (hg : LInv E S prm pick fuel wt s0 reps0 cls g) (hpc : ∀ i < cls.length, g.pc i = 3) :
    Ok E g.st (fun _ => False) ∧ g.st.idc = s0.idc ∧
    g.st.heap = finalHeap E S prm pick fuel wt s0.heap reps0 cls ∧
    g.st.targets = s0.targets.filter
      (fun a => (finalHeap E S prm pick fuel wt s0.heap reps0 cls a).isSome) ∧
    g.reps = finalReps E S prm pick fuel wt s0.heap reps0 cls ∧
    ∀ c ∈ cls, ∃ v, compOf E S prm pick fuel wt s0.heap reps0 c = some v := by
  have hpc' : ∀ i c, cls[i]? = some c → g.pc i = 3 := by
    intro i c hi
    exact hpc i (List.getElem?_eq_some_iff.1 hi).1
  have hh : g.st.heap = finalHeap E S prm pick fuel wt s0.heap reps0 cls := by
    funext a
    unfold finalHeap
    by_cases hex : ∃ c ∈ cls, a ∈ c.targets
    · obtain ⟨c, hc, ha⟩ := hex
      obtain ⟨i, hi⟩ := List.mem_iff_getElem?.1 hc
      obtain ⟨v, v1, v2, _⟩ := hg.late i c hi (by rw [hpc' i c hi]; decide)
      rw [v2 a ha, hpc' i c hi, if_neg (by decide), if_pos (by
        rw [List.any_eq_true]; exact ⟨c, hc, by simpa using ha⟩)]
      unfold midHeap
      rw [(find_targets hcl.tnd hi ha).1]
      simp only [v1]
    · have : ∀ c ∈ cls, a ∉ c.targets := fun c hc ha => hex ⟨c, hc, ha⟩
      rw [if_neg (by
        rw [List.any_eq_true]
        rintro ⟨c, hc, ha⟩
        exact this c hc (by simpa using ha))]
      exact hg.rest a this
  refine ⟨hg.ok.congr ?_, hg.idc, hh, ?_, ?_, ?_⟩
  · intro a _
    simp only [iff_false]
    rintro ⟨i, c, hi, _, hp⟩
    rw [hpc' i c hi] at hp
    omega
  · rw [hg.tgt, hh]
  · funext j
    unfold finalReps
    by_cases hex : ∃ c ∈ cls, j ∈ c.reports
    · obtain ⟨c, hc, ha⟩ := hex
      obtain ⟨i, hi⟩ := List.mem_iff_getElem?.1 hc
      obtain ⟨v, v1, _, v2⟩ := hg.late i c hi (by rw [hpc' i c hi]; decide)
      rw [v2 j ha, (find_reports hcl.rnd hi ha).1]
      simp only [v1]
    · have : ∀ c ∈ cls, j ∉ c.reports := fun c hc ha => hex ⟨c, hc, ha⟩
      rw [List.find?_eq_none.2 (fun c hc => by simpa using this c hc)]
      exact hg.rrest j this
  · intro c hc
    obtain ⟨i, hi⟩ := List.mem_iff_getElem?.1 hc
    obtain ⟨v, v1, _, v2⟩ := hg.late i c hi (by rw [hpc' i c hi]; decide)
    exact ⟨v, v1⟩

/-- A schedule in which every cluster runs to its end. -/
def Complete (cls : List Cl) (sched : List Nat) : Prop :=
  ∀ i, sched.count i = if i < cls.length then 3 else 0

theorem clRun_inv {E : Env P R O} (hbox : BoxOk E) {S : Sensor P R} {prm : Params}
    {pick : ∀ r c, List (Node r c) → Nat} {fuel : Nat} {wt : ℚ → ℝ} {s0 : St P}
    (hs0 : Ok E s0 fun _ => False)
    {reps0 : Nat → Rep R} {cls : List Cl} (hcl : ClOk s0 cls) (sched : List Nat) {g : Cfg P R}
    (hg : LInv E S prm pick fuel wt s0 reps0 cls g)
    (hs : ∀ i, g.pc i + sched.count i = if i < cls.length then 3 else 0) :
    (∃ g', clRun E S prm pick fuel wt cls sched g = some g' ∧
      LInv E S prm pick fuel wt s0 reps0 cls g' ∧ ∀ i < cls.length, g'.pc i = 3) ∨
    ((∃ c ∈ cls, compOf E S prm pick fuel wt s0.heap reps0 c = none) ∧
      clRun E S prm pick fuel wt cls sched g = none) := by
  induction sched generalizing g with
  | nil =>
    left
    refine ⟨g, rfl, hg, ?_⟩
    intro i hi
    simpa [hi] using hs i
  | cons i l ih =>
    have hi := hs i
    simp only [List.count_cons_self] at hi
    have hlt : i < cls.length := by by_contra h; simp [h] at hi
    simp only [hlt, if_true] at hi
    have hc := List.getElem?_eq_getElem hlt
    rcases clStep_spec hbox hs0 hcl hg hc (by omega) with ⟨g', h1, h2, h3⟩ | ⟨h1, h2⟩
    · simp only [clRun, h1]
      apply ih h2
      intro k
      rw [h3]
      have hk := hs k
      by_cases hki : k = i
      · subst hki
        simp only [if_true, hlt, List.count_cons_self] at hk ⊢; omega
      · rw [List.count_cons_of_ne (Ne.symm hki)] at hk
        simpa [hki] using hk
    · right
      exact ⟨⟨_, List.getElem_mem hlt, h1⟩, by simp only [clRun, h2]⟩

/-- **The parallel loop.**  Under every schedule in which each cluster runs to its end the loop has
the same outcome: it fails if and only if the computation of some cluster fails; otherwise heap,
list of targets and reports are the given ones, and the index holds exactly the listed targets. -/
theorem clRun_spec {E : Env P R O} (hbox : BoxOk E) {S : Sensor P R} {prm : Params}
    {pick : ∀ r c, List (Node r c) → Nat} {fuel : Nat} {wt : ℚ → ℝ} {s0 : St P}
    (hs0 : Ok E s0 fun _ => False)
    {reps0 : Nat → Rep R} {cls : List Cl} (hcl : ClOk s0 cls) (sched : List Nat)
    (hs : Complete cls sched) :
    ((∃ c ∈ cls, compOf E S prm pick fuel wt s0.heap reps0 c = none) ∧
      clRun E S prm pick fuel wt cls sched ⟨s0, reps0, fun _ => 0⟩ = none) ∨
    ((∀ c ∈ cls, ∃ v, compOf E S prm pick fuel wt s0.heap reps0 c = some v) ∧
      ∃ g, clRun E S prm pick fuel wt cls sched ⟨s0, reps0, fun _ => 0⟩ = some g ∧
      Ok E g.st (fun _ => False) ∧ g.st.idc = s0.idc ∧
      g.st.heap = finalHeap E S prm pick fuel wt s0.heap reps0 cls ∧
      g.st.targets = s0.targets.filter
        (fun a => (finalHeap E S prm pick fuel wt s0.heap reps0 cls a).isSome) ∧
      g.reps = finalReps E S prm pick fuel wt s0.heap reps0 cls) := by
  rcases clRun_inv hbox hs0 hcl sched (LInv.init hs0) (fun i => by simpa using hs i) with
    ⟨g, h1, h2, h3⟩ | ⟨h1, h2⟩
  · right
    obtain ⟨f1, f2, f3, f4, f5, f6⟩ := LInv.final hcl h2 h3
    exact ⟨f6, g, h1, f1, f2, f3, f4, f5⟩
  · exact Or.inl ⟨h1, h2⟩

end Verif.Tracker

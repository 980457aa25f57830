import Verif.Tracker.Model
import Verif.RTree.Props

/-! # The target list, the heap and the index under the primitive operations -/

namespace Verif.Tracker

open Verif.RTree (Rect WF items)

variable {P R O : Type}

/-- What is required of the boxes of densities: `min ≤ max`, and coordinates in the range in which
the area arithmetic of the index works (no bound for exact arithmetic, `boxOk_exact`; `±2²³` for
`double`, `Verif/RTreeF/Tracker.lean`). -/
def BoxOk (E : Env P R O) : Prop :=
  ∃ Bd, E.areas.Ok Bd ∧ ∀ p, RTree.Good Bd (E.box p)

theorem BoxOk.valid {E : Env P R O} (h : BoxOk E) (p : P) : (E.box p).Valid := by
  obtain ⟨_, _, h⟩ := h
  exact (h p).1

theorem boxOk_exact {E : Env P R O} (he : E.areas = .exact) (h : ∀ p, (E.box p).Valid) :
    BoxOk E :=
  ⟨RTree.NoBd, by rw [he]; exact RTree.exact_ok, fun p => RTree.good_noBd.2 (h p)⟩

/-- Agreement of heap, target list and index, where the targets in `out` are taken out of the
index: the live addresses are the listed ones, and the index holds one entry for each listed target
not in `out`, under its current box, and nothing else. -/
structure Ok (E : Env P R O) (s : St P) (out : Nat → Prop) : Prop where
  wf : WF s.tree
  nodup : s.targets.Nodup
  live : ∀ a, (∃ t, s.heap a = some t) ↔ a ∈ s.targets
  inod : ((items s.tree).map (·.2)).Nodup
  imem : ∀ r a, (r, a) ∈ items s.tree ↔
    a ∈ s.targets ∧ ¬ out a ∧ ∃ t, s.heap a = some t ∧ r = E.box t.pdf

theorem Ok.congr {E : Env P R O} {s : St P} {out out' : Nat → Prop} (h : Ok E s out)
    (e : ∀ a ∈ s.targets, out a ↔ out' a) : Ok E s out' := by
  refine ⟨h.wf, h.nodup, h.live, h.inod, fun r a => (h.imem r a).trans ?_⟩
  constructor
  · rintro ⟨h1, h2, h3⟩; exact ⟨h1, fun h => h2 ((e a h1).2 h), h3⟩
  · rintro ⟨h1, h2, h3⟩; exact ⟨h1, fun h => h2 ((e a h1).1 h), h3⟩

theorem Ok.empty (E : Env P R O) : Ok E (St.empty : St P) fun _ => False := by
  refine ⟨RTree.wf_empty, List.nodup_nil, ?_, ?_, ?_⟩
  · intro a; simp [St.empty]
  · simp [St.empty, RTree.items_empty]
  · intro r a; simp [St.empty, RTree.items_empty]

theorem inod_eq {l : List (Rect × Nat)} (h : (l.map (·.2)).Nodup) {r r' : Rect} {a : Nat}
    (h1 : (r, a) ∈ l) (h2 : (r', a) ∈ l) : r = r' := by
  induction l with
  | nil => simp at h1
  | cons x l ih =>
    rw [List.map_cons, List.nodup_cons] at h
    rcases List.mem_cons.1 h1 with e1 | m1 <;> rcases List.mem_cons.1 h2 with e2 | m2
    · rw [← e2] at e1; exact congrArg Prod.fst e1
    · exact absurd (List.mem_map.2 ⟨_, m2, by rw [← e1]⟩) h.1
    · exact absurd (List.mem_map.2 ⟨_, m1, by rw [← e2]⟩) h.1
    · exact ih h.2 m1 m2

theorem Ok.inBd {E : Env P R O} {s : St P} {out : Nat → Prop} (h : Ok E s out) {Bd : Rect → Prop}
    (hg : ∀ p, RTree.Good Bd (E.box p)) : RTree.InBd Bd (items s.tree) := by
  rintro ⟨r, a⟩ he
  obtain ⟨_, _, t, _, rfl⟩ := (h.imem r a).1 he
  exact (hg t.pdf).2

theorem remove_ok {E : Env P R O} (hbox : BoxOk E) {s : St P} {out : Nat → Prop} (h : Ok E s out)
    {a : Nat} (ha : a ∈ s.targets) (ho : ¬ out a) :
    ∃ s', remove E s a = some s' ∧ s'.heap = s.heap ∧ s'.targets = s.targets ∧ s'.idc = s.idc ∧
      Ok E s' fun b => out b ∨ b = a := by
  obtain ⟨t, ht⟩ := (h.live a).2 ha
  obtain ⟨Bd, hA, hg⟩ := hbox
  obtain ⟨b, t', e, w, hh⟩ := RTree.removeRectWith_spec hA (E.box t.pdf) a s.tree h.wf (h.inBd hg)
  have hin : (E.box t.pdf, a) ∈ items s.tree := (h.imem _ _).2 ⟨ha, ho, t, ht, rfl⟩
  have e' : RTree.removeWith E.areas (E.box t.pdf) a s.tree = some t' := by
    simp [RTree.removeWith, e]
  refine ⟨{ s with tree := t' }, by simp only [remove, ht, e'], rfl, rfl, rfl, ?_⟩
  rcases hh with ⟨_, _, hn⟩ | ⟨_, r', p⟩
  · exact absurd hin hn
  · have hr : r' = E.box t.pdf := inod_eq h.inod (p.mem_iff.2 List.mem_cons_self) hin
    have hnd := (p.map (·.2)).nodup_iff.1 h.inod
    rw [List.map_cons, List.nodup_cons] at hnd
    refine ⟨w, h.nodup, h.live, hnd.2, ?_⟩
    intro r c
    have hm : (r, c) ∈ items t' ↔ (r, c) ∈ items s.tree ∧ c ≠ a := by
      rw [p.mem_iff, List.mem_cons]
      constructor
      · intro hc
        refine ⟨Or.inr hc, ?_⟩
        rintro rfl
        exact hnd.1 (List.mem_map.2 ⟨_, hc, rfl⟩)
      · rintro ⟨hc | hc, hne⟩
        · exact absurd (congrArg Prod.snd hc) hne
        · exact hc
    rw [hm, h.imem]
    constructor
    · rintro ⟨⟨h1, h2, h3⟩, h4⟩
      exact ⟨h1, fun h => h.elim h2 h4, h3⟩
    · rintro ⟨h1, h2, h3⟩
      exact ⟨⟨h1, fun h => h2 (Or.inl h), h3⟩, fun h => h2 (Or.inr h)⟩

theorem replace_ok {E : Env P R O} (hbox : BoxOk E) {s : St P} {out : Nat → Prop}
    (h : Ok E s out) {a : Nat} (ha : a ∈ s.targets) (ho : out a) :
    ∃ s', replace E s a = some s' ∧ s'.heap = s.heap ∧ s'.targets = s.targets ∧ s'.idc = s.idc ∧
      Ok E s' fun b => out b ∧ b ≠ a := by
  obtain ⟨t, ht⟩ := (h.live a).2 ha
  obtain ⟨Bd, hA, hg⟩ := hbox
  obtain ⟨t', e, w, p⟩ := RTree.insertWith_spec hA (E.box t.pdf) a s.tree (hg _) h.wf (h.inBd hg)
  refine ⟨{ s with tree := t' }, by simp only [replace, ht, e], rfl, rfl, rfl, ?_⟩
  have hna : ∀ r, (r, a) ∉ items s.tree := fun r hr => ((h.imem _ _).1 hr).2.1 ho
  refine ⟨w, h.nodup, h.live, ?_, ?_⟩
  · rw [(p.map (·.2)).nodup_iff, List.map_cons, List.nodup_cons]
    refine ⟨?_, h.inod⟩
    intro hm
    obtain ⟨⟨r, c⟩, hc, rfl⟩ := List.mem_map.1 hm
    exact hna r hc
  · intro r c
    show (r, c) ∈ items t' ↔ c ∈ s.targets ∧ ¬ (out c ∧ c ≠ a) ∧
      ∃ t, s.heap c = some t ∧ r = E.box t.pdf
    rw [p.mem_iff, List.mem_cons, h.imem]
    constructor
    · rintro (hc | ⟨h1, h2, h3⟩)
      · have h1 := congrArg Prod.fst hc
        have h2 := congrArg Prod.snd hc
        simp only at h1 h2
        subst h1 h2
        exact ⟨ha, fun h => h.2 rfl, t, ht, rfl⟩
      · exact ⟨h1, fun h => h2 h.1, h3⟩
    · rintro ⟨h1, h2, t1, h3, h4⟩
      by_cases hca : c = a
      · subst hca
        rw [ht] at h3
        injection h3 with h3
        subst h3
        exact Or.inl (by rw [h4])
      · exact Or.inr ⟨h1, fun h => h2 ⟨h, hca⟩, t1, h3, h4⟩

theorem erase_ok {E : Env P R O} {s : St P} {out : Nat → Prop} (h : Ok E s out) {a : Nat}
    (ha : a ∈ s.targets) (ho : out a) :
    ∃ s', erase s a = some s' ∧ s'.heap = setHeap s.heap a none ∧
      s'.targets = s.targets.filter (· ≠ a) ∧ s'.idc = s.idc ∧ Ok E s' out := by
  obtain ⟨t, ht⟩ := (h.live a).2 ha
  refine ⟨{ s with targets := s.targets.filter (· ≠ a), heap := setHeap s.heap a none },
    by simp only [erase, ht], rfl, rfl, rfl, h.wf, h.nodup.filter _, ?_, h.inod, ?_⟩
  · intro b
    simp only [setHeap, List.mem_filter, ne_eq, decide_not, Bool.not_eq_eq_eq_not, Bool.not_true,
      decide_eq_false_iff_not]
    by_cases hb : b = a
    · simp [hb]
    · simp only [hb, if_false, not_false_eq_true, and_true]; exact h.live b
  · intro r c
    simp only [setHeap, List.mem_filter, ne_eq, decide_not, Bool.not_eq_eq_eq_not, Bool.not_true,
      decide_eq_false_iff_not]
    rw [h.imem]
    by_cases hc : c = a
    · subst hc
      constructor
      · rintro ⟨_, h2, _⟩; exact absurd ho h2
      · rintro ⟨⟨_, h2⟩, _⟩; exact absurd rfl h2
    · simp only [hc, if_false, not_false_eq_true, and_true]

theorem newTarget_ok {E : Env P R O} (hbox : BoxOk E) {alloc : List Nat → Nat}
    (hal : ∀ l, alloc l ∉ l) {s : St P} (h : Ok E s fun _ => False) (r : ℝ) (p : P) (cid : Nat) :
    ∃ s', newTarget E alloc s r p cid = some s' ∧ s.heap (alloc s.targets) = none ∧
      s'.heap = setHeap s.heap (alloc s.targets) (some ⟨s.idc, r, p, cid, 'i'⟩) ∧
      s'.targets = s.targets ++ [alloc s.targets] ∧ s'.idc = (s.idc + 1) % 2 ^ 32 ∧
      Ok E s' fun _ => False := by
  obtain ⟨Bd, hA, hg⟩ := hbox
  obtain ⟨t', e, w, pp⟩ := RTree.insertWith_spec hA (E.box p) (alloc s.targets) s.tree (hg _) h.wf
    (h.inBd hg)
  have hn : s.heap (alloc s.targets) = none := by
    cases hh : s.heap (alloc s.targets) with
    | none => rfl
    | some t => exact absurd ((h.live _).1 ⟨t, hh⟩) (hal _)
  refine ⟨⟨setHeap s.heap (alloc s.targets) (some ⟨s.idc, r, p, cid, 'i'⟩),
    s.targets ++ [alloc s.targets], t', (s.idc + 1) % 2 ^ 32⟩, by simp only [newTarget, hn, e], hn,
    rfl, rfl, rfl, w, ?_, ?_, ?_, ?_⟩
  · rw [List.nodup_append]
    refine ⟨h.nodup, List.nodup_singleton _, ?_⟩
    intro x hx y hy hxy
    rw [List.mem_singleton] at hy
    subst hy
    rw [hxy] at hx
    exact hal _ hx
  · intro b
    simp only [setHeap, List.mem_append, List.mem_singleton]
    by_cases hb : b = alloc s.targets
    · simp [hb]
    · simp only [hb, if_false, or_false]; exact h.live b
  · rw [(pp.map (·.2)).nodup_iff, List.map_cons, List.nodup_cons]
    refine ⟨?_, h.inod⟩
    intro hm
    obtain ⟨⟨r, c⟩, hc, hc'⟩ := List.mem_map.1 hm
    simp only at hc'
    subst hc'
    exact hal _ ((h.imem _ _).1 hc).1
  · intro r c
    simp only [setHeap, List.mem_append, List.mem_singleton]
    rw [pp.mem_iff, List.mem_cons, h.imem]
    by_cases hc : c = alloc s.targets
    · subst hc
      simp only [if_true, Option.some.injEq, or_true, true_and, not_false_eq_true, exists_eq_left']
      constructor
      · rintro (hc | ⟨h1, _⟩)
        · exact congrArg Prod.fst hc
        · exact absurd h1 (hal _)
      · intro hr; exact Or.inl (by rw [hr])
    · simp only [hc, if_false, or_false]
      constructor
      · rintro (hc' | h1)
        · exact absurd (congrArg Prod.snd hc') hc
        · exact h1
      · exact Or.inr

/-- A query returns, each once, the listed targets that are in the index and whose box overlaps. -/
theorem query_ok {E : Env P R O} (hbox : BoxOk E) {s : St P} {out : Nat → Prop}
    (h : Ok E s out) (b : Rect) (hb : b.Valid) :
    ∃ l, query s b = some l ∧ l.Nodup ∧ ∀ a, a ∈ l ↔
      a ∈ s.targets ∧ ¬ out a ∧ ∃ t, s.heap a = some t ∧ b.Touch (E.box t.pdf) := by
  have hfeed : ∀ (l : List Nat) (acc : List Nat),
      RTree.feed (fun (acc : List Nat) (d : Nat) => (acc ++ [d], true)) acc l =
        (acc ++ l, l.length, true) := by
    intro l
    induction l with
    | nil => intro acc; simp [RTree.feed]
    | cons d l ih => intro acc; simp [RTree.feed, ih]
  refine ⟨RTree.hits b (items s.tree), ?_, ?_, ?_⟩
  · unfold query
    rw [RTree.search_spec _ _ _ _ h.wf, hfeed]; simp
  · unfold RTree.hits
    exact h.inod.sublist (List.Sublist.map _ List.filter_sublist)
  · intro a
    unfold RTree.hits
    rw [List.mem_map]
    constructor
    · rintro ⟨⟨r, c⟩, hm, rfl⟩
      rw [List.mem_filter] at hm
      obtain ⟨h1, h2, t, h3, rfl⟩ := (h.imem _ _).1 hm.1
      exact ⟨h1, h2, t, h3, (RTree.touch_iff_overlap hb (hbox.valid _)).2 hm.2⟩
    · rintro ⟨h1, h2, t, h3, h4⟩
      refine ⟨(E.box t.pdf, a), List.mem_filter.2 ⟨(h.imem _ _).2 ⟨h1, h2, t, h3, rfl⟩, ?_⟩, rfl⟩
      exact (RTree.touch_iff_overlap hb (hbox.valid _)).1 h4

/-! ## Loops -/

theorem removeLoop_ok {E : Env P R O} (hbox : BoxOk E) (l : List Nat) {s : St P} {out : Nat → Prop} (h : Ok E s out)
    (hnd : l.Nodup) (hl : ∀ a ∈ l, a ∈ s.targets ∧ ¬ out a) :
    ∃ s', removeLoop E l s = some s' ∧ s'.heap = s.heap ∧ s'.targets = s.targets ∧
      s'.idc = s.idc ∧ Ok E s' fun b => out b ∨ b ∈ l := by
  induction l generalizing s out with
  | nil => exact ⟨s, rfl, rfl, rfl, rfl, h.congr (by simp)⟩
  | cons a l ih =>
    rw [List.nodup_cons] at hnd
    obtain ⟨ha, ho⟩ := hl a List.mem_cons_self
    obtain ⟨s1, e1, e2, e3, e4, h1⟩ := remove_ok hbox h ha ho
    obtain ⟨s2, f1, f2, f3, f4, h2⟩ := ih h1 hnd.2 (by
      intro b hb
      obtain ⟨g1, g2⟩ := hl b (List.mem_cons_of_mem _ hb)
      rw [e3]
      refine ⟨g1, ?_⟩
      rintro (g | rfl)
      · exact g2 g
      · exact hnd.1 hb)
    refine ⟨s2, by simp only [removeLoop, e1, f1], f2.trans e2, f3.trans e3, f4.trans e4,
      h2.congr ?_⟩
    intro b _
    rw [List.mem_cons, or_assoc]

open Classical in
/-- What settling the targets of `l` does to the heap. -/
noncomputable def settleHeap (E : Env P R O) (prm : Params) (l : List Nat)
    (h : Nat → Option (Tgt P)) (a : Nat) : Option (Tgt P) :=
  if a ∈ l then (h a).filter fun t => viable E prm t else h a

theorem settle_ok {E : Env P R O} (hbox : BoxOk E) (prm : Params) (l : List Nat)
    {s : St P} {out : Nat → Prop} (h : Ok E s out) (hnd : l.Nodup)
    (hl : ∀ a ∈ l, a ∈ s.targets ∧ out a) :
    ∃ s', settle E prm l s = some s' ∧ s'.heap = settleHeap E prm l s.heap ∧
      s'.targets = s.targets.filter (fun a => (settleHeap E prm l s.heap a).isSome) ∧
      s'.idc = s.idc ∧ Ok E s' fun b => out b ∧ b ∉ l := by
  induction l generalizing s out with
  | nil =>
    refine ⟨s, rfl, ?_, ?_, rfl, h.congr (by simp)⟩
    · funext a; simp [settleHeap]
    · symm
      rw [List.filter_eq_self]
      intro a ha
      obtain ⟨t, ht⟩ := (h.live a).2 ha
      simp [settleHeap, ht]
  | cons a l ih =>
    rw [List.nodup_cons] at hnd
    obtain ⟨ha, ho⟩ := hl a List.mem_cons_self
    obtain ⟨t, ht⟩ := (h.live a).2 ha
    by_cases hv : viable E prm t = true
    · obtain ⟨s1, e1, e2, e3, e4, h1⟩ := replace_ok hbox h ha ho
      obtain ⟨s2, f1, f2, f3, f4, h2⟩ := ih h1 hnd.2 (by
        intro b hb
        obtain ⟨g1, g2⟩ := hl b (List.mem_cons_of_mem _ hb)
        rw [e3]
        refine ⟨g1, g2, ?_⟩
        rintro rfl
        exact hnd.1 hb)
      have hh : settleHeap E prm (a :: l) s.heap = settleHeap E prm l s1.heap := by
        funext b
        unfold settleHeap
        rw [e2]
        by_cases hba : b = a
        · subst hba
          simp [hnd.1, ht, Option.filter, hv]
        · simp [hba]
      refine ⟨s2, by simp only [settle, ht, if_pos hv, e1, f1], ?_, ?_, f4.trans e4, h2.congr ?_⟩
      · rw [hh]; exact f2
      · rw [hh, ← e3]; exact f3
      · intro b _
        rw [List.mem_cons, not_or, and_assoc]
    · obtain ⟨s1, e1, e2, e3, e4, h1⟩ := erase_ok h ha ho
      obtain ⟨s2, f1, f2, f3, f4, h2⟩ := ih h1 hnd.2 (by
        intro b hb
        obtain ⟨g1, g2⟩ := hl b (List.mem_cons_of_mem _ hb)
        rw [e3, List.mem_filter]
        refine ⟨⟨g1, ?_⟩, g2⟩
        simp only [ne_eq, decide_not, Bool.not_eq_eq_eq_not, Bool.not_true, decide_eq_false_iff_not]
        rintro rfl
        exact hnd.1 hb)
      have hh : settleHeap E prm (a :: l) s.heap = settleHeap E prm l s1.heap := by
        funext b
        unfold settleHeap
        rw [e2]
        by_cases hba : b = a
        · subst hba
          simp [hnd.1, ht, Option.filter, hv, setHeap]
        · simp [hba, setHeap]
      refine ⟨s2, by simp only [settle, ht, if_neg hv, e1, f1], ?_, ?_, f4.trans e4, h2.congr ?_⟩
      · rw [hh]; exact f2
      · rw [f3, e3, List.filter_filter, hh]
        apply List.filter_congr
        intro b _
        by_cases hba : b = a
        · subst hba
          simp only [settleHeap, if_neg hnd.1]
          rw [e2]
          simp [setHeap]
        · simp [hba]
      · intro b hb
        rw [f3, e3, List.filter_filter, List.mem_filter] at hb
        have : b ≠ a := by
          have := hb.2
          simp only [ne_eq, decide_not, Bool.and_eq_true, Bool.not_eq_eq_eq_not, Bool.not_true,
            decide_eq_false_iff_not] at this
          exact this.2
        rw [List.mem_cons, not_or]
        exact ⟨fun h => ⟨h.1, this, h.2⟩, fun h => ⟨h.1, h.2.2⟩⟩

open Classical in
theorem predictLoop_spec (E : Env P R O) (m : Motion P) (l : List Nat) (s : St P) (hnd : l.Nodup)
    (hl : ∀ a ∈ l, ∃ t, s.heap a = some t) :
    predictLoop E m l s = some { s with
      heap := fun a => if a ∈ l then (s.heap a).map (predictTgt E m) else s.heap a } := by
  induction l generalizing s with
  | nil => simp [predictLoop]
  | cons a l ih =>
    rw [List.nodup_cons] at hnd
    obtain ⟨t, ht⟩ := hl a List.mem_cons_self
    simp only [predictLoop, ht]
    rw [ih _ hnd.2]
    · congr 2
      funext b
      by_cases hba : b = a
      · subst hba; simp [hnd.1, setHeap, ht]
      · simp [hba, setHeap]
    · intro b hb
      have : b ≠ a := by rintro rfl; exact hnd.1 hb
      simp only [setHeap, this, if_false]
      exact hl b (List.mem_cons_of_mem _ hb)

end Verif.Tracker

import Verif.RTree.Remove
import Verif.RTree.Search
import Verif.RTree.Iter

/-!
# Properties of the R-tree (C01–C07)

Statements use only the model's public operations (`run`, `search`, `count`, `save`, …) and the
specification notions of `Spec` (bags, points, well-formed trees).
-/

namespace Verif.RTree

variable {D : Type} [DecidableEq D] {A : Areas} {Bd : Rect → Prop}

/-! ## Histories -/

theorem touch_iff_overlap {a b : Rect} (ha : a.Valid) (hb : b.Valid) :
    a.Touch b ↔ overlap a b = true := by
  rw [overlap_iff]
  constructor
  · rintro ⟨x, y, ⟨a1, a2, a3, a4⟩, ⟨b1, b2, b3, b4⟩⟩
    exact ⟨a1.trans b2, b1.trans a2, a3.trans b4, b3.trans a4⟩
  · rintro ⟨h1, h2, h3, h4⟩
    refine ⟨max a.minx b.minx, max a.miny b.miny, ⟨le_max_left _ _, max_le ha.1 h2,
      le_max_left _ _, max_le ha.2 h4⟩, ⟨le_max_right _ _, max_le h1 hb.1, le_max_right _ _,
      max_le h3 hb.2⟩⟩

theorem wf_empty : WF (empty : Tree D) := Or.inl ⟨rfl, by simp, by simp, by simp⟩

theorem items_empty : items (empty : Tree D) = [] := rfl

theorem WF.items_valid {t : Tree D} (h : WF t) : ∀ e ∈ items t, e.1.Valid := by
  obtain ⟨n, hn⟩ := h.nwf
  cases t with
  | data d => exact hn.elim
  | node l bs =>
    obtain ⟨rfl, _, _, h3⟩ := hn
    intro e he
    obtain ⟨b, hb, hbe⟩ := List.mem_flatMap.1 he
    exact (h3 b hb).item_valid e hbe

theorem insertWith_spec (hA : A.Ok Bd) (r : Rect) (d : D) (t : Tree D) (hr : Good Bd r)
    (ht : WF t) (his : InBd Bd (items t)) :
    ∃ t', insertWith A r d t = some t' ∧ WF t' ∧ (items t').Perm ((r, d) :: items t) := by
  have hx : BWF 0 (r, Tree.data d) := hr.1
  have hi : InBd Bd (bitems 0 (r, Tree.data d)) := by
    intro e he
    simp only [bitems, List.mem_singleton] at he
    subst he
    exact hr.2
  rcases ht with h | ⟨n, h⟩
  · obtain ⟨t', n', e, _, w, p⟩ := insertRect_spec hA 0 0 0 r (.data d) t (le_refl _) hx h
      (by omega) (by omega) hi his
    cases n' with
    | zero => exact ⟨t', e, Or.inl w, p⟩
    | succ n' =>
      -- the root has split: the new root has two children
      cases t with
      | data d => exact h.elim
      | node l bs =>
        obtain ⟨rfl, h1, h2, h3⟩ := h
        obtain ⟨res, e', hres⟩ := insertRec_spec hA 0 0 r (.data d) bs (le_refl _) hx h3 h2
          (by omega) hi (by simpa [items, Tree.branches, Tree.level] using his)
        have e2 := e
        unfold insertRect at e2
        rw [if_neg (by simp [Tree.level])] at e2
        simp only [Tree.level, Int.toNat_natCast, Option.bind_eq_bind, e', Option.bind_some] at e2
        obtain ⟨t1, o⟩ := res
        cases o with
        | none =>
          obtain ⟨bs', rfl, _, _, _, _⟩ := hres
          injection e2 with e2
          subst e2
          exact absurd w.1 (by omega)
        | some o =>
          injection e2 with e2
          refine ⟨t', e, Or.inr ⟨n', ?_⟩, p⟩
          subst e2
          exact ⟨w.1, by simp, w.2.2⟩
  · obtain ⟨t', n', e, hn, w, p⟩ := insertRect_spec hA (n+1) 0 2 r (.data d) t (by omega) hx h
      (by omega) (le_refl _) hi his
    obtain ⟨m, rfl⟩ : ∃ m, n' = m + 1 := ⟨n' - 1, by omega⟩
    exact ⟨t', e, Or.inr ⟨m, w⟩, p⟩

theorem insert_spec (r : Rect) (d : D) (t : Tree D) (hr : r.Valid) (ht : WF t) :
    ∃ t', insert r d t = some t' ∧ WF t' ∧ (items t').Perm ((r, d) :: items t) :=
  insertWith_spec exact_ok r d t (good_noBd.2 hr) ht (inBd_noBd _)

theorem stepWith_spec (hA : A.Ok Bd) (o : Op D) (t : Tree D)
    (ho : ∀ r d, o = .insert r d → Good Bd r) (ht : WF t) (his : InBd Bd (items t)) :
    ∃ t', stepWith A o t = some t' ∧ WF t' ∧ InBd Bd (items t') ∧
      AbsStep o (items t : Multiset (Rect × D)) (items t' : Multiset (Rect × D)) := by
  cases o with
  | insert r d =>
    obtain ⟨t', e, w, p⟩ := insertWith_spec hA r d t (ho r d rfl) ht his
    refine ⟨t', e, w, ?_, ?_⟩
    · refine InBd.perm (l := (r, d) :: items t) ?_ p
      intro e he
      rcases List.mem_cons.1 he with rfl | he
      · exact (ho _ _ rfl).2
      · exact his e he
    · simp only [AbsStep, Multiset.cons_coe]
      exact Multiset.coe_eq_coe.2 p
  | remove r d =>
    obtain ⟨b, t', e, w, h⟩ := removeRectWith_spec hA r d t ht his
    refine ⟨t', by simp [stepWith, removeWith, e], w, ?_, ?_⟩
    · rcases h with ⟨_, rfl, h⟩ | ⟨_, r', p⟩
      · exact his
      · exact fun e he => his e (p.mem_iff.2 (by simp [he]))
    · rcases h with ⟨_, rfl, h⟩ | ⟨_, r', p⟩
      · exact Or.inr ⟨by simpa using h, rfl⟩
      · refine Or.inl ⟨r', by simpa using p.mem_iff.2 (by simp), ?_⟩
        rw [Multiset.coe_eq_coe.2 p, ← Multiset.cons_coe, Multiset.erase_cons_head]
  | removeAll => exact ⟨empty, rfl, wf_empty, (by intro e he; cases he), rfl⟩

theorem runWith_spec (hA : A.Ok Bd) (os : List (Op D)) (t : Tree D)
    (hv : ∀ r d, Op.insert r d ∈ os → Good Bd r) (ht : WF t) (his : InBd Bd (items t)) :
    ∃ t', runWith A os t = some t' ∧ WF t' ∧ InBd Bd (items t') ∧
      AbsRun os (items t : Multiset (Rect × D)) (items t' : Multiset (Rect × D)) := by
  induction os generalizing t with
  | nil => exact ⟨t, rfl, ht, his, rfl⟩
  | cons o os ih =>
    obtain ⟨t1, e1, w1, i1, a1⟩ := stepWith_spec hA o t
      (by rintro r d rfl; exact hv r d (by simp)) ht his
    obtain ⟨t2, e2, w2, i2, a2⟩ := ih t1 (fun r d h => hv r d (by simp [h])) w1 i1
    exact ⟨t2, by simp [runWith, e1, e2], w2, i2, _, a1, a2⟩

theorem run_spec (os : List (Op D)) (t : Tree D) (hv : OpsValid os) (ht : WF t) :
    ∃ t', run os t = some t' ∧ WF t' ∧
      AbsRun os (items t : Multiset (Rect × D)) (items t' : Multiset (Rect × D)) := by
  obtain ⟨t', e, w, _, a⟩ := runWith_spec exact_ok os t
    (fun r d h => good_noBd.2 (hv r d h)) ht (inBd_noBd _)
  exact ⟨t', e, w, a⟩

/-! ## A concrete history used to show that the hypotheses below are satisfiable -/

/-- Unit squares on a diagonal, with a twist. -/
def sampleRect (i : Nat) : Rect :=
  ⟨(i : ℚ), ((7 * i % 11 : Nat) : ℚ), (i : ℚ) + 1, ((7 * i % 11 : Nat) : ℚ) + 1⟩

/-- 20 insertions and 9 removals; nodes split, condense and are re-inserted. -/
def sampleOps : List (Op Nat) :=
  (List.range 20).map (fun i => .insert (sampleRect i) i) ++
  (List.range 9).map (fun i => .remove (sampleRect (2 * i)) (2 * i))

theorem sampleOps_valid : OpsValid sampleOps := by
  intro r d h
  simp only [sampleOps, List.mem_append, List.mem_map, List.mem_range] at h
  rcases h with ⟨i, _, h⟩ | ⟨i, _, h⟩
  · injection h with h1 h2
    subst h1
    constructor <;> simp [sampleRect]
  · exact absurd h (by simp)

/-- The tree after the insertions has two levels (root with 4 children); after the removals a
two-level tree with 2 children and 11 entries. -/
theorem sampleOps_run :
    ((run (sampleOps.take 20) empty).map fun t => (t.level, t.count, count t)) = some (1, 4, 20) ∧
    ((run sampleOps empty).map fun t => (t.level, t.count, count t)) = some (1, 2, 11) := by
  decide +kernel

/-! ## C03 -/

/-- **C03** Any history of valid calls runs without failing an assertion or reading an
uninitialised variable, and ends in a well-formed R-tree (balanced, 4 to 8 branches per inner
node, minimal covering rectangles). -/
theorem C03_history_well_formed (os : List (Op D)) (hv : OpsValid os) :
    ∃ t, run os (empty : Tree D) = some t ∧ WF t := by
  obtain ⟨t, e, w, _⟩ := run_spec os empty hv wf_empty
  exact ⟨t, e, w⟩

example := C03_history_well_formed sampleOps sampleOps_valid

/-- The precondition is needed: `Insert` only asserts `min ≤ max` in debug builds
(`RTree.h:480-485`), and nine calls with inverted rectangles make `PickSeeds` use seeds that were
never assigned. -/
theorem C03_inverted_rectangles_undefined :
    run (List.replicate 8 (Op.insert ⟨10, 10, -10, -10⟩ 0) ++ [.insert ⟨0, 0, 0, 0⟩ 1])
      (empty : Tree Nat) = none := by decide +kernel

/-! ## C01 -/

open scoped Classical in
omit [DecidableEq D] in
/-- A search of a well-formed tree reports exactly the entries that have a point in common with
the box. -/
theorem WF.search_exact {t : Tree D} (w : WF t) {q : Rect} (hq : q.Valid) :
    ∃ res, search (fun acc d => (acc ++ [d], true)) q [] t = some (res, res.length) ∧
      (res : Multiset D) =
        ((items t : Multiset (Rect × D)).filter fun e => q.Touch e.1).map (·.2) := by
  have hfeed : ∀ (l : List D) (acc : List D),
      feed (fun (acc : List D) (d : D) => (acc ++ [d], true)) acc l = (acc ++ l, l.length, true) := by
    intro l
    induction l with
    | nil => intro acc; simp [feed]
    | cons d l ih => intro acc; simp [feed, ih]
  refine ⟨hits q (items t), ?_, ?_⟩
  · rw [search_spec _ _ _ _ w, hfeed]; simp
  · rw [Multiset.filter_coe, Multiset.map_coe]
    congr 1
    unfold hits
    congr 1
    apply List.filter_congr
    intro x hx
    have := touch_iff_overlap hq (w.items_valid x hx)
    by_cases h : overlap q x.1 = true
    · rw [h]; exact (decide_eq_true (this.2 h)).symm
    · rw [Bool.eq_false_iff.2 h]; exact (decide_eq_false (fun h' => h (this.1 h'))).symm

open scoped Classical in
/-- **C01** After any history, a search reports exactly the stored entries that have a point in
common with the box, with multiplicity, and returns their number.  `m` is the bag the history
leaves according to the abstract semantics. -/
theorem C01_search_exact (os : List (Op D)) (hv : OpsValid os) :
    ∃ t m, run os (empty : Tree D) = some t ∧ AbsRun os 0 m ∧
      ∀ q : Rect, q.Valid → ∃ res : List D,
        search (fun acc d => (acc ++ [d], true)) q [] t = some (res, res.length) ∧
        (res : Multiset D) = (m.filter fun e => q.Touch e.1).map (·.2) := by
  obtain ⟨t, e, w, a⟩ := run_spec os empty hv wf_empty
  refine ⟨t, _, e, a, ?_⟩
  exact fun q hq => w.search_exact hq

-- non-vacuous: the query below finds exactly entries 1 and 3 of the 11 stored ones
example := C01_search_exact sampleOps sampleOps_valid
example : (⟨0, 0, 4, 20⟩ : Rect).Valid ∧ ((run sampleOps empty).bind
    (search (fun acc d => (acc ++ [d], true)) ⟨0, 0, 4, 20⟩ [])) = some ([1, 3], 2) :=
  ⟨by constructor <;> decide, by decide +kernel⟩

/-! ### Disciplined histories have exactly one outcome -/

/-- The deterministic bag semantics: `Remove(r,d)` erases the entry `(r,d)`. -/
def detStep : Op D → Multiset (Rect × D) → Multiset (Rect × D)
  | .insert r d, m => (r, d) ::ₘ m
  | .remove r d, m => m.erase (r, d)
  | .removeAll, _ => 0

/-- The usage discipline of `TargetTree_`: an id is inserted only while absent, and removed
only with the rectangle it is stored under (or while absent). -/
def Disciplined : List (Op D) → Multiset (Rect × D) → Prop
  | [], _ => True
  | o :: os, m =>
    (match o with
      | .insert _ d => ∀ e ∈ m, e.2 ≠ d
      | .remove r d => (r, d) ∈ m ∨ ∀ e ∈ m, e.2 ≠ d
      | .removeAll => True) ∧ Disciplined os (detStep o m)

theorem absRun_det (os : List (Op D)) (m m' : Multiset (Rect × D))
    (hu : m.Nodup) (hids : ∀ e ∈ m, ∀ e' ∈ m, e.2 = e'.2 → e = e')
    (hd : Disciplined os m) (ha : AbsRun os m m') : m' = os.foldl (fun m o => detStep o m) m := by
  induction os generalizing m with
  | nil => exact ha
  | cons o os ih =>
    obtain ⟨m1, a1, a2⟩ := ha
    obtain ⟨d1, d2⟩ := hd
    have key : m1 = detStep o m := by
      cases o with
      | insert r d => exact a1
      | removeAll => exact a1
      | remove r d =>
        rcases a1 with ⟨r', hr', rfl⟩ | ⟨hn, rfl⟩
        · rcases d1 with h | h
          · have := hids _ hr' _ h rfl
            rw [this]; rfl
          · exact absurd rfl (h _ hr')
        · exact (Multiset.erase_of_notMem hn).symm
    subst key
    refine ih _ ?_ ?_ d2 a2
    · cases o with
      | insert r d => exact Multiset.nodup_cons.2 ⟨fun h => d1 _ h rfl, hu⟩
      | remove r d => exact hu.erase _
      | removeAll => exact Multiset.nodup_zero
    · cases o with
      | insert r d =>
        intro e he e' he' hee
        rcases Multiset.mem_cons.1 he with rfl | he <;> rcases Multiset.mem_cons.1 he' with rfl | he'
        · rfl
        · exact absurd hee.symm (d1 e' he')
        · exact absurd hee (d1 e he)
        · exact hids e he e' he' hee
      | remove r d =>
        intro e he e' he'
        exact hids e (Multiset.mem_of_mem_erase he) e' (Multiset.mem_of_mem_erase he')
      | removeAll => intro e he; simp [detStep] at he

/-- **C01/C02, disciplined use**: if ids are inserted while absent and removed under the
rectangle they are stored with, the tree holds exactly the bag obtained by adding and erasing
those entries. -/
theorem C02_disciplined_contents (os : List (Op D)) (hv : OpsValid os)
    (hd : Disciplined os (0 : Multiset (Rect × D))) :
    ∃ t, run os (empty : Tree D) = some t ∧
      (items t : Multiset (Rect × D)) = os.foldl (fun m o => detStep o m) 0 := by
  obtain ⟨t, e, _, a⟩ := run_spec os empty hv wf_empty
  exact ⟨t, e, absRun_det os 0 _ Multiset.nodup_zero (by simp) hd a⟩

example : Disciplined [Op.insert (sampleRect 0) 0, .insert (sampleRect 1) 1,
    .remove (sampleRect 1) 1, .remove (sampleRect 5) 5, .insert (sampleRect 2) 1] 0 := by
  simp [Disciplined, detStep]

/-! ## C02 -/

/-- **C02** On every well-formed (hence every reachable) tree `Remove(r,d)` succeeds; if an entry
is stored under `(r,d)`, exactly one entry with id `d` disappears and everything else stays; if
no entry has id `d`, the tree is unchanged; in every case at most one entry, with id `d`, goes. -/
theorem C02_remove_exact (r : Rect) (d : D) (t : Tree D) (ht : WF t) :
    ∃ t', remove r d t = some t' ∧ WF t' ∧
      ((r, d) ∈ items t → ∃ r', (r', d) ∈ items t ∧
        (items t' : Multiset (Rect × D)) = (items t : Multiset (Rect × D)).erase (r', d)) ∧
      ((∀ e ∈ items t, e.2 ≠ d) → t' = t) ∧
      (t' = t ∨ ∃ r', (items t : Multiset (Rect × D)) = (r', d) ::ₘ (items t' : Multiset _)) := by
  obtain ⟨b, t', e, w, h⟩ := removeRect_spec r d t ht
  refine ⟨t', by simp [remove, e], w, ?_, ?_, ?_⟩
  · intro hm
    rcases h with ⟨_, _, h⟩ | ⟨_, r', p⟩
    · exact absurd hm h
    · refine ⟨r', p.mem_iff.2 (by simp), ?_⟩
      rw [Multiset.coe_eq_coe.2 p, ← Multiset.cons_coe, Multiset.erase_cons_head]
  · intro hn
    rcases h with ⟨_, h, _⟩ | ⟨_, r', p⟩
    · exact h
    · exact absurd rfl (hn _ (p.mem_iff.2 (List.mem_cons_self ..)))
  · rcases h with ⟨_, h, _⟩ | ⟨_, r', p⟩
    · exact Or.inl h
    · exact Or.inr ⟨r', by rw [Multiset.coe_eq_coe.2 p, ← Multiset.cons_coe]⟩

example : ∃ t : Tree Nat, WF t ∧ run sampleOps empty = some t := by
  obtain ⟨t, h, w⟩ := C03_history_well_formed sampleOps sampleOps_valid
  exact ⟨t, w, h⟩
-- both branches occur: entry 1 is there, entry 2 has been removed
example : ((run sampleOps empty).map fun t =>
    ((items t).contains (sampleRect 1, 1), (items t).all (·.2 ≠ 2))) = some (true, true) := by
  decide +kernel

/-! ## C04 -/

/-- **C04** `Count()` is the number of stored entries, after every history; after a final
`RemoveAll` it is zero. -/
theorem C04_count (os : List (Op D)) (hv : OpsValid os) :
    (∃ t m, run os (empty : Tree D) = some t ∧ AbsRun os 0 m ∧ count t = Multiset.card m) ∧
    (∃ t, run (os ++ [.removeAll]) (empty : Tree D) = some t ∧ count t = 0 ∧
      ∀ q, search (fun acc d => (acc ++ [d], true)) q [] t = some (([] : List D), 0)) := by
  obtain ⟨t, e, w, a⟩ := run_spec os empty hv wf_empty
  refine ⟨⟨t, _, e, a, by rw [count_spec t w]; rfl⟩, empty, ?_, ?_, ?_⟩
  · have happ : ∀ (os : List (Op D)) (s t : Tree D), run os s = some t →
        run (os ++ [.removeAll]) s = some empty := by
      intro os
      induction os with
      | nil => intro s t _; rfl
      | cons o os ih =>
        intro s t h
        simp only [run, runWith, List.cons_append] at h ih ⊢
        cases hs : stepWith .exact o s with
        | none => simp [hs] at h
        | some s' => rw [hs] at h; simp only [Option.bind_some] at h ⊢; exact ih s' t h
    exact happ os empty t e
  · rfl
  · intro q; rfl

example := C04_count sampleOps sampleOps_valid

/-! ## C05 -/

/-- **C05** For every reachable tree and box there is one list of payloads (those a full search
reports) such that *any* callback, stateful and stopping whenever it likes, is fed exactly the
elements of that list in order until it first returns `false`; `Search` returns the number of
calls made. -/
theorem C05_callback_stops (os : List (Op D)) (hv : OpsValid os) (q : Rect) :
    ∃ t full, run os (empty : Tree D) = some t ∧
      search (fun acc d => (acc ++ [d], true)) q [] t = some (full, full.length) ∧
      (∀ (σ : Type) (cb : Callback σ D) (s : σ),
        search cb q s t = some ((feed cb s full).1, (feed cb s full).2.1)) ∧
      (∀ k, k ≤ full.length → 0 < k →
        search (fun (acc : List D) d => (acc ++ [d], decide (acc.length + 1 < k))) q [] t =
          some (full.take k, k)) := by
  obtain ⟨t, e, w, a⟩ := run_spec os empty hv wf_empty
  have hfeed : ∀ (l : List D) (acc : List D),
      feed (fun (acc : List D) (d : D) => (acc ++ [d], true)) acc l = (acc ++ l, l.length, true) := by
    intro l
    induction l with
    | nil => intro acc; simp [feed]
    | cons d l ih => intro acc; simp [feed, ih]
  have hstop : ∀ (k : Nat) (l acc : List D), acc.length < k → k ≤ acc.length + l.length →
      (feed (fun (acc : List D) (d : D) => (acc ++ [d], decide (acc.length + 1 < k))) acc l).1 =
        acc ++ l.take (k - acc.length) ∧
      (feed (fun (acc : List D) (d : D) => (acc ++ [d], decide (acc.length + 1 < k))) acc l).2.1 =
        k - acc.length := by
    intro k l
    induction l with
    | nil => intro acc h1 h2; simp at h2; omega
    | cons d l ih =>
      intro acc h1 h2
      simp only [feed]
      by_cases hk : acc.length + 1 < k
      · simp only [hk, decide_true, if_true]
        have h2' : k ≤ (acc ++ [d]).length + l.length := by
          simp only [List.length_cons, List.length_append, List.length_nil] at h2 ⊢; omega
        obtain ⟨i1, i2⟩ := ih (acc ++ [d]) (by simpa using hk) h2'
        obtain ⟨j, hj⟩ : ∃ j, k - acc.length = j + 1 := ⟨k - acc.length - 1, by omega⟩
        have hj' : k - (acc ++ [d]).length = j := by simp; omega
        rw [hj'] at i1 i2
        rw [i1, i2, hj]
        simp
      · have : k - acc.length = 1 := by omega
        simp [hk, this]
  refine ⟨t, hits q (items t), e, ?_, fun σ cb s => search_spec cb q s t w, ?_⟩
  · rw [search_spec _ _ _ _ w, hfeed]; simp
  · intro k hk hk0
    rw [search_spec _ _ _ _ w]
    obtain ⟨h1, h2⟩ := hstop k (hits q (items t)) [] (by simpa using hk0) (by simpa using hk)
    rw [h1, h2]; simp

example := C05_callback_stops sampleOps sampleOps_valid ⟨0, 0, 4, 20⟩

/-! ## C06 -/

/-- **C06** After any history, loading what `Save` wrote (followed by anything) succeeds,
reproduces the very same tree and consumes exactly what was written. -/
theorem C06_save_load (os : List (Op D)) (hv : OpsValid os) (rest : List (Tok D)) :
    ∃ t, run os (empty : Tree D) = some t ∧ load (save t ++ rest) = some (true, t, rest) := by
  obtain ⟨t, e, w, a⟩ := run_spec os empty hv wf_empty
  exact ⟨t, e, load_save t rest w⟩

example := C06_save_load sampleOps sampleOps_valid []

omit [DecidableEq D] in
/-- **C06** A stream whose header differs from the expected one is rejected and leaves an empty
tree. -/
theorem C06_bad_header (zs : List Int) (hl : zs.length = 7) (hne : zs ≠ header)
    (rest : List (Tok D)) :
    load (zs.map .int ++ rest) = some (false, (empty : Tree D), rest) := by
  unfold load
  have h7 : readInts 7 (zs.map Tok.int ++ rest) = some (zs, rest) := by
    rw [← hl]; exact readInts_map zs rest
  rw [h7]
  simp [hne]

example : ([1,2,3,4,5,6,7] : List Int).length = 7 ∧ [1,2,3,4,5,6,7] ≠ header := by decide

omit [DecidableEq D] in
/-- The code does no error checking beyond the header (`RTree.h:676`): a file cut off right after
the header is accepted as a valid empty tree. -/
theorem C06_truncated_accepted : load (header.map (.int : Int → Tok D)) =
    some (true, (empty : Tree D), []) := rfl

/-! ## C07 -/

omit [DecidableEq D] in
/-- Iteration over a well-formed tree with fewer than `2^65` entries. -/
theorem WF.iterate {t : Tree D} (w : WF t)
    (hcard : Multiset.card (items t : Multiset (Rect × D)) < 2 ^ 65) :
    ∃ st es, getFirst 33 t [] = some st ∧
      visit (Multiset.card (items t : Multiset (Rect × D))) 33 st = some es ∧
      (es : Multiset (Rect × D)) = items t := by
  rw [Multiset.coe_card] at hcard ⊢
  rcases w with h | ⟨n, h⟩
  · cases t with
    | data d => exact h.elim
    | node l bs =>
      obtain ⟨rfl, _, h2, h3⟩ := h
      by_cases hne : bs = []
      · subst hne
        exact ⟨[], [], by simp [getFirst], by simp [visit], by simp [items, Tree.branches]⟩
      · obtain ⟨st, e1, s1, r1, d1⟩ := getFirst_spec 0 1 33 (by decide) bs [] h3 hne
          (by simp [SOk]) (by omega)
        have hd : den st = items (Tree.node ((0:Nat):Int) bs) := by
          rw [d1]; simp [den, items, Tree.branches, Tree.level]
        refine ⟨st, den st, e1, visit_spec 1 33 (by decide) _ st s1 r1 (by omega) (by rw [hd]), ?_⟩
        rw [hd]
  · cases t with
    | data d => exact h.elim
    | node l bs =>
      obtain ⟨rfl, h1, h2, h3⟩ := h
      have hit : items (Tree.node ((n+1:Nat):Int) bs) = bs.flatMap (bitems (n+1)) := by
        simp only [items, Tree.branches, Tree.level, Int.toNat_natCast]
      have hb := height_bound (n+1) bs h3 h1
      rw [← hit] at hb
      have hn : n + 1 < 32 := by
        by_contra hcon
        have : 4 ^ 32 ≤ 4 ^ (n+1) := Nat.pow_le_pow_right (by omega) (by omega)
        have h65 : (2:Nat) ^ 65 = 2 * 4 ^ 32 := by norm_num
        omega
      obtain ⟨st, e1, s1, r1, d1⟩ := getFirst_spec (n+1) 32 33 (by decide) bs [] h3
        (by intro he; subst he; simp at h1) (by simp only [SOk]; omega) (by omega)
      have hd : den st = items (Tree.node ((n+1:Nat):Int) bs) := by
        rw [d1, hit]; simp [den]
      refine ⟨st, den st, e1, visit_spec 32 33 (by decide) _ st s1 r1 (by omega) (by rw [hd]), ?_⟩
      rw [hd]

/-- **C07** After any history that leaves fewer than `2^65` entries, `GetFirst`/`GetNext` visit
every stored entry exactly once (as a list: the entries in tree order) and the iterator's stack
of 32 never overflows. -/
theorem C07_iterate (os : List (Op D)) (hv : OpsValid os) :
    ∃ t m, run os (empty : Tree D) = some t ∧ AbsRun os 0 m ∧
      (Multiset.card m < 2 ^ 65 → ∃ st es, getFirst 33 t [] = some st ∧
        visit (Multiset.card m) 33 st = some es ∧ (es : Multiset (Rect × D)) = m) := by
  obtain ⟨t, e, w, a⟩ := run_spec os empty hv wf_empty
  refine ⟨t, _, e, a, ?_⟩
  exact fun hcard => w.iterate hcard

example := C07_iterate sampleOps sampleOps_valid
example : ((run sampleOps empty).bind fun t => (getFirst 33 t []).bind fun st =>
    (visit 11 33 st).map fun es => es.length) = some 11 := by decide +kernel

end Verif.RTree

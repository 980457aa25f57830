import Verif.RTree.Split
import Mathlib.Data.List.Flatten

/-! Helper lemmas: insertion preserves well-formedness and adds the inserted entries. -/

namespace Verif.RTree

variable {D : Type} {A : Areas} {Bd : Rect → Prop}

theorem Tight.nodeCover {n : Nat} {bs : List (Branch D)} (hne : bs ≠ [])
    (h : ∀ b ∈ bs, Tight b.1 (bitems n b)) : Tight (nodeCover bs) (bs.flatMap (bitems n)) := by
  intro q
  rw [nodeCover_sub_iff hne]
  constructor
  · intro hb e he
    obtain ⟨b, hbm, hbe⟩ := List.mem_flatMap.1 he
    exact (h b hbm q).1 (hb b hbm) e hbe
  · intro he b hbm
    exact (h b hbm q).2 fun e hbe => he e (List.mem_flatMap.2 ⟨b, hbm, hbe⟩)

theorem Tight.combine {a b : Rect} {l m : List (Rect × D)} (ha : Tight a l) (hb : Tight b m) :
    Tight (combine a b) (l ++ m) := by
  intro q
  rw [combine_sub_iff, ha q, hb q]
  simp only [List.mem_append]
  constructor
  · rintro ⟨h1, h2⟩ e (h | h)
    · exact h1 e h
    · exact h2 e h
  · intro h; exact ⟨fun e he => h e (Or.inl he), fun e he => h e (Or.inr he)⟩

theorem Tight.perm {r : Rect} {l m : List (Rect × D)} (h : Tight r l) (hp : l.Perm m) :
    Tight r m := by
  intro q
  rw [h q]
  exact ⟨fun h e he => h e (hp.mem_iff.2 he), fun h e he => h e (hp.mem_iff.1 he)⟩

theorem BWF.tight {n : Nat} {b : Branch D} (h : BWF n b) : Tight b.1 (bitems n b) := by
  obtain ⟨r, t⟩ := b
  cases n with
  | zero =>
    cases t with
    | data d => intro q; simp [bitems]
    | node l bs => exact h.elim
  | succ n =>
    cases t with
    | data d => exact h.elim
    | node l bs => exact h.2.2.2.2

theorem BWF.items_ne {n : Nat} {b : Branch D} (h : BWF n b) : bitems n b ≠ [] := by
  induction n generalizing b with
  | zero =>
    obtain ⟨r, t⟩ := b
    cases t with
    | data d => simp [bitems]
    | node l bs => exact h.elim
  | succ n ih =>
    obtain ⟨r, t⟩ := b
    cases t with
    | data d => exact h.elim
    | node l bs =>
      obtain ⟨_, h1, _, h2, _⟩ := h
      cases bs with
      | nil => simp at h1
      | cons b bs =>
        intro he
        simp only [bitems, List.flatMap_cons, List.append_eq_nil_iff] at he
        exact ih (h2 b (by simp)) he.1

theorem BWF.item_valid {n : Nat} {b : Branch D} (h : BWF n b) : ∀ e ∈ bitems n b, e.1.Valid := by
  induction n generalizing b with
  | zero =>
    obtain ⟨r, t⟩ := b
    cases t with
    | data d => intro e he; simp only [bitems, List.mem_singleton] at he; subst he; exact h
    | node l bs => exact h.elim
  | succ n ih =>
    obtain ⟨r, t⟩ := b
    cases t with
    | data d => exact h.elim
    | node l bs =>
      intro e he
      obtain ⟨b, hb, hbe⟩ := List.mem_flatMap.1 he
      exact ih (h.2.2.2.1 b hb) e hbe

theorem BWF.valid {n : Nat} {b : Branch D} (h : BWF n b) : b.1.Valid := by
  obtain ⟨e, he⟩ := List.exists_mem_of_ne_nil _ h.items_ne
  exact Valid.of_sub (h.item_valid e he) ((h.tight _).1 (Rect.Sub.refl _) e he)

/-- All entries of a list lie inside all rectangles of `Bd`. -/
def InBd (Bd : Rect → Prop) (l : List (Rect × D)) : Prop := ∀ e ∈ l, ∀ q, Bd q → e.1.Sub q

theorem InBd.perm {l m : List (Rect × D)} (h : InBd Bd l) (hp : m.Perm l) : InBd Bd m :=
  fun e he => h e (hp.mem_iff.1 he)

theorem InBd.append {l m : List (Rect × D)} (h : InBd Bd l) (h' : InBd Bd m) : InBd Bd (l ++ m) :=
  fun e he => (List.mem_append.1 he).elim (h e) (h' e)

theorem InBd.left {l m : List (Rect × D)} (h : InBd Bd (l ++ m)) : InBd Bd l :=
  fun e he => h e (List.mem_append_left _ he)

theorem InBd.right {l m : List (Rect × D)} (h : InBd Bd (l ++ m)) : InBd Bd m :=
  fun e he => h e (List.mem_append_right _ he)

theorem inBd_noBd (l : List (Rect × D)) : InBd NoBd l := fun _ _ _ hq => hq.elim

theorem BWF.good {n : Nat} {b : Branch D} (h : BWF n b) (hi : InBd Bd (bitems n b)) :
    Good Bd b.1 :=
  ⟨h.valid, fun q hq => (h.tight q).2 fun e he => hi e he q hq⟩

theorem InBd.branch {n : Nat} {bs : List (Branch D)} {b : Branch D}
    (h : InBd Bd (bs.flatMap (bitems n))) (hb : b ∈ bs) : InBd Bd (bitems n b) :=
  fun e he => h e (List.mem_flatMap.2 ⟨b, hb, he⟩)

theorem BWF.of_nwf {n : Nat} {t : Tree D} (h : NWF n MINNODES t) :
    BWF (n+1) (nodeCover t.branches, t) := by
  cases t with
  | data d => exact h.elim
  | node l bs =>
    obtain ⟨h1, h2, h3, h4⟩ := h
    refine ⟨h1, h2, h3, h4, ?_⟩
    apply Tight.nodeCover
    · intro he; subst he; simp at h2
    · exact fun b hb => (h4 b hb).tight

theorem perm_flatMap {α β : Type} {l m : List α} (f : α → List β) (h : l.Perm m) :
    (l.flatMap f).Perm (m.flatMap f) := List.Perm.flatMap_right f h

theorem set_perm {α : Type} (l : List α) (i : Nat) (h : i < l.length) (x : α) :
    (l.set i x).Perm (x :: l.eraseIdx i) := by
  rw [List.set_eq_take_append_cons_drop, if_pos h, List.eraseIdx_eq_take_drop_succ]
  exact List.perm_middle

theorem perm_eraseIdx {α : Type} (l : List α) (i : Nat) (h : i < l.length) :
    l.Perm (l[i] :: l.eraseIdx i) := by
  have := set_perm l i h l[i]
  rwa [List.set_getElem_self] at this

/-- What inserting `(r, x)` (a level-`k` branch) into a level-`n` node yields. -/
def InsertResult (n k : Nat) (r : Rect) (x : Tree D) (bs : List (Branch D)) :
    Tree D × Option (Tree D) → Prop
  | (t, none) => ∃ bs', t = .node n bs' ∧ bs.length ≤ bs'.length ∧ bs'.length ≤ MAXNODES ∧
      (∀ b ∈ bs', BWF n b) ∧ (bs'.flatMap (bitems n)).Perm (bitems k (r, x) ++ bs.flatMap (bitems n))
  | (t, some o) => ∃ a b, t = .node n a ∧ o = .node n b ∧ NWF n MINNODES t ∧ NWF n MINNODES o ∧
      (a.flatMap (bitems n) ++ b.flatMap (bitems n)).Perm
        (bitems k (r, x) ++ bs.flatMap (bitems n))

theorem addBranch_result (hA : A.Ok Bd) {n : Nat} (b : Branch D) (bs : List (Branch D))
    (hlen : bs.length ≤ MAXNODES) (hb : BWF n b) (hbs : ∀ c ∈ bs, BWF n c)
    (hi : InBd Bd (bitems n b)) (his : InBd Bd (bs.flatMap (bitems n))) :
    ∃ res, addBranch A b (n : Int) bs = some res ∧ InsertResult n n b.1 b.2 bs res := by
  have hall : ∀ c ∈ b :: bs, BWF n c := by
    intro c hc
    rcases List.mem_cons.1 hc with rfl | hc
    · exact hb
    · exact hbs c hc
  have hgood : ∀ c ∈ b :: bs, Good Bd c.1 := by
    intro c hc
    rcases List.mem_cons.1 hc with rfl | hc
    · exact hb.good hi
    · exact (hbs c hc).good (his.branch hc)
  rcases addBranch_spec hA b (n : Int) bs hlen hgood with
    ⟨h1, h2⟩ | ⟨x, y, e, hp, h1, h2, h3, h4⟩
  · refine ⟨_, h2, bs ++ [b], rfl, by simp, by simp; omega, ?_, ?_⟩
    · intro c hc
      apply hall
      simp at hc ⊢; tauto
    · simp only [List.flatMap_append, List.flatMap_cons, List.flatMap_nil, List.append_nil]
      exact List.perm_append_comm
  · refine ⟨_, e, x, y, rfl, rfl, ⟨rfl, h1, h2, ?_⟩, ⟨rfl, h3, h4, ?_⟩, ?_⟩
    · intro c hc; exact hall c (hp.mem_iff.1 (List.mem_append_left _ hc))
    · intro c hc; exact hall c (hp.mem_iff.1 (List.mem_append_right _ hc))
    · rw [← List.flatMap_append]
      exact (perm_flatMap _ hp).trans (by simp)

theorem insertRec_spec (hA : A.Ok Bd) (n k : Nat) (r : Rect) (x : Tree D) (bs : List (Branch D)) (hk : k ≤ n)
    (hx : BWF k (r, x)) (hbs : ∀ b ∈ bs, BWF n b) (hlen : bs.length ≤ MAXNODES)
    (hne : k < n → bs ≠ []) (hin : InBd Bd (bitems k (r, x)))
    (his : InBd Bd (bs.flatMap (bitems n))) :
    ∃ res, insertRec A n r x (.node n bs) (k : Int) = some res ∧ InsertResult n k r x bs res := by
  induction n generalizing bs with
  | zero =>
    obtain rfl : k = 0 := by omega
    rw [insertRec, if_pos (by simp)]
    exact addBranch_result hA (r, x) bs hlen hx hbs hin his
  | succ n ih =>
    rw [insertRec, if_neg (by simp; omega)]
    by_cases hkn : k = n + 1
    · subst hkn
      rw [if_neg (by simp)]
      exact addBranch_result hA (r, x) bs hlen hx hbs hin his
    · rw [if_pos (by omega)]
      obtain ⟨i, hi, hil⟩ := pickBranch_spec (A := A) r bs (hne (by omega))
      have hgi : bs[i]? = some bs[i] := List.getElem?_eq_getElem hil
      have hbi : BWF (n+1) bs[i] := hbs _ (List.getElem_mem hil)
      have htight := hbi.tight
      obtain ⟨⟨cr, ct⟩, hc⟩ : ∃ c, bs[i] = c := ⟨_, rfl⟩
      rw [hc] at hbi hgi htight
      cases ct with
      | data d => exact hbi.elim
      | node l cbs =>
        obtain ⟨h1, h2, h3, h4, _⟩ := hbi
        subst h1
        obtain ⟨res, e, hres⟩ := ih cbs (by omega) h4 h3 (by
          intro _ h; subst h; simp at h2) (by
          have := his.branch (List.getElem_mem hil)
          rw [hc] at this
          exact this)
        have hperm := perm_flatMap (bitems (n+1)) (perm_eraseIdx bs i hil)
        rw [hc] at hperm
        simp only [List.flatMap_cons] at hperm
        obtain ⟨t, o⟩ := res
        simp only [hi, hgi, e, Option.bind_eq_bind, Option.bind_some]
        cases o with
        | none =>
          obtain ⟨cbs', rfl, l1, l2, w, p⟩ := hres
          have hnew : BWF (n+1) (combine r cr, Tree.node (n : Int) cbs') := by
            refine ⟨rfl, by omega, l2, w, ?_⟩
            exact (Tight.combine hx.tight htight).perm p.symm
          refine ⟨_, rfl, bs.set i (combine r cr, .node n cbs'), rfl, by simp, by simpa using hlen,
            ?_, ?_⟩
          · intro b hb
            rcases List.mem_or_eq_of_mem_set hb with hb | rfl
            · exact hbs b hb
            · exact hnew
          · refine (perm_flatMap _ (set_perm bs i hil _)).trans ?_
            simp only [List.flatMap_cons]
            refine List.Perm.trans ?_ (hperm.symm.append_left _)
            rw [← List.append_assoc]
            exact List.Perm.append_right _ p
        | some o =>
          obtain ⟨a, b, rfl, rfl, wa, wb, p⟩ := hres
          have hwA := BWF.of_nwf wa
          have hB := BWF.of_nwf wb
          have hall : ∀ c ∈ bs.set i (nodeCover (Tree.node (n:Int) a).branches, .node n a),
              BWF (n+1) c := by
            intro c hc
            rcases List.mem_or_eq_of_mem_set hc with hc | rfl
            · exact hbs c hc
            · exact hwA
          have hp2 : (bitems (n+1) (nodeCover (Tree.node (n:Int) b).branches, Tree.node (n:Int) b) ++
              (bs.set i (nodeCover (Tree.node (n:Int) a).branches, Tree.node n a)).flatMap
                (bitems (n+1))).Perm (bitems k (r, x) ++ bs.flatMap (bitems (n+1))) := by
            refine ((perm_flatMap _ (set_perm bs i hil _)).append_left _).trans ?_
            simp only [List.flatMap_cons]
            refine List.Perm.trans ?_ (hperm.symm.append_left _)
            rw [← List.append_assoc, ← List.append_assoc]
            refine List.Perm.append_right _ ?_
            refine List.perm_append_comm.trans ?_
            exact p
          have hin2 : InBd Bd _ := (hin.append his).perm hp2
          obtain ⟨res, e2, hres2⟩ := addBranch_result hA (n := n+1) _ _
            (by simpa using hlen) hB hall hin2.left hin2.right
          refine ⟨res, e2, ?_⟩
          obtain ⟨t2, o2⟩ := res
          cases o2 with
          | none =>
            obtain ⟨bs', rfl, l1, l2, w, p'⟩ := hres2
            exact ⟨bs', rfl, by simpa using l1, l2, w, p'.trans hp2⟩
          | some o2 =>
            obtain ⟨a', b', e1, e2, w1, w2, p'⟩ := hres2
            exact ⟨a', b', e1, e2, w1, w2, p'.trans hp2⟩

/-- Inserting a level-`k` branch into a root keeps it well-formed (the root may grow by one
level) and adds exactly the branch's entries. -/
theorem insertRect_spec (hA : A.Ok Bd) (n k lo : Nat) (r : Rect) (x : Tree D) (t : Tree D) (hk : k ≤ n)
    (hx : BWF k (r, x)) (ht : NWF n lo t) (hlo : 0 < n → 1 ≤ lo) (hlo2 : lo ≤ 2)
    (hi : InBd Bd (bitems k (r, x))) (his : InBd Bd (items t)) :
    ∃ t' n', insertRect A r x t (k : Int) = some t' ∧ n ≤ n' ∧ NWF n' lo t' ∧
      (items t').Perm (bitems k (r, x) ++ items t) := by
  cases t with
  | data d => exact ht.elim
  | node l bs =>
    obtain ⟨rfl, h1, h2, h3⟩ := ht
    obtain ⟨res, e, hres⟩ := insertRec_spec hA n k r x bs hk hx h3 h2 (by
      intro h he; subst he; simp at h1; omega) hi (by
      simpa [items, Tree.branches, Tree.level] using his)
    unfold insertRect
    rw [if_neg (by simp [Tree.level]; omega)]
    simp only [Tree.level, Int.toNat_natCast, e, Option.bind_eq_bind, Option.bind_some]
    obtain ⟨t, o⟩ := res
    cases o with
    | none =>
      obtain ⟨bs', rfl, l1, l2, w, p⟩ := hres
      refine ⟨_, n, rfl, le_refl _, ⟨rfl, by omega, l2, w⟩, ?_⟩
      simpa [items, Tree.branches, Tree.level] using p
    | some o =>
      obtain ⟨a, b, rfl, rfl, wa, wb, p⟩ := hres
      refine ⟨_, n+1, rfl, by omega, ⟨by simp [Tree.level], by simpa using hlo2, by simp [MAXNODES], ?_⟩, ?_⟩
      · intro c hc
        simp only [List.mem_cons, List.not_mem_nil, or_false] at hc
        rcases hc with rfl | rfl
        · exact BWF.of_nwf wa
        · exact BWF.of_nwf wb
      · have : ((n : Int) + 1).toNat = n + 1 := by omega
        simpa [items, Tree.branches, Tree.level, this, bitems] using p

end Verif.RTree

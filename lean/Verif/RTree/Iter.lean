import Verif.RTree.IterModel
import Verif.RTree.Search

/-! Helper lemmas: iteration, saving and loading. -/

namespace Verif.RTree

variable {D : Type}

/-! ## Save / Load -/

theorem loadLeaf_save (bs : List (Branch D)) (rest : List (Tok D)) (h : ∀ b ∈ bs, BWF 0 b) :
    loadLeaf bs.length (saveLeaf bs ++ rest) = some (bs, rest) := by
  induction bs with
  | nil => simp [loadLeaf, saveLeaf]
  | cons b bs ih =>
    obtain ⟨r, t⟩ := b
    cases t with
    | node l x => exact (h (r, Tree.node l x) (by simp)).elim
    | data d =>
      simp only [List.length_cons, saveLeaf, List.cons_append, loadLeaf, readRect]
      simp [ih (fun b hb => h b (by simp [hb]))]

theorem loadInner_save (n : Nat) (rec : List (Tok D) → Option (Tree D × List (Tok D)))
    (bs : List (Branch D)) (rest : List (Tok D)) (h : ∀ b ∈ bs, BWF (n+1) b)
    (hrec : ∀ (cbs : List (Branch D)) (rest : List (Tok D)), (∀ b ∈ cbs, BWF n b) →
      cbs.length ≤ MAXNODES →
      rec (saveRec n (.node n cbs) ++ rest) = some (.node n cbs, rest)) :
    loadInner rec bs.length (saveInner (saveRec n) bs ++ rest) = some (bs, rest) := by
  induction bs with
  | nil => simp [loadInner, saveInner]
  | cons b bs ih =>
    obtain ⟨r, t⟩ := b
    have hb := h (r, t) (by simp)
    cases t with
    | data d => exact hb.elim
    | node l cbs =>
      obtain ⟨rfl, _, h2, h3, _⟩ := hb
      simp only [List.length_cons, saveInner, List.cons_append, loadInner, readRect]
      simp [List.append_assoc, hrec cbs _ h3 h2, ih (fun b hb => h b (by simp [hb]))]

theorem loadRec_save (n f : Nat) (l0 : Int) (bs : List (Branch D)) (rest : List (Tok D))
    (h : ∀ b ∈ bs, BWF n b) (hl : bs.length ≤ MAXNODES) (hf : n < f) :
    loadRec f l0 (saveRec n (.node n bs) ++ rest) = some (.node n bs, rest) := by
  induction n generalizing bs rest f l0 with
  | zero =>
    obtain ⟨f, rfl⟩ : ∃ g, f = g + 1 := ⟨f - 1, by omega⟩
    simp only [saveRec, Tree.level, Tree.count, Tree.branches, List.cons_append, loadRec, readInt]
    have hc : ¬ ((bs.length : Int) < 0 ∨ (bs.length : Int) > (MAXNODES : Int)) := by omega
    have := loadLeaf_save bs rest h
    simp [this]
    exact hl
  | succ n ih =>
    obtain ⟨f, rfl⟩ : ∃ g, f = g + 1 := ⟨f - 1, by omega⟩
    have hlv : ((n+1 : Nat) : Int) > 0 := by omega
    simp only [saveRec, Tree.level, Tree.count, Tree.branches, List.cons_append, loadRec, readInt,
      if_pos hlv]
    have hc : ¬ ((bs.length : Int) < 0 ∨ (bs.length : Int) > (MAXNODES : Int)) := by omega
    have := loadInner_save n (loadRec f (-1)) bs rest h
      (fun cbs rest h1 h2 => ih f (-1) cbs rest h1 h2 (by omega))
    simp [this]
    exact hl

theorem saveRec_length (n : Nat) (bs : List (Branch D)) (h : ∀ b ∈ bs, BWF n b)
    (hne : 0 < n → bs ≠ []) : n + 1 ≤ (saveRec n (.node n bs)).length := by
  induction n generalizing bs with
  | zero => simp [saveRec]
  | succ n ih =>
    have hlv : (Tree.node ((n+1 : Nat) : Int) bs).level > 0 := by simp only [Tree.level]; omega
    simp only [saveRec]
    rw [if_pos hlv]
    simp only [Tree.branches, List.length_cons]
    cases bs with
    | nil => exact absurd rfl (hne (by omega))
    | cons b bs =>
      obtain ⟨r, t⟩ := b
      have hb := h (r, t) (by simp)
      cases t with
      | data d => exact hb.elim
      | node l cbs =>
        obtain ⟨rfl, h1, _, h3, _⟩ := hb
        have := ih cbs h3 (by intro _ he; subst he; simp at h1)
        simp only [saveInner, List.length_cons, List.length_append]
        omega

theorem readInts_map (zs : List Int) (rest : List (Tok D)) :
    readInts zs.length (zs.map .int ++ rest) = some (zs, rest) := by
  induction zs with
  | nil => rfl
  | cons z zs ih => simp [readInts, readInt, ih]

theorem load_save (t : Tree D) (rest : List (Tok D)) (ht : WF t) :
    load (save t ++ rest) = some (true, t, rest) := by
  have hne : ∃ n, NWF n 0 t ∧ (0 < n → t.branches ≠ []) := by
    rcases ht with h | ⟨n, h⟩
    · exact ⟨0, h, by omega⟩
    · cases t with
      | data d => exact h.elim
      | node l bs =>
        obtain ⟨rfl, h1, h2, h3⟩ := h
        exact ⟨n+1, ⟨rfl, by omega, h2, h3⟩, by
          intro _ he; simp only [Tree.branches] at he; subst he; simp at h1⟩
  obtain ⟨n, hn, hne⟩ := hne
  cases t with
  | data d => exact hn.elim
  | node l bs =>
    obtain ⟨rfl, _, h2, h3⟩ := hn
    unfold load save
    rw [List.append_assoc]
    have h7 : readInts 7 (header.map Tok.int ++ (saveRec (Tree.level (Tree.node (n:Int) bs)).toNat
        (Tree.node (n:Int) bs) ++ rest)) = some (header, saveRec n (Tree.node (n:Int) bs) ++ rest) :=
      readInts_map header _
    rw [h7]
    simp only [Option.bind_eq_bind, Option.bind_some, if_true]
    rw [loadRec_save n _ 0 bs rest h3 h2 (by
      have := saveRec_length n bs h3 hne
      simp only [List.length_append]; omega)]
    rfl

/-! ## Iteration -/

/-- Entries still to be visited below one stack element. -/
def den1 (e : StackElem D) : List (Rect × D) :=
  (e.1.branches.drop e.2).flatMap (bitems e.1.level.toNat)

/-- Entries still to be visited. -/
def den (st : List (StackElem D)) : List (Rect × D) := st.flatMap den1

/-- A stack element: a well-formed node of level `n` with a valid index. -/
def EOk (n : Nat) : StackElem D → Prop
  | (.node l bs, i) => l = n ∧ i < bs.length ∧ ∀ b ∈ bs, BWF n b
  | (.data _, _) => False

/-- Levels increase strictly from top to bottom, starting at `lo` or above, and stay below `hi`. -/
def SOk (lo hi : Nat) : List (StackElem D) → Prop
  | [] => lo ≤ hi
  | e :: st => ∃ n, lo ≤ n ∧ EOk n e ∧ SOk (n + 1) hi st

theorem SOk.length {lo hi : Nat} {st : List (StackElem D)} (h : SOk lo hi st) :
    lo + st.length ≤ hi := by
  induction st generalizing lo with
  | nil => exact h
  | cons e st ih =>
    obtain ⟨n, h1, _, h3⟩ := h
    have := ih h3
    simp only [List.length_cons]; omega

theorem SOk.mono {lo lo' hi : Nat} {st : List (StackElem D)} (h : SOk lo hi st) (hl : lo' ≤ lo) :
    SOk lo' hi st := by
  cases st with
  | nil => exact le_trans hl h
  | cons e st =>
    obtain ⟨n, h1, h2⟩ := h
    exact ⟨n, by omega, h2⟩

/-- The stack shape between calls: empty, or a leaf element on top. -/
def Ready : List (StackElem D) → Prop
  | [] => True
  | e :: _ => e.1.level = 0

theorem push_ok {lo hi : Nat} (hhi : hi ≤ MAXSTACK) (e : StackElem D) (st : List (StackElem D))
    (h : SOk (lo+1) hi st) : push e st = some (e :: st) := by
  have := h.length
  unfold push
  rw [if_pos (by omega)]

theorem drop_flatMap {α β : Type} (l : List α) (i : Nat) (h : i < l.length) (f : α → List β) :
    (l.drop i).flatMap f = f l[i] ++ (l.drop (i+1)).flatMap f := by
  rw [List.drop_eq_getElem_cons h, List.flatMap_cons]

theorem findNext_inner (n hi f : Nat) (hhi : hi ≤ MAXSTACK) (bs : List (Branch D)) (i : Nat)
    (st : List (StackElem D)) (hi' : i < bs.length) (hbs : ∀ b ∈ bs, BWF (n+1) b)
    (hst : SOk (n+2) hi st) (hf : n < f) :
    ∃ st', findNext f ((.node ((n+1 : Nat) : Int) bs, i) :: st) = some st' ∧ SOk 0 hi st' ∧
      Ready st' ∧ den st' = den ((.node ((n+1 : Nat) : Int) bs, i) :: st) := by
  induction n generalizing bs i st f with
  | zero =>
    obtain ⟨f, rfl⟩ : ∃ g, f = g + 1 := ⟨f - 1, by omega⟩
    have hb := hbs _ (List.getElem_mem hi')
    obtain ⟨⟨br, t⟩, hc⟩ : ∃ c, bs[i] = c := ⟨_, rfl⟩
    have hgi : bs[i]? = some (br, t) := by rw [List.getElem?_eq_getElem hi', hc]
    rw [hc] at hb
    cases t with
    | data d => exact hb.elim
    | node l cbs =>
      obtain ⟨rfl, h1, h2, h3, _⟩ := hb
      have hc0 : 0 < cbs.length := lt_of_lt_of_le (by decide) h1
      have hbi : bitems 1 (br, Tree.node ((0:Nat):Int) cbs) = cbs.flatMap (bitems 0) := rfl
      simp only [findNext]
      rw [if_neg (by omega)]
      by_cases hi2 : i + 1 < bs.length
      · have hs1 : SOk 1 hi ((Tree.node ((0+1 : Nat) : Int) bs, i+1) :: st) :=
          ⟨1, le_refl _, ⟨rfl, hi2, hbs⟩, hst⟩
        rw [if_pos hi2, push_ok (lo := 1) hhi _ _ hst]
        simp only [Option.bind_eq_bind, Option.bind_some, hgi]
        rw [push_ok (lo := 0) hhi _ _ hs1]
        simp only [Option.bind_some, Tree.level, Nat.cast_zero, if_true]
        refine ⟨_, rfl, ⟨0, le_refl _, ⟨rfl, hc0, h3⟩, hs1⟩, rfl, ?_⟩
        simp only [den, List.flatMap_cons, den1, Tree.branches, Tree.level]
        rw [drop_flatMap bs i hi', hc]
        simp [bitems]
      · have hs1 : SOk 1 hi st := hst.mono (by omega)
        rw [if_neg hi2]
        simp only [Option.bind_eq_bind, Option.bind_some, hgi]
        rw [push_ok (lo := 0) hhi _ _ hs1]
        simp only [Option.bind_some, Tree.level, Nat.cast_zero, if_true]
        refine ⟨_, rfl, ⟨0, le_refl _, ⟨rfl, hc0, h3⟩, hs1⟩, rfl, ?_⟩
        simp only [den, List.flatMap_cons, den1, Tree.branches, Tree.level]
        have hd : bs.drop (i+1) = [] := List.drop_eq_nil_of_le (by omega)
        rw [drop_flatMap bs i hi', hc, hd]
        simp [bitems]
  | succ n ih =>
    obtain ⟨f, rfl⟩ : ∃ g, f = g + 1 := ⟨f - 1, by omega⟩
    have hb := hbs _ (List.getElem_mem hi')
    obtain ⟨⟨br, t⟩, hc⟩ : ∃ c, bs[i] = c := ⟨_, rfl⟩
    have hgi : bs[i]? = some (br, t) := by rw [List.getElem?_eq_getElem hi', hc]
    rw [hc] at hb
    cases t with
    | data d => exact hb.elim
    | node l cbs =>
      obtain ⟨rfl, h1, h2, h3, _⟩ := hb
      have hc0 : 0 < cbs.length := lt_of_lt_of_le (by decide) h1
      simp only [findNext]
      rw [if_neg (by omega)]
      have hlv : ¬ ((n+1 : Nat) : Int) = 0 := by omega
      have hT : ((n:Int)+1).toNat = n + 1 := by omega
      have hT2 : ((n:Int)+1+1).toNat = n + 2 := by omega
      by_cases hi2 : i + 1 < bs.length
      · have hs1 : SOk (n+2) hi ((Tree.node ((n+1+1 : Nat) : Int) bs, i+1) :: st) :=
          ⟨n+2, le_refl _, ⟨rfl, hi2, hbs⟩, hst⟩
        rw [if_pos hi2, push_ok (lo := n+2) hhi _ _ hst]
        simp only [Option.bind_eq_bind, Option.bind_some, hgi]
        rw [push_ok (lo := n+1) hhi _ _ hs1]
        simp only [Option.bind_some, Tree.level, if_neg hlv]
        obtain ⟨st', e, a1, a2, a3⟩ := ih f cbs 0 _ hc0 h3 hs1 (by omega)
        refine ⟨st', e, a1, a2, a3.trans ?_⟩
        simp only [den, List.flatMap_cons, den1, Tree.branches, Tree.level]
        rw [drop_flatMap bs i hi', hc]
        simp [bitems, hT, hT2]
      · have hs1 : SOk (n+2) hi st := hst.mono (by omega)
        rw [if_neg hi2]
        simp only [Option.bind_eq_bind, Option.bind_some, hgi]
        rw [push_ok (lo := n+1) hhi _ _ hs1]
        simp only [Option.bind_some, Tree.level, if_neg hlv]
        obtain ⟨st', e, a1, a2, a3⟩ := ih f cbs 0 _ hc0 h3 hs1 (by omega)
        refine ⟨st', e, a1, a2, a3.trans ?_⟩
        simp only [den, List.flatMap_cons, den1, Tree.branches, Tree.level]
        have hd : bs.drop (i+1) = [] := List.drop_eq_nil_of_le (by omega)
        rw [drop_flatMap bs i hi', hc, hd]
        simp [bitems, hT, hT2]

theorem SOk.hi_le {lo hi : Nat} {st : List (StackElem D)} (h : SOk lo hi st) : lo ≤ hi := by
  have := h.length; omega

theorem findNext_ready (hi f : Nat) (hhi : hi ≤ MAXSTACK) (e : StackElem D)
    (st : List (StackElem D)) (h : SOk 0 hi (e :: st)) (hr : Ready (e :: st)) (hf : hi < f) :
    ∃ x st', current (e :: st) = some x ∧ findNext f (e :: st) = some st' ∧ SOk 0 hi st' ∧
      Ready st' ∧ den (e :: st) = x :: den st' := by
  obtain ⟨f, rfl⟩ : ∃ g, f = g + 1 := ⟨f - 1, by omega⟩
  obtain ⟨n, h1, h2, h3⟩ := h
  obtain ⟨t, i⟩ := e
  cases t with
  | data d => exact h2.elim
  | node l bs =>
    obtain ⟨rfl, hi', hbs⟩ := h2
    obtain rfl : n = 0 := by simpa [Ready, Tree.level] using hr
    have hb := hbs _ (List.getElem_mem hi')
    obtain ⟨⟨br, t⟩, hc⟩ : ∃ c, bs[i] = c := ⟨_, rfl⟩
    have hgi : bs[i]? = some (br, t) := by rw [List.getElem?_eq_getElem hi', hc]
    rw [hc] at hb
    cases t with
    | node l cbs => exact hb.elim
    | data d =>
      have hden : den ((Tree.node ((0:Nat):Int) bs, i) :: st) =
          (br, d) :: ((bs.drop (i+1)).flatMap (bitems 0) ++ den st) := by
        simp only [den, List.flatMap_cons, den1, Tree.branches, Tree.level]
        simp only [Nat.cast_zero, Int.toNat_zero]
        rw [drop_flatMap bs i hi', hc]
        simp [bitems]
      refine ⟨(br, d), ?_⟩
      rw [hden]
      simp only [current, hgi, findNext, Nat.cast_zero, if_true]
      by_cases hi2 : i + 1 < bs.length
      · rw [if_pos hi2, push_ok (lo := 0) hhi _ _ h3]
        refine ⟨_, trivial, rfl, ⟨0, le_refl _, ⟨rfl, hi2, hbs⟩, h3⟩, rfl, ?_⟩
        simp [den, List.flatMap_cons, den1, Tree.branches, Tree.level]
      · rw [if_neg hi2, List.drop_eq_nil_of_le (by omega)]
        cases st with
        | nil =>
          obtain ⟨f, rfl⟩ : ∃ g, f = g + 1 := ⟨f - 1, by have := h3.hi_le; omega⟩
          exact ⟨[], trivial, by simp [findNext], by simp [SOk], trivial, by simp⟩
        | cons e st =>
          have hlen := h3.length
          simp only [List.length_cons] at hlen
          obtain ⟨m, m1, m2, m3⟩ := h3
          obtain ⟨t, j⟩ := e
          cases t with
          | data d => exact m2.elim
          | node l cbs =>
            obtain ⟨rfl, hj, hcbs⟩ := m2
            obtain ⟨m, rfl⟩ : ∃ k, m = k + 1 := ⟨m - 1, by omega⟩
            have := m3.hi_le
            obtain ⟨st', e, a1, a2, a3⟩ := findNext_inner m hi f hhi cbs j st hj hcbs m3 (by omega)
            exact ⟨st', trivial, e, a1, a2, by simp [a3]⟩

theorem visit_spec (hi f : Nat) (hhi : hi ≤ MAXSTACK) (n : Nat) (st : List (StackElem D))
    (h : SOk 0 hi st) (hr : Ready st) (hf : hi < f) (hn : (den st).length ≤ n) :
    visit n f st = some (den st) := by
  induction n generalizing st with
  | zero =>
    cases st with
    | nil => simp [visit, den]
    | cons e st =>
      obtain ⟨x, st', _, _, _, _, hd⟩ := findNext_ready hi f hhi e st h hr hf
      rw [hd] at hn; simp at hn
  | succ n ih =>
    cases st with
    | nil => simp [visit, den]
    | cons e st =>
      obtain ⟨x, st', e1, e2, h1, h2, hd⟩ := findNext_ready hi f hhi e st h hr hf
      simp only [visit, e1, e2, Option.bind_eq_bind, Option.bind_some]
      rw [ih st' h1 h2 (by rw [hd] at hn; simpa using hn)]
      simp [hd]

theorem getFirst_spec (n hi f : Nat) (hhi : hi ≤ MAXSTACK) (bs : List (Branch D))
    (st : List (StackElem D)) (hbs : ∀ b ∈ bs, BWF n b) (hne : bs ≠ [])
    (hst : SOk (n+1) hi st) (hf : n < f) :
    ∃ st', getFirst f (.node n bs) st = some st' ∧ SOk 0 hi st' ∧ Ready st' ∧
      den st' = bs.flatMap (bitems n) ++ den st := by
  induction n generalizing bs st f with
  | zero =>
    obtain ⟨f, rfl⟩ : ∃ g, f = g + 1 := ⟨f - 1, by omega⟩
    have hl : 0 < bs.length := List.length_pos_iff.2 hne
    simp only [getFirst]
    rw [if_neg (by simp), if_pos (by simp), if_pos (by omega), push_ok (lo := 0) hhi _ _ hst]
    refine ⟨_, rfl, ⟨0, le_refl _, ⟨rfl, hl, hbs⟩, hst⟩, rfl, ?_⟩
    simp [den, den1, Tree.branches, Tree.level]
  | succ n ih =>
    obtain ⟨f, rfl⟩ : ∃ g, f = g + 1 := ⟨f - 1, by omega⟩
    cases bs with
    | nil => exact absurd rfl hne
    | cons b bs =>
      obtain ⟨br, t⟩ := b
      have hb := hbs (br, t) (by simp)
      cases t with
      | data d => exact hb.elim
      | node l cbs =>
        obtain ⟨rfl, h1, h2, h3, _⟩ := hb
        have hc0 : cbs ≠ [] := by intro he; subst he; simp at h1
        have hT : ((n:Int)+1).toNat = n + 1 := by omega
        simp only [getFirst]
        by_cases h : 1 < ((br, Tree.node (n:Int) cbs) :: bs).length
        · rw [if_pos ⟨by omega, h⟩, push_ok (lo := n+1) hhi _ _ hst]
          simp only [Option.bind_eq_bind, Option.bind_some, List.getElem?_cons_zero]
          obtain ⟨st', e, a1, a2, a3⟩ := ih f cbs
            ((Tree.node ((n+1:Nat):Int) ((br, Tree.node (n:Int) cbs) :: bs), 1) :: st) h3 hc0
            ⟨n+1, le_refl _, ⟨rfl, h, hbs⟩, hst⟩ (by omega)
          refine ⟨st', e, a1, a2, a3.trans ?_⟩
          simp [den, den1, Tree.branches, Tree.level, bitems, hT]
        · rw [if_neg (by simp only [not_and]; intro _; exact h), if_neg (by omega)]
          simp only [Option.bind_eq_bind, Option.bind_some, List.getElem?_cons_zero]
          obtain ⟨st', e, a1, a2, a3⟩ := ih f cbs st h3 hc0 (hst.mono (by omega)) (by omega)
          refine ⟨st', e, a1, a2, a3.trans ?_⟩
          have : bs = [] := by
            simp only [List.length_cons, not_lt] at h
            exact List.length_eq_zero_iff.1 (by omega)
          simp [this, bitems]

/-- A branch at level `n` holds at least `4 ^ n` entries. -/
theorem BWF.size {n : Nat} {b : Branch D} (h : BWF n b) : 4 ^ n ≤ (bitems n b).length := by
  induction n generalizing b with
  | zero =>
    have := h.items_ne
    have := List.length_pos_iff.2 this
    simp only [pow_zero]; omega
  | succ n ih =>
    obtain ⟨r, t⟩ := b
    cases t with
    | data d => exact h.elim
    | node l bs =>
      obtain ⟨_, h1, _, h3, _⟩ := h
      have key : ∀ l : List (Branch D), (∀ b ∈ l, BWF n b) →
          l.length * 4 ^ n ≤ (l.flatMap (bitems n)).length := by
        intro l hl
        induction l with
        | nil => simp
        | cons b l ih2 =>
          have e1 := ih (hl b (by simp))
          have e2 := ih2 (fun b hb => hl b (by simp [hb]))
          simp only [List.flatMap_cons, List.length_append, List.length_cons, add_mul, one_mul]
          omega
      have e1 := key bs h3
      have e2 : 4 * 4 ^ n ≤ bs.length * 4 ^ n := Nat.mul_le_mul_right _ h1
      simp only [bitems]
      rw [pow_succ]
      omega

theorem height_bound (n : Nat) (bs : List (Branch D)) (h : ∀ b ∈ bs, BWF n b)
    (hl : 2 ≤ bs.length) : 2 * 4 ^ n ≤ (bs.flatMap (bitems n)).length := by
  match bs, hl with
  | a :: b :: rest, _ =>
    have e1 := (h a (by simp)).size
    have e2 := (h b (by simp)).size
    simp only [List.flatMap_cons, List.length_append]
    omega

end Verif.RTree

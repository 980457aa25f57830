import Verif.RTree.Geom
import Mathlib.Data.List.Count
import Mathlib.Data.List.Perm.Basic
import Mathlib.Tactic.Ring

/-! Helper lemmas: splitting a node. -/

namespace Verif.RTree

variable {D : Type}

/-! ## What the proofs need to know about the area arithmetic -/

/-- Valid, and inside all rectangles of `Bd` (used to bound coordinates). -/
def Good (Bd : Rect → Prop) (r : Rect) : Prop := r.Valid ∧ ∀ q, Bd q → r.Sub q

theorem Good.combine {Bd : Rect → Prop} {a b : Rect} (ha : Good Bd a) (hb : Good Bd b) :
    Good Bd (combine a b) :=
  ⟨Valid.of_sub ha.1 (sub_combine_left a b), fun q hq =>
    (combine_sub_iff a b q).2 ⟨ha.2 q hq, hb.2 q hq⟩⟩

/-- The two facts about areas on which the split algorithm relies: the first pair of rectangles
beats the initial value of `worst` in `PickSeeds` (`RTree.h:1359-1366`), and every difference of
growths beats the initial value of `biggestDiff` in `ChoosePartition` (`RTree.h:1242-1267`). -/
structure Areas.Ok (A : Areas) (Bd : Rect → Prop) : Prop where
  seeds : ∀ a b c, Good Bd a → Good Bd b → Good Bd c → a.Sub c → b.Sub c →
    A.lt (A.sub (A.neg (A.vol c)) A.one)
      (A.sub (A.sub (A.vol (RTree.combine a b)) (A.vol a)) (A.vol b)) = true
  diff : ∀ a b c e d, Good Bd a → Good Bd b → Good Bd c → Good Bd e →
    d = A.sub (A.sub (A.vol a) (A.vol b)) (A.sub (A.vol c) (A.vol e)) →
    A.lt (A.neg A.one) (if A.lt A.zero d || A.eq d A.zero then d else A.neg d) = true

/-- No bound on the coordinates. -/
def NoBd : Rect → Prop := fun _ => False

theorem good_noBd {r : Rect} : Good NoBd r ↔ r.Valid := ⟨fun h => h.1, fun h => ⟨h, fun _ hq => hq.elim⟩⟩

theorem exact_diff (d : ℚ) :
    (-1 : ℚ) < if decide ((0:ℚ) < d) || decide (d = 0) then d else -d := by
  split_ifs with h
  · simp only [Bool.or_eq_true, decide_eq_true_eq] at h
    rcases h with h | h <;> linarith
  · simp only [Bool.or_eq_true, decide_eq_true_eq, not_or, not_lt] at h
    linarith [h.1]

theorem exact_ok {Bd : Rect → Prop} : Areas.exact.Ok Bd where
  seeds := by
    intro a b c ha hb _ hac _
    have e1 : RTree.vol b ≤ RTree.vol (combine a b) := vol_mono hb.1 (sub_combine_right _ _)
    have e2 : RTree.vol a ≤ RTree.vol c := vol_mono ha.1 hac
    have : -(RTree.vol c) - 1 < RTree.vol (combine a b) - RTree.vol a - RTree.vol b := by linarith
    exact (decide_eq_true this :)
  diff := fun _ _ _ _ d _ _ _ _ _ => (decide_eq_true (exact_diff d) :)

variable {A : Areas} {Bd : Rect → Prop}

/-! ## PickBranch -/

theorem pickLoop_spec (r : Rect) (bs : List (Branch D)) (i : Nat) (acc : Option (Nat × A.α × A.α))
    (hacc : ∀ a, acc = some a → a.1 < i) (h : acc.isSome ∨ bs ≠ []) :
    ∃ a, pickLoop A r i bs acc = some a ∧ a.1 < i + bs.length := by
  induction bs generalizing i acc with
  | nil =>
    cases acc with
    | none => simp at h
    | some a => exact ⟨a, rfl, by simpa using hacc a rfl⟩
  | cons b bs ih =>
    unfold pickLoop
    simp only [List.length_cons]
    have key : ∀ a : Nat × A.α × A.α, a.1 < i + 1 →
        ∃ a', pickLoop A r (i+1) bs (some a) = some a' ∧ a'.1 < i + (bs.length + 1) := by
      intro a ha
      obtain ⟨a', h1, h2⟩ := ih (i+1) (some a) (by intro x hx; cases hx; exact ha) (Or.inl rfl)
      exact ⟨a', h1, by omega⟩
    cases acc with
    | none => exact key _ (Nat.lt_succ_self i)
    | some a =>
      obtain ⟨a1, a2, a3⟩ := a
      have := hacc _ rfl
      simp only at this ⊢
      split_ifs
      · exact key _ (Nat.lt_succ_self i)
      · exact key _ (Nat.lt_succ_self i)
      · exact key _ (by simp; omega)

theorem pickBranch_spec (r : Rect) (bs : List (Branch D)) (h : bs ≠ []) :
    ∃ i, pickBranch A r bs = some i ∧ i < bs.length := by
  obtain ⟨a, h1, h2⟩ := pickLoop_spec (A := A) r bs 0 none (by simp) (Or.inr h)
  exact ⟨a.1, by simp [pickBranch, h1], by omega⟩

/-! ## PickSeeds -/

theorem seedsInner_spec (ra : Rect) (ia : Nat) (bs : List (Branch D)) (ib : Nat)
    (acc : A.α × Option (Nat × Nat)) (n : Nat) (hab : ia < ib) (hn : ib + bs.length ≤ n)
    (hacc : ∀ s, acc.2 = some s → s.1 < s.2 ∧ s.2 < n) :
    (∀ s, (seedsInner A ra ia ib bs acc).2 = some s → s.1 < s.2 ∧ s.2 < n) ∧
    (acc.2.isSome → (seedsInner A ra ia ib bs acc).2.isSome) ∧
    (∀ b bs', bs = b :: bs' → A.lt acc.1 (A.sub (A.sub (A.vol (combine ra b.1)) (A.vol ra)) (A.vol b.1)) →
      (seedsInner A ra ia ib bs acc).2.isSome) := by
  induction bs generalizing ib acc with
  | nil => exact ⟨hacc, id, by simp⟩
  | cons b bs ih =>
    rw [seedsInner]
    simp only [List.length_cons] at hn
    have hacc' : ∀ s, (if A.lt acc.1 (A.sub (A.sub (A.vol (combine ra b.1)) (A.vol ra)) (A.vol b.1)) then
        (A.sub (A.sub (A.vol (combine ra b.1)) (A.vol ra)) (A.vol b.1), some (ia, ib)) else acc).2 = some s →
        s.1 < s.2 ∧ s.2 < n := by
      intro s hs
      split_ifs at hs
      · simp only [Option.some.injEq] at hs; subst hs; exact ⟨hab, by omega⟩
      · exact hacc s hs
    obtain ⟨h1, h2, _⟩ := ih (ib + 1) _ (by omega) (by omega) hacc'
    refine ⟨h1, ?_, ?_⟩
    · intro h
      apply h2
      split_ifs
      · rfl
      · exact h
    · intro b' bs' he hw
      cases he
      apply h2
      rw [if_pos hw]; rfl

theorem seedsOuter_spec (bs : List (Branch D)) (ia : Nat) (acc : A.α × Option (Nat × Nat)) (n : Nat)
    (hn : ia + bs.length = n) (hacc : ∀ s, acc.2 = some s → s.1 < s.2 ∧ s.2 < n) :
    (∀ s, (seedsOuter A ia bs acc).2 = some s → s.1 < s.2 ∧ s.2 < n) ∧
    (acc.2.isSome → (seedsOuter A ia bs acc).2.isSome) ∧
    (∀ a b bs', bs = a :: b :: bs' → A.lt acc.1 (A.sub (A.sub (A.vol (combine a.1 b.1)) (A.vol a.1)) (A.vol b.1)) →
      (seedsOuter A ia bs acc).2.isSome) := by
  induction bs generalizing ia acc with
  | nil => exact ⟨hacc, id, by simp⟩
  | cons a bs ih =>
    rw [seedsOuter]
    simp only [List.length_cons] at hn
    obtain ⟨i1, i2, i3⟩ := seedsInner_spec a.1 ia bs (ia+1) acc n (by omega) (by omega) hacc
    obtain ⟨o1, o2, _⟩ := ih (ia+1) _ (by omega) i1
    refine ⟨o1, fun h => o2 (i2 h), ?_⟩
    intro a' b bs' he hw
    cases he
    exact o2 (i3 b bs' rfl hw)

theorem Good.nodeCover {buf : List (Branch D)} (hne : buf ≠ []) (hv : ∀ b ∈ buf, Good Bd b.1) :
    Good Bd (nodeCover buf) := by
  obtain ⟨a, ha⟩ := List.exists_mem_of_ne_nil _ hne
  exact ⟨Valid.of_sub (hv a ha).1 (sub_nodeCover ha), fun q hq =>
    (nodeCover_sub_iff hne q).2 fun b hb => (hv b hb).2 q hq⟩

theorem seeds_exist (hA : A.Ok Bd) (buf : List (Branch D)) (h2 : 2 ≤ buf.length)
    (hv : ∀ b ∈ buf, Good Bd b.1) :
    ∃ s0 s1, (seedsOuter A 0 buf (A.sub (A.neg (A.vol (nodeCover buf))) A.one, none)).2 =
      some (s0, s1) ∧ s0 < s1 ∧ s1 < buf.length := by
  obtain ⟨h1, _, h3⟩ := seedsOuter_spec buf 0
    (A.sub (A.neg (A.vol (nodeCover buf))) A.one, none) buf.length (by simp) (by simp)
  match buf, h2 with
  | a :: b :: bs, _ =>
    have hw := hA.seeds a.1 b.1 (nodeCover (a :: b :: bs)) (hv a (by simp)) (hv b (by simp))
      (Good.nodeCover (by simp) hv) (sub_nodeCover (by simp)) (sub_nodeCover (by simp))
    have := h3 a b bs rfl hw
    obtain ⟨s, hs⟩ := Option.isSome_iff_exists.1 this
    exact ⟨s.1, s.2, hs, h1 s hs⟩

/-! ## Classify -/

/-- Bookkeeping invariant of the partition variables. -/
def PInv (n : Nat) (pv : ParVars A) : Prop :=
  pv.part.length = n ∧ pv.count0 = pv.part.count (some false) ∧ pv.count1 = pv.part.count (some true)

/-- The cover rectangles of non-empty groups are good, and the areas are theirs. -/
def CInv (Bd : Rect → Prop) (pv : ParVars A) : Prop :=
  (0 < pv.count0 → Good Bd pv.cover0 ∧ pv.area0 = A.vol pv.cover0) ∧
  (0 < pv.count1 → Good Bd pv.cover1 ∧ pv.area1 = A.vol pv.cover1)

theorem classify_covers (buf : List (Branch D)) (i : Nat) (g : Bool) (pv pv' : ParVars A)
    (hv : ∀ b ∈ buf, Good Bd b.1) (h : classify A buf i g pv = some pv') (hC : CInv Bd pv) :
    CInv Bd pv' := by
  unfold classify at h
  cases hb : buf[i]? with
  | none => rw [hb] at h; cases h
  | some b =>
    have hg := hv b (List.mem_of_getElem? hb)
    cases hp : pv.part[i]? with
    | none => rw [hb, hp] at h; cases h
    | some x =>
      cases x with
      | some _ => rw [hb, hp] at h; cases h
      | none =>
        rw [hb, hp] at h
        simp only at h
        cases g with
        | false =>
          rw [if_neg (by simp)] at h
          injection h with h
          subst h
          refine ⟨fun _ => ⟨?_, rfl⟩, hC.2⟩
          simp only
          split_ifs with h0
          · exact hg
          · exact hg.combine (hC.1 (by omega)).1
        | true =>
          rw [if_pos rfl] at h
          injection h with h
          subst h
          refine ⟨hC.1, fun _ => ⟨?_, rfl⟩⟩
          simp only
          split_ifs with h0
          · exact hg
          · exact hg.combine (hC.2 (by omega)).1

theorem count_total (l : List (Option Bool)) :
    l.count (some false) + l.count (some true) + l.count none = l.length := by
  induction l with
  | nil => rfl
  | cons a l ih =>
    rcases a with _ | _ | _ <;> simp [List.count_cons] <;> omega

theorem set_none_count {l : List (Option Bool)} {i : Nat} (h : l[i]? = some none) (g : Bool)
    (x : Option Bool) (hx : x ≠ none) :
    (l.set i (some g)).count x = l.count x + (if x = some g then 1 else 0) := by
  induction l generalizing i with
  | nil => simp at h
  | cons a l ih =>
    cases i with
    | zero =>
      simp only [List.getElem?_cons_zero, Option.some.injEq] at h
      subst h
      simp only [List.set_cons_zero, List.count_cons]
      rcases x with _ | x
      · exact absurd rfl hx
      · have e : (none == some x) = false := rfl
        rw [e]
        by_cases hg : g = x
        · subst hg; simp
        · have : x ≠ g := fun h => hg h.symm
          simp [hg, this]
    | succ i =>
      simp only [List.getElem?_cons_succ] at h
      simp only [List.set_cons_succ, List.count_cons, ih h]
      omega

theorem classify_spec (buf : List (Branch D)) (i : Nat) (g : Bool) (pv : ParVars A)
    (hI : PInv buf.length pv) (hi : pv.part[i]? = some none) :
    ∃ pv', classify A buf i g pv = some pv' ∧ PInv buf.length pv' ∧
      pv'.part = pv.part.set i (some g) ∧
      pv'.count0 = pv.count0 + (if g then 0 else 1) ∧
      pv'.count1 = pv.count1 + (if g then 1 else 0) := by
  obtain ⟨hl, h0, h1⟩ := hI
  have hlt : i < buf.length := by
    rw [← hl]; exact (List.getElem?_eq_some_iff.1 hi).1
  have hb : buf[i]? = some buf[i] := List.getElem?_eq_getElem hlt
  have c0 := set_none_count hi g (some false) (by simp)
  have c1 := set_none_count hi g (some true) (by simp)
  unfold classify
  rw [hb, hi]
  cases g
  · refine ⟨_, rfl, ⟨?_, ?_, ?_⟩, rfl, ?_, ?_⟩ <;> simp_all
  · refine ⟨_, rfl, ⟨?_, ?_, ?_⟩, rfl, ?_, ?_⟩ <;> simp_all

theorem pickSeeds_spec (buf : List (Branch D)) (hA : A.Ok Bd) (h2 : 2 ≤ buf.length)
    (hv : ∀ b ∈ buf, Good Bd b.1) :
    ∃ pv, pickSeeds A buf (initParVars A buf.length) = some pv ∧ PInv buf.length pv ∧
      pv.count0 = 1 ∧ pv.count1 = 1 ∧ CInv Bd pv := by
  obtain ⟨s0, s1, hs, h01, h1⟩ := seeds_exist hA buf h2 hv
  have hC : CInv Bd (initParVars A buf.length) :=
    ⟨fun h => absurd h (Nat.lt_irrefl 0), fun h => absurd h (Nat.lt_irrefl 0)⟩
  have hI : PInv buf.length (initParVars A buf.length) := by
    refine ⟨by simp [initParVars], ?_, ?_⟩ <;> simp [initParVars, List.count_replicate]
  obtain ⟨p1, e1, I1, q1, a1, b1⟩ := classify_spec buf s0 false _ hI
    (by simp [initParVars, List.getElem?_replicate]; omega)
  obtain ⟨p2, e2, I2, q2, a2, b2⟩ := classify_spec buf s1 true p1 I1 (by
    rw [q1, List.getElem?_set_ne (by omega)]
    simp [initParVars, List.getElem?_replicate]; omega)
  refine ⟨p2, ?_, I2, ?_, ?_, classify_covers buf s1 true p1 p2 hv e2
    (classify_covers buf s0 false _ p1 hv e1 hC)⟩
  · unfold pickSeeds; rw [hs]; simp [e1, e2]
  · rw [a2, a1]; simp [initParVars]
  · rw [b2, b1]; simp [initParVars]

/-! ## ChoosePartition -/

theorem scan_spec (hA : A.Ok Bd) (pv : ParVars A) (hC : CInv Bd pv) (h0 : 0 < pv.count0)
    (h1 : 0 < pv.count1) (l : List (Branch D × Option Bool)) (hl : ∀ x ∈ l, Good Bd x.1.1) (i : Nat)
    (acc : A.α × Option (Nat × Bool)) (hacc : acc.2 = none → acc.1 = A.neg A.one) :
    ∃ q ch, scan A pv i l acc = some (q, ch) ∧
      (∀ c, ch = some c → acc.2 = some c ∨ acc.2.isSome ∧ (∃ g, acc.2 = some (c.1, g)) ∨
        ∃ k, c.1 = i + k ∧ ∃ b, l[k]? = some (b, none)) ∧
      ((acc.2.isSome ∨ ∃ x ∈ l, x.2 = none) → ch.isSome) := by
  induction l generalizing i acc with
  | nil => exact ⟨acc.1, acc.2, rfl, fun c h => Or.inl h, by simp⟩
  | cons x l ih =>
    obtain ⟨b, x⟩ := x
    have hgb : Good Bd b.1 := hl (b, x) (by simp)
    replace ih := ih (fun x hx => hl x (by simp [hx]))
    cases x with
    | some g =>
      simp only [scan]
      obtain ⟨q, ch, e, h1, h2⟩ := ih (i+1) acc hacc
      refine ⟨q, ch, e, ?_, ?_⟩
      · intro c hc
        rcases h1 c hc with h | h | ⟨k, hk, b', hb'⟩
        · exact Or.inl h
        · exact Or.inr (Or.inl h)
        · exact Or.inr (Or.inr ⟨k+1, by omega, b', by simpa using hb'⟩)
      · rintro (h | ⟨x, hx, hx'⟩)
        · exact h2 (Or.inl h)
        · rcases List.mem_cons.1 hx with rfl | hx
          · simp at hx'
          · exact h2 (Or.inr ⟨x, hx, hx'⟩)
    | none =>
      obtain ⟨biggest, ch0⟩ := acc
      unfold scan
      set d := A.sub (A.sub (A.vol (combine b.1 pv.cover1)) pv.area1)
        (A.sub (A.vol (combine b.1 pv.cover0)) pv.area0) with hd
      set diff := (if A.lt A.zero d || A.eq d A.zero then d else A.neg d) with hdiff
      have hdn : A.lt (A.neg A.one) diff = true := by
        refine hA.diff (combine b.1 pv.cover1) pv.cover1 (combine b.1 pv.cover0) pv.cover0 d
          (hgb.combine (hC.2 h1).1) (hC.2 h1).1 (hgb.combine (hC.1 h0).1) (hC.1 h0).1 ?_
        rw [hd, (hC.2 h1).2, (hC.1 h0).2]
      set group := (if A.lt A.zero d || A.eq d A.zero then false else true) with hgroup
      -- continuing with a chosen candidate at index `i`
      have keyNew : ∀ (q' : A.α) (group : Bool), ∃ q ch, scan A pv (i+1) l (q', some (i, group)) = some (q, ch) ∧
          (∀ c, ch = some c → ch0 = some c ∨ ch0.isSome ∧ (∃ g, ch0 = some (c.1, g)) ∨
            ∃ k, c.1 = i + k ∧ ∃ b', ((b, none) :: l)[k]? = some (b', none)) ∧ ch.isSome := by
        intro q' group
        obtain ⟨q, ch, e, h1, h2⟩ := ih (i+1) (q', some (i, group)) (by simp)
        refine ⟨q, ch, e, ?_, h2 (Or.inl rfl)⟩
        intro c hc
        rcases h1 c hc with h | ⟨_, g, h⟩ | ⟨k, hk, b', hb'⟩
        · simp only [Option.some.injEq] at h
          subst h
          exact Or.inr (Or.inr ⟨0, rfl, b, rfl⟩)
        · simp only [Option.some.injEq, Prod.mk.injEq] at h
          exact Or.inr (Or.inr ⟨0, by omega, b, rfl⟩)
        · exact Or.inr (Or.inr ⟨k+1, by omega, b', by simpa using hb'⟩)
      have keyOld : ch0.isSome → ∃ q ch, scan A pv (i+1) l (biggest, ch0) = some (q, ch) ∧
          (∀ c, ch = some c → ch0 = some c ∨ ch0.isSome ∧ (∃ g, ch0 = some (c.1, g)) ∨
            ∃ k, c.1 = i + k ∧ ∃ b', ((b, none) :: l)[k]? = some (b', none)) ∧ ch.isSome := by
        intro hs
        obtain ⟨q, ch, e, h1, h2⟩ := ih (i+1) (biggest, ch0) hacc
        refine ⟨q, ch, e, ?_, h2 (Or.inl hs)⟩
        intro c hc
        rcases h1 c hc with h | h | ⟨k, hk, b', hb'⟩
        · exact Or.inl h
        · exact Or.inr (Or.inl h)
        · exact Or.inr (Or.inr ⟨k+1, by omega, b', by simpa using hb'⟩)
      simp only
      by_cases h1 : A.lt biggest diff
      · rw [if_pos h1]
        obtain ⟨q, ch, e, a1, a2⟩ := keyNew diff group
        exact ⟨q, ch, e, a1, fun _ => a2⟩
      · rw [if_neg h1]
        have hs : ch0.isSome := by
          cases ch0 with
          | some _ => rfl
          | none => have := hacc rfl; simp only at this; rw [this] at h1; exact absurd hdn h1
        by_cases h2 : A.eq diff biggest
        · rw [if_pos h2]
          obtain ⟨c0, hc0⟩ := Option.isSome_iff_exists.1 hs
          obtain ⟨j, better⟩ := c0
          subst hc0
          simp only
          by_cases h3 : pv.count group < pv.count better
          · rw [if_pos h3]
            obtain ⟨q, ch, e, a1, a2⟩ := keyNew biggest group
            exact ⟨q, ch, e, a1, fun _ => a2⟩
          · rw [if_neg h3]
            obtain ⟨q, ch, e, a1, a2⟩ := keyOld rfl
            exact ⟨q, ch, e, a1, fun _ => a2⟩
        · rw [if_neg h2]
          obtain ⟨q, ch, e, a1, a2⟩ := keyOld hs
          exact ⟨q, ch, e, a1, fun _ => a2⟩

theorem scan_zip_spec (hA : A.Ok Bd) (buf : List (Branch D)) (hv : ∀ b ∈ buf, Good Bd b.1)
    (pv : ParVars A) (hC : CInv Bd pv) (hp0 : 0 < pv.count0) (hp1 : 0 < pv.count1)
    (hI : PInv buf.length pv)
    (hlt : pv.count0 + pv.count1 < buf.length) :
    ∃ q i g, scan A pv 0 (buf.zip pv.part) (A.neg A.one, none) = some (q, some (i, g)) ∧
      pv.part[i]? = some none := by
  obtain ⟨hl, h0, h1⟩ := hI
  obtain ⟨q, ch, e, a1, a2⟩ := scan_spec hA pv hC hp0 hp1 (buf.zip pv.part)
    (fun x hx => hv _ (List.of_mem_zip hx).1) 0 (A.neg A.one, none) (fun _ => rfl)
  have hn : none ∈ pv.part := by
    have := count_total pv.part
    have : 0 < pv.part.count none := by omega
    exact List.count_pos_iff.1 this
  have hz : ∃ x ∈ buf.zip pv.part, x.2 = none := by
    obtain ⟨k, hk, hk'⟩ := List.getElem_of_mem hn
    refine ⟨(buf[k]'(by omega), pv.part[k]), ?_, hk'⟩
    have hk2 : k < (buf.zip pv.part).length := by simp; omega
    have := List.getElem_mem hk2
    rwa [List.getElem_zip] at this
  obtain ⟨c, hc⟩ := Option.isSome_iff_exists.1 (a2 (Or.inr hz))
  obtain ⟨i, g⟩ := c
  subst hc
  refine ⟨q, i, g, e, ?_⟩
  rcases a1 _ rfl with h | ⟨h, _⟩ | ⟨k, hk, b, hb⟩
  · simp at h
  · simp at h
  · simp only [zero_add] at hk
    subst hk
    rw [List.getElem?_zip_eq_some] at hb
    exact hb.2

theorem chooseLoop_spec (hA : A.Ok Bd) (buf : List (Branch D)) (hv : ∀ b ∈ buf, Good Bd b.1)
    (minFill : Nat) (f : Nat) (pv : ParVars A)
    (hC : CInv Bd pv) (hp0 : 0 < pv.count0) (hp1 : 0 < pv.count1) (hI : PInv buf.length pv) (hf : buf.length - (pv.count0 + pv.count1) < f)
    (hb : pv.count0 ≤ buf.length - minFill ∧ pv.count1 ≤ buf.length - minFill) :
    ∃ pv', chooseLoop A buf minFill f pv = some pv' ∧ PInv buf.length pv' ∧
      pv'.count0 ≤ buf.length - minFill ∧ pv'.count1 ≤ buf.length - minFill ∧
      (pv'.count0 + pv'.count1 = buf.length ∨ pv'.count0 = buf.length - minFill ∨
        pv'.count1 = buf.length - minFill) := by
  induction f generalizing pv with
  | zero => omega
  | succ f ih =>
    rw [chooseLoop]
    split_ifs with h
    · obtain ⟨q, i, g, e, hi⟩ := scan_zip_spec hA buf hv pv hC hp0 hp1 hI h.1
      rw [e]
      obtain ⟨pv1, e1, I1, _, c0, c1⟩ := classify_spec buf i g pv hI hi
      simp only [e1, Option.bind_some]
      exact ih pv1 (classify_covers buf i g pv pv1 hv e1 hC) (by omega) (by omega) I1 (by cases g <;> simp_all <;> omega) (by cases g <;> simp_all <;> omega)
    · refine ⟨pv, rfl, hI, hb.1, hb.2, ?_⟩
      have : pv.count0 + pv.count1 ≤ buf.length := by
        have := count_total pv.part
        obtain ⟨hl, h0, h1⟩ := hI
        omega
      omega

theorem classifyRest_spec (buf : List (Branch D)) (g : Bool) (n i : Nat) (pv : ParVars A)
    (hI : PInv buf.length pv) (hn : i + n = buf.length)
    (hdone : ∀ k, k < i → ∃ x, pv.part[k]? = some (some x)) :
    ∃ pv', classifyRest A buf g n i pv = some pv' ∧ PInv buf.length pv' ∧
      pv'.part.count none = 0 ∧
      (g = true → pv'.count0 = pv.count0) ∧ (g = false → pv'.count1 = pv.count1) := by
  induction n generalizing i pv with
  | zero =>
    refine ⟨pv, rfl, hI, ?_, fun _ => rfl, fun _ => rfl⟩
    rw [List.count_eq_zero]
    intro hmem
    obtain ⟨k, hk, hk'⟩ := List.getElem_of_mem hmem
    obtain ⟨x, hx⟩ := hdone k (by have := hI.1; omega)
    rw [List.getElem?_eq_getElem hk, hk'] at hx
    simp at hx
  | succ n ih =>
    rw [classifyRest]
    have hlt : i < pv.part.length := by rw [hI.1]; omega
    rw [List.getElem?_eq_getElem hlt]
    cases hp : pv.part[i] with
    | some x =>
      simp only
      apply ih (i+1) pv hI (by omega)
      intro k hk
      by_cases hki : k = i
      · subst hki; exact ⟨x, by rw [List.getElem?_eq_getElem hlt, hp]⟩
      · exact hdone k (by omega)
    | none =>
      simp only
      obtain ⟨pv1, e1, I1, hp1, c0, c1⟩ := classify_spec buf i g pv hI
        (by rw [List.getElem?_eq_getElem hlt, hp])
      rw [e1]
      obtain ⟨pv', e', I', n', d0, d1⟩ := ih (i+1) pv1 I1 (by omega) (by
        intro k hk
        rw [hp1]
        by_cases hki : k = i
        · subst hki; exact ⟨g, by rw [List.getElem?_set_self hlt]⟩
        · rw [List.getElem?_set_ne (by omega)]; exact hdone k (by omega))
      refine ⟨pv', by simpa using e', I', n', ?_, ?_⟩
      · intro hg; rw [d0 hg, c0]; simp [hg]
      · intro hg; rw [d1 hg, c1]; simp [hg]

theorem choosePartition_spec (hA : A.Ok Bd) (buf : List (Branch D)) (minFill : Nat)
    (hm : 1 ≤ minFill) (h2 : 2 * minFill ≤ buf.length) (hv : ∀ b ∈ buf, Good Bd b.1) :
    ∃ pv, choosePartition A buf minFill = some pv ∧ PInv buf.length pv ∧
      pv.count0 + pv.count1 = buf.length ∧ minFill ≤ pv.count0 ∧ minFill ≤ pv.count1 := by
  obtain ⟨p1, e1, I1, a1, b1, C1⟩ := pickSeeds_spec buf hA (by omega) hv
  obtain ⟨p2, e2, I2, a2, b2, h⟩ := chooseLoop_spec hA buf hv minFill (buf.length + 1) p1 C1
    (by omega) (by omega) I1 (by omega) (by omega)
  have hle : p2.count0 + p2.count1 ≤ buf.length := by
    have := count_total p2.part
    obtain ⟨hl, h0, h1⟩ := I2
    omega
  unfold choosePartition
  simp only [e1, e2, Option.bind_eq_bind, Option.bind_some]
  by_cases hlt : p2.count0 + p2.count1 < buf.length
  · rw [if_pos hlt]
    set g := (if p2.count0 ≥ buf.length - minFill then true else false) with hg
    obtain ⟨p3, e3, I3, n3, c0, c1⟩ := classifyRest_spec buf g buf.length 0 p2 I2 (by omega)
      (by omega)
    have htot := count_total p3.part
    obtain ⟨hl3, h03, h13⟩ := I3
    have hsum : p3.count0 + p3.count1 = buf.length := by omega
    have hb : minFill ≤ p3.count0 ∧ minFill ≤ p3.count1 := by
      by_cases hc : p2.count0 ≥ buf.length - minFill
      · have : g = true := by rw [hg, if_pos hc]
        have := c0 this
        omega
      · have : g = false := by rw [hg, if_neg hc]
        have := c1 this
        omega
    rw [e3]
    simp only [Option.bind_some]
    rw [if_pos ⟨hsum, hb⟩]
    exact ⟨p3, rfl, ⟨hl3, h03, h13⟩, hsum, hb⟩
  · rw [if_neg hlt]
    have hsum : p2.count0 + p2.count1 = buf.length := by omega
    have hb : minFill ≤ p2.count0 ∧ minFill ≤ p2.count1 := by omega
    rw [if_pos ⟨hsum, hb⟩]
    exact ⟨p2, rfl, I2, hsum, hb⟩

/-! ## LoadNodes, SplitNode, AddBranch -/

theorem loadNodes_spec (l : List (Branch D × Option Bool)) (a b : List (Branch D))
    (hno : (l.map (·.2)).count none = 0)
    (ha : a.length + (l.map (·.2)).count (some false) ≤ MAXNODES)
    (hb : b.length + (l.map (·.2)).count (some true) ≤ MAXNODES) :
    ∃ x y, loadNodes l a b = some (x, y) ∧ (x ++ y).Perm (a ++ b ++ l.map (·.1)) ∧
      x.length = a.length + (l.map (·.2)).count (some false) ∧
      y.length = b.length + (l.map (·.2)).count (some true) := by
  have hM : MAXNODES = 8 := rfl
  induction l generalizing a b with
  | nil => exact ⟨a, b, rfl, by simp, by simp, by simp⟩
  | cons e l ih =>
    obtain ⟨br, g⟩ := e
    rcases g with _ | _ | _
    · simp at hno
    · simp only [List.map_cons, List.count_cons] at hno ha hb ⊢
      simp at hno ha hb ⊢
      rw [loadNodes, if_pos (by simp at *; omega)]
      obtain ⟨x, y, e, hp, hx, hy⟩ := ih (a ++ [br]) b (by simpa using hno)
        (by simp at *; omega) (by simp at *; omega)
      refine ⟨x, y, e, hp.trans ?_, by simp at hx; omega, by omega⟩
      simp only [List.append_assoc, List.singleton_append]
      exact List.Perm.append_left a (List.perm_middle.symm.trans (by simp))
    · simp only [List.map_cons, List.count_cons] at hno ha hb ⊢
      simp at hno ha hb ⊢
      rw [loadNodes, if_pos (by simp at *; omega)]
      obtain ⟨x, y, e, hp, hx, hy⟩ := ih a (b ++ [br]) (by simpa using hno)
        (by simp at *; omega) (by simp at *; omega)
      refine ⟨x, y, e, hp.trans (by simp), by omega, by simp at hy; omega⟩

theorem splitNode_spec (hA : A.Ok Bd) (bs : List (Branch D)) (b : Branch D)
    (hlen : bs.length = MAXNODES) (hv : ∀ c ∈ bs ++ [b], Good Bd c.1) :
    ∃ x y, splitNode A bs b = some (x, y) ∧ (x ++ y).Perm (b :: bs) ∧
      MINNODES ≤ x.length ∧ x.length ≤ MAXNODES ∧ MINNODES ≤ y.length ∧ y.length ≤ MAXNODES := by
  have hbl : (bs ++ [b]).length = 9 := by simp [hlen]
  obtain ⟨pv, e, hI, hs, h0, h1⟩ := choosePartition_spec hA (bs ++ [b]) MINNODES (by decide)
    (by rw [hbl]; decide) hv
  obtain ⟨hl, c0, c1⟩ := hI
  have htot := count_total pv.part
  have hM : MAXNODES = 8 := rfl
  have hm : MINNODES = 4 := rfl
  have hm2 : ((bs ++ [b]).zip pv.part).map (·.2) = pv.part := by
    rw [← List.unzip_snd, List.unzip_zip_right (by omega)]
  have hm1 : ((bs ++ [b]).zip pv.part).map (·.1) = bs ++ [b] := by
    rw [← List.unzip_fst, List.unzip_zip_left (by omega)]
  obtain ⟨x, y, e2, hp, hx, hy⟩ := loadNodes_spec ((bs ++ [b]).zip pv.part) [] []
    (by rw [hm2]; omega) (by rw [hm2]; simp; omega) (by rw [hm2]; simp; omega)
  rw [hm2] at hx hy
  rw [hm1] at hp
  simp only [List.length_nil, zero_add] at hx hy
  refine ⟨x, y, ?_, ?_, by omega, ?_, by omega, ?_⟩
  · unfold splitNode
    rw [if_neg (by simp [hlen])]
    simp only [e, e2, Option.bind_eq_bind, Option.bind_some]
    rw [if_pos (by omega)]
  · exact hp.trans (by simpa using List.perm_append_singleton b bs)
  · omega
  · omega

theorem addBranch_spec (hA : A.Ok Bd) (b : Branch D) (level : Int) (bs : List (Branch D))
    (hlen : bs.length ≤ MAXNODES) (hv : ∀ c ∈ b :: bs, Good Bd c.1) :
    (bs.length < MAXNODES ∧ addBranch A b level bs = some (.node level (bs ++ [b]), none)) ∨
    (∃ x y, addBranch A b level bs = some (.node level x, some (.node level y)) ∧
      (x ++ y).Perm (b :: bs) ∧
      MINNODES ≤ x.length ∧ x.length ≤ MAXNODES ∧ MINNODES ≤ y.length ∧ y.length ≤ MAXNODES) := by
  unfold addBranch
  by_cases h : bs.length < MAXNODES
  · left; exact ⟨h, by rw [if_pos h]⟩
  · right
    rw [if_neg h]
    obtain ⟨x, y, e, hp, h1, h2, h3, h4⟩ := splitNode_spec hA bs b (by omega) (by
      intro c hc; apply hv; simp at hc ⊢; tauto)
    exact ⟨x, y, by simp [e], hp, h1, h2, h3, h4⟩

end Verif.RTree

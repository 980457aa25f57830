import Verif.GM.Model
import Mathlib.Data.List.Perm.Basic
import Mathlib.Data.List.Pairwise
import Mathlib.Tactic.Linarith
import Mathlib.Tactic.Ring
import Mathlib.Tactic.FieldSimp
import Mathlib.Algebra.BigOperators.Group.List.Basic
import Mathlib.Algebra.Order.BigOperators.Group.List

/-! # The k-way merge of `join` -/

namespace Verif.GM

variable {X K : Type*} [Field K] [LinearOrder K]

theorem wsum_foldl (c : List (Cmp X K)) (a : K) :
    c.foldl (fun a g => a + g.w) a = a + (c.map Cmp.w).sum := by
  induction c generalizing a with
  | nil => simp
  | cons g l ih => rw [List.foldl_cons, ih, List.map_cons, List.sum_cons, add_assoc]

theorem wsum_eq (c : List (Cmp X K)) : wsum c = (c.map Cmp.w).sum := by
  unfold wsum; rw [wsum_foldl, zero_add]

theorem qle_total (a b : QE K) : qle a b ∨ qle b a := by
  unfold qle
  rcases lt_trichotomy a.w b.w with h | h | h
  · exact Or.inl (Or.inl h)
  · rcases le_total a.j b.j with h' | h'
    · exact Or.inl (Or.inr ⟨h, h'⟩)
    · exact Or.inr (Or.inr ⟨h.symm, h'⟩)
  · exact Or.inr (Or.inl h)

theorem qle_w {a b : QE K} (h : qle a b) : a.w ≤ b.w := by
  rcases h with h | h
  · exact h.le
  · exact h.1.le

theorem popMax_none {q : List (QE K)} (h : popMax q = none) : q = [] := by
  cases q with
  | nil => rfl
  | cons a l =>
    unfold popMax at h
    split at h
    · cases h
    · split at h <;> cases h

theorem popMax_some {q r : List (QE K)} {e : QE K} (h : popMax q = some (e, r)) :
    (e :: r).Perm q ∧ ∀ x ∈ q, x.w ≤ e.w := by
  induction q generalizing e r with
  | nil => cases h
  | cons a l ih =>
    unfold popMax at h
    cases hp : popMax l with
    | none =>
      rw [hp] at h
      simp only [Option.some.injEq, Prod.mk.injEq] at h
      obtain ⟨rfl, rfl⟩ := h
      rw [popMax_none hp]
      exact ⟨List.Perm.refl _, by simp⟩
    | some v =>
      obtain ⟨b, s⟩ := v
      rw [hp] at h
      obtain ⟨h1, h2⟩ := ih hp
      simp only at h
      split at h
      · rename_i hle
        simp only [Option.some.injEq, Prod.mk.injEq] at h
        obtain ⟨rfl, rfl⟩ := h
        refine ⟨(List.Perm.swap _ _ _).trans (h1.cons a), ?_⟩
        intro x hx
        rcases List.mem_cons.1 hx with rfl | hx
        · exact qle_w hle
        · exact h2 x hx
      · rename_i hle
        simp only [Option.some.injEq, Prod.mk.injEq] at h
        obtain ⟨rfl, rfl⟩ := h
        refine ⟨h1.cons a, ?_⟩
        intro x hx
        rcases List.mem_cons.1 hx with rfl | hx
        · exact le_refl _
        · exact (h2 x hx).trans (qle_w ((qle_total b a).resolve_right hle))

/-- A component with its weight scaled. -/
def scale (a : K) (g : Cmp X K) : Cmp X K := ⟨g.x, a * g.w⟩

/-- What the queue still has to offer. -/
def rest (f : Nat → K) (cs : Nat → List (Cmp X K)) (q : List (QE K)) : List (Cmp X K) :=
  q.flatMap fun e => ((cs e.j).drop e.n).map (scale (f e.j))

/-- Everything there is: all components of the first `J` mixtures, scaled. -/
def everything (f : Nat → K) (cs : Nat → List (Cmp X K)) (J : Nat) : List (Cmp X K) :=
  (List.range J).flatMap fun j => (cs j).map (scale (f j))

/-- A queue entry points at a component and carries its scaled weight. -/
def EntryOk (f : Nat → K) (cs : Nat → List (Cmp X K)) (e : QE K) : Prop :=
  ∃ g, (cs e.j)[e.n]? = some g ∧ e.w = f e.j * g.w

/-- Invariant of the merge. -/
structure MInv (f : Nat → K) (cs : Nat → List (Cmp X K)) (T : List (Cmp X K)) (q : List (QE K))
    (out : List (Cmp X K)) : Prop where
  perm : (out ++ rest f cs q).Perm T
  sorted : out.Pairwise fun a b => b.w ≤ a.w
  above : ∀ o ∈ out, ∀ x ∈ rest f cs q, x.w ≤ o.w
  ok : ∀ e ∈ q, EntryOk f cs e

variable [IsStrictOrderedRing K]

theorem drop_eq_cons {l : List X} {n : Nat} {g : X} (h : l[n]? = some g) :
    l.drop n = g :: l.drop (n + 1) := by
  obtain ⟨h1, h2⟩ := List.getElem?_eq_some_iff.1 h
  rw [List.drop_eq_getElem_cons h1, h2]

/-- An entry is at least as heavy as what follows it in its mixture. -/
theorem entry_heaviest {f : Nat → K} {cs : Nat → List (Cmp X K)} (hf : ∀ j, 0 ≤ f j)
    (hs : ∀ j, (cs j).Pairwise fun a b => b.w ≤ a.w) {e : QE K} (he : EntryOk f cs e)
    {x : Cmp X K} (hx : x ∈ ((cs e.j).drop e.n).map (scale (f e.j))) : x.w ≤ e.w := by
  obtain ⟨g, h1, h2⟩ := he
  obtain ⟨y, hy, rfl⟩ := List.mem_map.1 hx
  rw [drop_eq_cons h1] at hy
  have hsd : ((cs e.j).drop e.n).Pairwise fun a b => b.w ≤ a.w := (hs e.j).drop
  rw [drop_eq_cons h1] at hsd
  rw [h2]
  apply mul_le_mul_of_nonneg_left _ (hf _)
  rcases List.mem_cons.1 hy with rfl | hy
  · exact le_refl _
  · exact List.rel_of_pairwise_cons hsd hy

/-- Taking the top of the queue keeps the invariant. -/
theorem MInv.step {f : Nat → K} {cs : Nat → List (Cmp X K)} (hf : ∀ j, 0 ≤ f j)
    (hs : ∀ j, (cs j).Pairwise fun a b => b.w ≤ a.w) {T : List (Cmp X K)} {q q' : List (QE K)}
    {out : List (Cmp X K)} (hi : MInv f cs T q out) {e : QE K} (hp : popMax q = some (e, q')) :
    ∃ g, (cs e.j)[e.n]? = some g ∧ e.w = f e.j * g.w ∧
      MInv f cs T (pushNext f cs e q') (out ++ [⟨g.x, e.w⟩]) ∧
      (∀ x ∈ rest f cs q, x.w ≤ e.w) := by
  obtain ⟨p1, p2⟩ := popMax_some hp
  have heq : e ∈ q := p1.mem_iff.1 (List.mem_cons_self ..)
  obtain ⟨g, g1, g2⟩ := hi.ok e heq
  have hrest : (rest f cs (e :: q')).Perm (rest f cs q) := p1.flatMap_right _
  have hcons : rest f cs (e :: q') = ⟨g.x, e.w⟩ :: (((cs e.j).drop (e.n + 1)).map (scale (f e.j)) ++
      rest f cs q') := by
    unfold rest
    rw [List.flatMap_cons, drop_eq_cons g1, List.map_cons, List.cons_append, g2]
    rfl
  have hpush : rest f cs (pushNext f cs e q') =
      ((cs e.j).drop (e.n + 1)).map (scale (f e.j)) ++ rest f cs q' := by
    unfold pushNext
    cases hn : (cs e.j)[e.n + 1]? with
    | some g' => simp only [rest, List.flatMap_cons]
    | none =>
      rw [List.getElem?_eq_none_iff] at hn
      simp only [rest]
      rw [List.drop_eq_nil_of_le hn]
      rfl
  have htop : ∀ x ∈ rest f cs q, x.w ≤ e.w := by
    intro x hx
    obtain ⟨e', he', hx'⟩ := List.mem_flatMap.1 hx
    exact (entry_heaviest hf hs (hi.ok e' he') hx').trans (p2 e' he')
  have hsub : ∀ x ∈ rest f cs (pushNext f cs e q'), x ∈ rest f cs q := by
    intro x hx
    rw [hpush] at hx
    apply hrest.mem_iff.1
    rw [hcons]
    exact List.mem_cons_of_mem _ hx
  have hmem : (⟨g.x, e.w⟩ : Cmp X K) ∈ rest f cs q := by
    apply hrest.mem_iff.1
    rw [hcons]
    exact List.mem_cons_self ..
  refine ⟨g, g1, g2, ⟨?_, ?_, ?_, ?_⟩, htop⟩
  · rw [hpush, List.append_assoc, List.singleton_append, ← hcons]
    exact (hrest.append_left out).trans hi.perm
  · rw [List.pairwise_append]
    refine ⟨hi.sorted, List.pairwise_singleton _ _, ?_⟩
    intro o ho y hy
    rw [List.mem_singleton] at hy
    subst hy
    exact hi.above o ho _ hmem
  · intro o ho x hx
    rcases List.mem_append.1 ho with ho | ho
    · exact hi.above o ho x (hsub x hx)
    · rw [List.mem_singleton] at ho
      subst ho
      exact htop x (hsub x hx)
  · intro e' he'
    unfold pushNext at he'
    have hq' : ∀ y ∈ q', y ∈ q := fun y hy => p1.mem_iff.1 (List.mem_cons_of_mem _ hy)
    cases hn : (cs e.j)[e.n + 1]? with
    | some g' =>
      rw [hn] at he'
      rcases List.mem_cons.1 he' with rfl | he'
      · exact ⟨g', hn, rfl⟩
      · exact hi.ok e' (hq' e' he')
    | none =>
      rw [hn] at he'
      exact hi.ok e' (hq' e' he')

theorem rest_nil_iff {f : Nat → K} {cs : Nat → List (Cmp X K)} {q : List (QE K)}
    (ok : ∀ e ∈ q, EntryOk f cs e) (h : rest f cs q = []) : q = [] := by
  cases q with
  | nil => rfl
  | cons e l =>
    obtain ⟨g, g1, _⟩ := ok e (List.mem_cons_self ..)
    unfold rest at h
    rw [List.flatMap_cons, drop_eq_cons g1] at h
    simp at h

omit [IsStrictOrderedRing K] in
theorem initQ_inv (f : Nat → K) (cs : Nat → List (Cmp X K)) (J : Nat) :
    MInv f cs (everything f cs J) (initQ f cs J) [] := by
  refine ⟨?_, List.Pairwise.nil, by simp, ?_⟩
  · rw [List.nil_append]
    induction J with
    | zero => exact List.Perm.refl _
    | succ J ih =>
      unfold everything
      rw [List.range_succ, List.flatMap_append, List.flatMap_singleton]
      unfold initQ
      cases h : (cs J)[0]? with
      | none =>
        have : cs J = [] := by
          rw [List.getElem?_eq_none_iff] at h
          exact List.eq_nil_of_length_eq_zero (Nat.le_zero.1 h)
        rw [this]
        simpa [everything] using ih
      | some g =>
        simp only [rest, List.flatMap_cons, List.drop_zero]
        exact (List.perm_append_comm).trans (ih.append_right _)
  · induction J with
    | zero => simp [initQ]
    | succ J ih =>
      intro e he
      unfold initQ at he
      cases h : (cs J)[0]? with
      | none => rw [h] at he; exact ih e he
      | some g =>
        rw [h] at he
        rcases List.mem_cons.1 he with rfl | he
        · exact ⟨g, h, rfl⟩
        · exact ih e he

/-- The loop of `join`: it never reads out of range; what it takes is in descending order, nothing
left is heavier than anything taken, and it stops for one of three reasons. -/
theorem joinLoop_spec {f : Nat → K} {cs : Nat → List (Cmp X K)} (hf : ∀ j, 0 ≤ f j)
    (hs : ∀ j, (cs j).Pairwise fun a b => b.w ≤ a.w) {T : List (Cmp X K)} (lim : K) :
    ∀ (k : Nat) (q : List (QE K)) (ws : K) (out : List (Cmp X K)), MInv f cs T q out →
      ws = (out.map Cmp.w).sum →
      ∃ kept dropped, joinLoop lim f cs k q ws out = some kept ∧ (kept ++ dropped).Perm T ∧
        kept.length ≤ out.length + k ∧
        kept.Pairwise (fun a b => b.w ≤ a.w) ∧ (∀ a ∈ kept, ∀ b ∈ dropped, b.w ≤ a.w) ∧
        (kept.length = out.length + k ∨ dropped = [] ∨ ∃ d ∈ dropped, (∀ b ∈ dropped, b.w ≤ d.w) ∧
          tooLight lim d.w ((kept.map Cmp.w).sum + d.w)) := by
  intro k
  induction k with
  | zero =>
    intro q ws out hi hw
    exact ⟨out, rest f cs q, rfl, hi.perm, by omega, hi.sorted, hi.above, Or.inl (by omega)⟩
  | succ k ih =>
    intro q ws out hi hw
    unfold joinLoop
    cases hp : popMax q with
    | none =>
      have := popMax_none hp
      subst this
      exact ⟨out, [], rfl, by simpa [rest] using hi.perm, by omega, hi.sorted, by simp,
        Or.inr (Or.inl rfl)⟩
    | some v =>
      obtain ⟨e, q'⟩ := v
      obtain ⟨g, g1, g2, hi', htop⟩ := hi.step hf hs hp
      simp only
      split
      · rename_i hl
        refine ⟨out, rest f cs q, rfl, hi.perm, by omega, hi.sorted, hi.above, Or.inr (Or.inr ?_)⟩
        refine ⟨⟨g.x, e.w⟩, ?_, htop, by rw [← hw]; exact hl⟩
        obtain ⟨p1, _⟩ := popMax_some hp
        apply List.mem_flatMap.2
        refine ⟨e, p1.mem_iff.1 (List.mem_cons_self ..), ?_⟩
        rw [drop_eq_cons g1, List.map_cons]
        unfold scale
        rw [g2]
        exact List.mem_cons_self ..
      · rw [g1]
        simp only
        obtain ⟨kept, dropped, h1, h2, h3, h4, h5, h6⟩ := ih (pushNext f cs e q') (ws + e.w)
          (out ++ [⟨g.x, e.w⟩]) hi' (by simp [hw])
        rw [List.length_append, List.length_singleton] at h3 h6
        refine ⟨kept, dropped, h1, h2, by omega, h4, h5, ?_⟩
        rcases h6 with h6 | h6
        · exact Or.inl (by omega)
        · exact Or.inr h6

end Verif.GM

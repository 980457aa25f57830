import Mathlib.Tactic.Common
import Mathlib.Tactic.FinCases
import Mathlib.Data.Fintype.Basic
import Verif.Py.Model

/-! # Properties C54 (pickling) and C63 (the member `r` of summaries) -/

namespace Verif.Py

variable {α : Type}

/-! ## C54 -/

/-- C54: a box comes back with the same corners. -/
theorem C54_bbox (c : Corners α) : bboxSet (bboxGet c) = some c := by
  simp only [bboxSet, bboxGet, PyVal.toDouble, Option.bind_eq_bind, Option.bind_some, lin]
  refine congrArg some ?_
  funext i j
  fin_cases i <;> fin_cases j <;> rfl

/-- C54: a target summary comes back equal. -/
theorem C54_summary (t : Summary α) : sumSet (sumGet t) = some t := by
  have h : ∀ i : Fin (2 ^ 32), PyVal.toUnsigned (.int i.val : PyVal α) = some i := by
    intro i
    simp only [PyVal.toUnsigned]
    rw [dif_pos ⟨by omega, by exact_mod_cast i.2⟩]
    simp
  simp only [sumSet, sumGet, PyVal.toVec, PyVal.toMat, PyVal.toDouble, h]
  rfl

/-- C54: a report comes back with equal mean, covariance, `kappa` and `cid`; its birth weight `rB` is
not part of the state and is not initialised afterwards. -/
theorem C54_report (one : α) (r : Report α) : ∃ r', repSet one (repGet r) = some r' ∧
    r'.x = r.x ∧ r'.P = r.P ∧ r'.kappa = r.kappa ∧ r'.cid = r.cid ∧ r'.rB = none := by
  have h : ∀ i : Fin (2 ^ 32), PyVal.toUnsigned (.int i.val : PyVal α) = some i := by
    intro i
    simp only [PyVal.toUnsigned]
    rw [dif_pos ⟨by omega, by exact_mod_cast i.2⟩]
    simp
  refine ⟨⟨r.x, r.P, one, none, r.kappa, r.cid⟩, ?_, rfl, rfl, rfl, rfl, rfl⟩
  simp only [repSet, repGet, PyVal.toVec, PyVal.toMat, PyVal.toDouble, h]
  rfl

/-- C54: an `AABBox` comes back equal exactly if, in both coordinates, the lower bound is smaller
than or equal to the upper bound; `lt` is the comparison of doubles, of which only irreflexivity is
used: bounds that are not numbers are covered (both comparisons are then false).  If the bounds are
the wrong way round in both coordinates they come back swapped. -/
theorem C54_aabb (lt : α → α → Bool) (irr : ∀ a, lt a a = false) (b : AABB α) :
    (aabbSet lt (aabbGet b) = some b ↔ (lt b.min0 b.max0 = true ∧ lt b.max0 b.min0 = false ∨
        b.min0 = b.max0) ∧ (lt b.min1 b.max1 = true ∧ lt b.max1 b.min1 = false ∨ b.min1 = b.max1)) ∧
    (lt b.max0 b.min0 = true → lt b.min0 b.max0 = false → lt b.max1 b.min1 = true →
      lt b.min1 b.max1 = false →
      aabbSet lt (aabbGet b) = some ⟨b.max0, b.max1, b.min0, b.min1⟩) := by
  obtain ⟨x1, y1, x2, y2⟩ := b
  have key : ∀ p q : α, (cmin lt p q = p ∧ cmax lt p q = q) ↔
      (lt p q = true ∧ lt q p = false ∨ p = q) := by
    intro p q
    unfold cmin cmax
    by_cases e : p = q
    · subst e
      simp
    · by_cases h1 : lt p q = true
      · by_cases h2 : lt q p = true
        · simp only [h1, h2, if_true, and_true, e, or_false]
          constructor
          · exact fun h => absurd h.symm e
          · rintro ⟨_, h⟩
            cases h
        · simp [h1, h2]
      · simp [h1, e]
  constructor
  · have : aabbSet lt (aabbGet ⟨x1, y1, x2, y2⟩) = some (aabbMk lt x1 y1 x2 y2) := rfl
    rw [this, Option.some.injEq]
    unfold aabbMk
    simp only [AABB.mk.injEq]
    rw [← key x1 x2, ← key y1 y2]
    tauto
  · intro h1 h2 h3 h4
    simp only at h1 h2 h3 h4
    have : aabbSet lt (aabbGet ⟨x1, y1, x2, y2⟩) = some (aabbMk lt x1 y1 x2 y2) := rfl
    rw [this]
    simp [aabbMk, cmin, cmax, h1, h2, h3, h4]

/-- C54: the mean of a restored report or summary is the first entry of the tuple, an array of two or four
numbers, or of two or four rows and one column; anything else is rejected. -/
theorem C54_mean (one : α) (t0 t1 t2 t3 t4 : PyVal α) :
    (∀ r, repSet one [t0, t1, t2, t3] = some r →
      t0 = .vec 2 r.x ∨ ∃ f, t0 = .mat 2 1 f ∧ r.x = fun i => f i 0) ∧
    (∀ s, sumSet [t0, t1, t2, t3, t4] = some s →
      t0 = .vec 4 s.x ∨ ∃ f, t0 = .mat 4 1 f ∧ s.x = fun i => f i 0) ∧
    (∀ f : Fin 2 → Fin 1 → α, repSet one [.mat 2 1 f, t1, t2, t3] =
      repSet one [.vec 2 fun i => f i 0, t1, t2, t3]) ∧
    ∀ f : Fin 4 → Fin 1 → α, sumSet [.mat 4 1 f, t1, t2, t3, t4] =
      sumSet [.vec 4 fun i => f i 0, t1, t2, t3, t4] := by
  have key : ∀ (n : Nat) (t : PyVal α) x, t.toVec n = some x →
      t = .vec n x ∨ ∃ f, t = .mat n 1 f ∧ x = fun i => f i 0 := by
    intro n t x h
    unfold PyVal.toVec at h
    split at h
    · split at h
      · rename_i m f hm
        subst hm
        injection h with h
        exact Or.inl (by rw [← h]; rfl)
      · cases h
    · split at h
      · rename_i m f hm
        subst hm
        injection h with h
        exact Or.inr ⟨f, rfl, h.symm⟩
      · cases h
    · cases h
  refine ⟨?_, ?_, fun f => rfl, fun f => rfl⟩
  · intro r h
    simp only [repSet, Option.bind_eq_bind, Option.bind_eq_some_iff, Option.pure_def,
      Option.some.injEq] at h
    obtain ⟨x, hx, P, _, k, _, c, _, rfl⟩ := h
    exact key 2 t0 x hx
  · intro s h
    simp only [sumSet, Option.bind_eq_bind, Option.bind_eq_some_iff, Option.pure_def,
      Option.some.injEq] at h
    obtain ⟨x, hx, P, _, k, _, c, _, d, _, rfl⟩ := h
    exact key 4 t0 x hx

/-- A report whose mean has been stored as a column. -/
example : (repSet (1 : Nat) [.mat 2 1 fun i _ => i.val + 5, .mat 2 2 fun i j => i.val + j.val, .flt 3,
    .int 4]).map (fun r => (r.x 0, r.x 1)) = some (5, 6) ∧
    (repSet (1 : Nat) [.mat 1 2 fun _ j => j.val + 5, .mat 2 2 fun i j => i.val + j.val, .flt 3,
      .int 4]).isNone := ⟨rfl, rfl⟩

/-- C54: a tuple of the wrong length is rejected. -/
theorem C54_length (lt : α → α → Bool) (one : α) (t : List (PyVal α)) :
    (t.length ≠ 8 → bboxSet t = none) ∧ (t.length ≠ 4 → aabbSet lt t = none) ∧
    (t.length ≠ 5 → sumSet t = none) ∧ (t.length ≠ 4 → repSet one t = none) := by
  refine ⟨?_, ?_, ?_, ?_⟩
  · intro h
    unfold bboxSet
    split
    · exact absurd rfl h
    · rfl
  · intro h
    unfold aabbSet
    split
    · exact absurd rfl h
    · rfl
  · intro h
    unfold sumSet
    split
    · exact absurd rfl h
    · rfl
  · intro h
    unfold repSet
    split
    · exact absurd rfl h
    · rfl

example := C54_bbox (fun i j => (i.val * 4 + j.val : Nat) : Corners Nat)
example := C54_summary (⟨fun i => i.val, fun i j => i.val + j.val, 7, 3, 4294967295⟩ : Summary Nat)
example := C54_report 1 (⟨fun i => i.val, fun i j => i.val + j.val, 7, some 2, 5, 9⟩ : Report Nat)
example : aabbSet (fun a b : Int => decide (a < b)) (aabbGet ⟨-1, 2, 3, 2⟩) = some ⟨-1, 2, 3, 2⟩ :=
  (C54_aabb _ (by simp) ⟨-1, 2, 3, 2⟩).1.2 (by decide)
example : aabbSet (fun a b : Int => decide (a < b)) (aabbGet ⟨3, 2, 1, 1⟩) = some ⟨1, 1, 3, 2⟩ :=
  (C54_aabb _ (by simp) ⟨3, 2, 1, 1⟩).2 (by decide) (by decide) (by decide) (by decide)
/-- With `none` for a bound that is not a number, compared as doubles are: the upper bound is lost. -/
example : aabbSet (fun a b : Option Int => match a, b with
      | some a, some b => decide (a < b)
      | _, _ => false) (aabbGet ⟨some 0, some 0, none, some 1⟩) =
    some ⟨some 0, some 0, some 0, some 1⟩ := rfl

/-! ## C63 -/

/-- C63: the weights of the summaries, which Python sees as `r`, are those of the targets, in order,
whatever the growth of the vector. -/
theorem C63_weights (grow : Nat → Nat) (rs : List α) :
    (getTargets grow rs).els.map Elem.w = rs := by
  unfold getTargets
  suffices h : ∀ (l : List α) (v : Vec α),
      (l.foldl (Vec.emplace grow) v).els.map Elem.w = v.els.map Elem.w ++ l by
    simpa [Vec.empty] using h rs Vec.empty
  intro l
  induction l with
  | nil => intro v; simp
  | cons a l ih =>
    intro v
    rw [List.foldl_cons, ih]
    unfold Vec.emplace
    split <;> simp

/-- What holds of every vector that `getTargets` builds. -/
structure Good (grow : Nat → Nat) (v : Vec α) : Prop where
  zero : v.block = 0 → v.els = [] ∧ v.cap = 0
  one : v.block = 1 → v.cap = grow 0 ∧ v.els.length ≤ grow 0
  first : ∀ e ∈ v.els.head?, e.ref = (1, 0)
  all : v.block = 1 → ∀ (i : Nat) (e : Elem α), v.els[i]? = some e → e.ref = (1, i)
  pos : v.block ≠ 0 → v.els ≠ []
  two : 2 ≤ v.block → grow 0 < v.els.length

theorem Good.emplace {grow : Nat → Nat} (hg : 0 < grow 0) {v : Vec α} (w : α) (h : Good grow v) :
    Good grow (v.emplace grow w) := by
  unfold Vec.emplace
  split
  · rename_i hlt
    have hb : v.block ≠ 0 := fun h0 => by
      have := (h.zero h0).2
      omega
    refine ⟨fun h0 => absurd h0 hb, ?_, ?_, ?_, fun _ => by simp, fun h2 => ?_⟩
    · intro h1
      have := h.one h1
      simp only [List.length_append, List.length_singleton]
      exact ⟨this.1, by omega⟩
    · intro e he
      cases hv : v.els with
      | nil =>
        exact absurd hv (h.pos hb)
      | cons a l =>
        rw [hv] at he
        simp only [List.cons_append, List.head?_cons, Option.mem_def, Option.some.injEq] at he
        subst he
        exact h.first a (by rw [hv]; rfl)
    · intro h1 i e he
      simp only at h1
      rw [List.getElem?_append] at he
      split at he
      · exact h.all h1 i e he
      · rename_i hi
        have : i = v.els.length := by
          rcases Nat.lt_or_ge v.els.length i with h2 | h2
          · rw [List.getElem?_eq_none (by simp; omega)] at he
            cases he
          · omega
        subst this
        simp only [Nat.sub_self, List.getElem?_cons_zero, Option.some.injEq] at he
        subst he
        simp [h1]
    · have := h.two h2
      simp only [List.length_append, List.length_singleton]
      omega
  · rename_i hge
    refine ⟨fun h0 => absurd h0 (by simp), ?_, ?_, ?_, fun _ => by simp, fun h2 => ?_⟩
    · intro h1
      simp only [Nat.add_eq_right] at h1
      obtain ⟨h2, h3⟩ := h.zero h1
      simp [h2, h3]
      omega
    · intro e he
      cases hv : v.els with
      | nil =>
        rw [hv] at he
        simp only [List.nil_append, List.head?_cons, Option.mem_def, Option.some.injEq,
          List.length_nil] at he
        subst he
        have : v.block = 0 := by
          by_contra hb
          exact h.pos hb hv
        simp [this]
      | cons a l =>
        rw [hv] at he
        simp only [List.cons_append, List.head?_cons, Option.mem_def, Option.some.injEq] at he
        subst he
        exact h.first a (by rw [hv]; rfl)
    · intro h1 i e he
      simp only [Nat.add_eq_right] at h1
      obtain ⟨h2, h3⟩ := h.zero h1
      rw [h2] at he
      cases i with
      | zero =>
        simp only [List.nil_append, List.getElem?_cons_zero, Option.some.injEq] at he
        subst he
        simp [h1]
      | succ i => simp at he
    · simp only [List.length_append, List.length_singleton] at h2 ⊢
      rcases Nat.lt_or_ge v.block 2 with h3 | h3
      · have := h.one (by omega)
        omega
      · have := h.two h3
        omega

theorem good {grow : Nat → Nat} (hg : 0 < grow 0) (rs : List α) :
    Good grow (getTargets grow rs) := by
  unfold getTargets
  suffices h : ∀ (l : List α) (v : Vec α), Good grow v → Good grow (l.foldl (Vec.emplace grow) v) by
    refine h rs Vec.empty ⟨fun _ => ⟨rfl, rfl⟩, fun h => ?_, fun e he => ?_, fun h => ?_, fun h => ?_,
      fun h => ?_⟩
    · cases h
    · cases he
    · cases h
    · exact absurd rfl h
    · exact absurd h (by simp [Vec.empty])
  intro l
  induction l with
  | nil => exact fun v hv => hv
  | cons a l ih => exact fun v hv => ih _ (hv.emplace hg a)

/-- C63: as long as the first block of memory is large enough, the member `r` of every summary reads
the probability of existence of its target; as soon as there are more targets, reading `r` of the
first summary is undefined. -/
theorem C63_refuted (grow : Nat → Nat) (hg : 0 < grow 0) (rs : List α) :
    (rs.length ≤ grow 0 → ∀ i, (getTargets grow rs).readR i = rs[i]?) ∧
    (grow 0 < rs.length → (getTargets grow rs).readR 0 = none) := by
  have h := good hg rs
  have hw := C63_weights grow rs
  have hl : (getTargets grow rs).els.length = rs.length := by
    rw [← List.length_map (f := Elem.w), hw]
  constructor
  · intro hle i
    have hb : ∀ e, (getTargets grow rs).els[i]? = some e → (getTargets grow rs).block = 1 := by
      intro e he
      rcases Nat.lt_or_ge (getTargets grow rs).block 2 with h3 | h3
      · by_contra hne
        rw [(h.zero (by omega)).1] at he
        simp at he
      · have := h.two h3
        omega
    have hi : rs[i]? = ((getTargets grow rs).els[i]?).map Elem.w := by
      rw [← List.getElem?_map, hw]
    rw [hi]
    unfold Vec.readR
    cases he : (getTargets grow rs).els[i]? with
    | none => rfl
    | some e =>
      have h1 := hb e he
      have h2 := h.all h1 i e he
      simp only [h2, h1, if_true, he]
  · intro hlt
    unfold Vec.readR
    cases he : (getTargets grow rs).els with
    | nil => simp
    | cons e l =>
      have hf := h.first e (by rw [he]; rfl)
      simp only [List.getElem?_cons_zero, hf]
      rw [if_neg]
      intro h1
      have := (h.one h1.symm).2
      omega

/-- With the growth of libstdc++ two targets are enough. -/
example : (getTargets dbl [7, 8, 9]).readR 0 = none := (C63_refuted dbl (by decide) [7, 8, 9]).2 (by decide)
example : (getTargets dbl [7]).readR 0 = some 7 := (C63_refuted dbl (by decide) [7]).1 (by decide) 0
example := C63_weights dbl [7, 8, 9]

end Verif.Py

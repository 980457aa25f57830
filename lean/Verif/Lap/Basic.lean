import Verif.Lap.Model
import Mathlib.Data.Fintype.Card
import Mathlib.Data.Fintype.EquivFin
import Mathlib.Algebra.BigOperators.Group.Finset.Basic
import Mathlib.Algebra.Order.BigOperators.Group.Finset
import Mathlib.Tactic.Linarith
import Mathlib.Tactic.Ring

/-! # Extended numbers, feasibility, and the invariant of the assignment solver -/

namespace Verif.Lap

open XR

namespace XR

/-- A finite number. -/
def IsFin (x : XR) : Prop := ∃ q, x = fin q

/-- The rational behind a finite number. -/
def val : XR → ℚ
  | fin q => q
  | _ => 0

@[simp] theorem val_fin (q : ℚ) : val (fin q) = q := rfl

theorem IsFin.eq {x : XR} (h : IsFin x) : x = fin x.val := by
  obtain ⟨q, rfl⟩ := h; rfl

theorem isFin_fin (q : ℚ) : IsFin (fin q) := ⟨q, rfl⟩

/-- Finite or `+inf`: what costs and reduced costs are. -/
def IsC (x : XR) : Prop := x = pinf ∨ IsFin x

/-- Finite or `-inf`: what column prices are. -/
def IsV (x : XR) : Prop := x = ninf ∨ IsFin x

theorem IsC.cases {x : XR} (h : IsC x) : x = pinf ∨ ∃ q, x = fin q := h

@[simp] theorem sub_fin_fin (a b : ℚ) : (fin a).sub (fin b) = fin (a - b) := rfl
@[simp] theorem sub_fin_ninf (a : ℚ) : (fin a).sub ninf = pinf := rfl
@[simp] theorem sub_fin_pinf (a : ℚ) : (fin a).sub pinf = ninf := rfl
@[simp] theorem sub_pinf_fin (a : ℚ) : pinf.sub (fin a) = pinf := rfl
@[simp] theorem sub_pinf_ninf : pinf.sub ninf = pinf := rfl
@[simp] theorem sub_ninf_fin (a : ℚ) : ninf.sub (fin a) = ninf := rfl
@[simp] theorem add_fin_fin (a b : ℚ) : (fin a).add (fin b) = fin (a + b) := rfl
@[simp] theorem lt_fin_fin (a b : ℚ) : (fin a).lt (fin b) = decide (a < b) := rfl
@[simp] theorem lt_fin_pinf (a : ℚ) : (fin a).lt pinf = true := rfl
@[simp] theorem lt_pinf (x : XR) : pinf.lt x = false := by cases x <;> rfl
@[simp] theorem lt_ninf_fin (a : ℚ) : ninf.lt (fin a) = true := rfl
@[simp] theorem feq_fin_fin (a b : ℚ) : (fin a).feq (fin b) = decide (a = b) := rfl
@[simp] theorem feq_fin_pinf (a : ℚ) : (fin a).feq pinf = false := rfl
@[simp] theorem feq_pinf_fin (a : ℚ) : pinf.feq (fin a) = false := rfl
@[simp] theorem feq_pinf_pinf : pinf.feq pinf = true := rfl
@[simp] theorem not_isFin_pinf : ¬ IsFin pinf := by rintro ⟨q, h⟩; cases h
@[simp] theorem not_isFin_ninf : ¬ IsFin ninf := by rintro ⟨q, h⟩; cases h

theorem le_fin_fin (a b : ℚ) : (fin a).le (fin b) = decide (a ≤ b) := by
  simp only [le, lt_fin_fin, feq_fin_fin]
  by_cases h1 : a < b
  · simp [h1, h1.le]
  · by_cases h2 : a = b
    · simp [h2]
    · have : ¬ a ≤ b := fun h => h2 (le_antisymm h (not_lt.1 h1))
      simp [h1, h2, this]

@[simp] theorem le_fin_pinf (a : ℚ) : (fin a).le pinf = true := rfl
@[simp] theorem le_pinf_pinf : pinf.le pinf = true := rfl
@[simp] theorem le_pinf_fin (a : ℚ) : pinf.le (fin a) = false := rfl

theorem sub_isC {x y : XR} (hx : IsC x) (hy : IsV y) : IsC (x.sub y) := by
  rcases hx with rfl | ⟨a, rfl⟩ <;> rcases hy with rfl | ⟨b, rfl⟩
  · exact Or.inl rfl
  · exact Or.inl rfl
  · exact Or.inl rfl
  · exact Or.inr ⟨_, rfl⟩

theorem sub_isFin_iff {x y : XR} (hx : IsC x) (hy : IsV y) :
    IsFin (x.sub y) ↔ IsFin x ∧ IsFin y := by
  rcases hx with rfl | ⟨a, rfl⟩ <;> rcases hy with rfl | ⟨b, rfl⟩ <;>
    simp [isFin_fin]

/-- The order of finite-or-`+inf` numbers as a proposition: `x ≤ y`. -/
def Le (x y : XR) : Prop := ∀ b, y = fin b → ∃ a, x = fin a ∧ a ≤ b

theorem lt_iff_not_le {x y : XR} (hx : IsC x) (hy : IsC y) : x.lt y = true ↔ ¬ Le y x := by
  rcases hx with rfl | ⟨a, rfl⟩ <;> rcases hy with rfl | ⟨b, rfl⟩
  · simp [Le]
  · simp [Le]
  · simp [Le]
  · simp only [lt_fin_fin, decide_eq_true_eq, Le, fin.injEq, forall_eq', exists_eq_left']
    exact not_le.symm

theorem le_iff {x y : XR} (hx : IsC x) (hy : IsC y) : x.le y = true ↔ Le x y := by
  rcases hx with rfl | ⟨a, rfl⟩ <;> rcases hy with rfl | ⟨b, rfl⟩
  · simp [Le]
  · simp [Le]
  · simp [Le]
  · simp [Le, le_fin_fin]

theorem Le.refl {x : XR} (_hx : IsC x) : Le x x := fun b h => ⟨b, h, le_refl _⟩

theorem Le.trans {x y z : XR} (h1 : Le x y) (h2 : Le y z) : Le x z := by
  intro c hc
  obtain ⟨b, hb, hbc⟩ := h2 c hc
  obtain ⟨a, ha, hab⟩ := h1 b hb
  exact ⟨a, ha, hab.trans hbc⟩

theorem Le.total {x y : XR} (hx : IsC x) (hy : IsC y) : Le x y ∨ Le y x := by
  rcases hx with rfl | ⟨a, rfl⟩ <;> rcases hy with rfl | ⟨b, rfl⟩
  · left; simp [Le]
  · right; simp [Le]
  · left; simp [Le]
  · simp only [Le, fin.injEq, forall_eq', exists_eq_left']
    exact le_total a b

theorem Le.antisymm {x y : XR} (hx : IsC x) (hy : IsC y) (h1 : Le x y) (h2 : Le y x) : x = y := by
  rcases hx with rfl | ⟨a, rfl⟩ <;> rcases hy with rfl | ⟨b, rfl⟩
  · rfl
  · simp [Le] at h1
  · simp [Le] at h2
  · simp only [Le, fin.injEq, forall_eq', exists_eq_left'] at h1 h2
    rw [le_antisymm h1 h2]

theorem Le.pinf (x : XR) : Le x pinf := by simp [Le]

end XR

variable {n m : Nat}

/-! ## Specification -/

/-- A one-to-one assignment of rows to columns that uses only finite entries. -/
def Feasible (C : Cost n m) (τ : Fin n → Fin m) : Prop :=
  Function.Injective τ ∧ ∀ i, IsFin (C i (τ i))

/-- Its cost. -/
def total (C : Cost n m) (τ : Fin n → Fin m) : ℚ := ∑ i, (C i (τ i)).val

/-- All entries finite or `+inf`. -/
def CostOk (C : Cost n m) : Prop := ∀ i j, IsC (C i j)

/-! ## The invariant -/

/-- Row `i` is assigned. -/
def Asg (s : St n m) (i : Fin n) : Prop := ∃ j, s.colsol j = some i

/-- Invariant of the solver's state. -/
structure Inv (C : Cost n m) (s : St n m) : Prop where
  rows : ∀ j i, s.colsol j = some i → s.rowsol i = some j
  finC : ∀ j i, s.colsol j = some i → IsFin (C i j)
  isV : ∀ j, IsV (s.v j)
  nonpos : ∀ j q, s.v j = XR.fin q → q ≤ 0
  free : ∀ j, s.colsol j = none → s.v j = XR.fin 0
  tight : ∀ j i, s.colsol j = some i → ∀ a, s.v j = XR.fin a →
    ∀ j' b, IsFin (C i j') → s.v j' = XR.fin b → (C i j).val - a ≤ (C i j').val - b
  forced : ∃ rank : Fin m → Nat, ∀ j i, s.v j = XR.ninf → s.colsol j = some i →
    ∀ j', IsFin (C i j') → s.v j' = XR.ninf ∧ (j' = j ∨ rank j' < rank j)

theorem Inv.inj {C : Cost n m} {s : St n m} (h : Inv C s) {j j' : Fin m} {i : Fin n}
    (h1 : s.colsol j = some i) (h2 : s.colsol j' = some i) : j = j' := by
  have := h.rows j i h1
  rw [h.rows j' i h2] at this
  exact (Option.some.inj this).symm

/-- Hall-type argument: for a set `T` of assigned columns and an unassigned row `i`, one of the
rows of `T` or `i` has a finite entry outside `T`. -/
theorem hall_escape_of_inj {C : Cost n m} {s : St n m}
    (hinj0 : ∀ {j j' : Fin m} {i : Fin n}, s.colsol j = some i → s.colsol j' = some i → j = j')
    {τ : Fin n → Fin m}
    (hτ : Feasible C τ) (i : Fin n) (hi : ¬ Asg s i) (T : Finset (Fin m))
    (hT : ∀ j ∈ T, ∃ i', s.colsol j = some i') :
    ∃ i' j, j ∉ T ∧ IsFin (C i' j) ∧ (i' = i ∨ ∃ j' ∈ T, s.colsol j' = some i') := by
  by_contra hcon
  have hcon' : ∀ i' j, IsFin (C i' j) → (i' = i ∨ ∃ j' ∈ T, s.colsol j' = some i') → j ∈ T := by
    intro i' j h1 h2
    by_contra h3
    exact hcon ⟨i', j, h3, h1, h2⟩
  haveI : Nonempty (Fin n) := ⟨i⟩
  choose! ρ hρ using hT
  have hinj : Set.InjOn ρ T := by
    intro a ha b hb hab
    have h1 := hρ a ha
    rw [hab] at h1
    exact hinj0 h1 (hρ b hb)
  have hni : i ∉ T.image ρ := by
    intro hmem
    obtain ⟨j, hj, hji⟩ := Finset.mem_image.1 hmem
    exact hi ⟨j, hji ▸ hρ j hj⟩
  have hcard : (insert i (T.image ρ)).card = T.card + 1 := by
    rw [Finset.card_insert_of_notMem hni, Finset.card_image_of_injOn hinj]
  have hle : ((insert i (T.image ρ)).image τ).card ≤ T.card := by
    apply Finset.card_le_card
    intro j hj
    obtain ⟨i', hi', rfl⟩ := Finset.mem_image.1 hj
    refine hcon' i' (τ i') (hτ.2 i') ?_
    rcases Finset.mem_insert.1 hi' with rfl | hi'
    · exact Or.inl rfl
    · obtain ⟨j', hj', rfl⟩ := Finset.mem_image.1 hi'
      exact Or.inr ⟨j', hj', hρ j' hj'⟩
  rw [Finset.card_image_of_injective _ hτ.1, hcard] at hle
  omega

theorem hall_escape {C : Cost n m} {s : St n m} (h : Inv C s) {τ : Fin n → Fin m}
    (hτ : Feasible C τ) (i : Fin n) (hi : ¬ Asg s i) (T : Finset (Fin m))
    (hT : ∀ j ∈ T, ∃ i', s.colsol j = some i') :
    ∃ i' j, j ∉ T ∧ IsFin (C i' j) ∧ (i' = i ∨ ∃ j' ∈ T, s.colsol j' = some i') :=
  hall_escape_of_inj h.inj hτ i hi T hT

/-- The columns priced `-inf` are assigned. -/
theorem Inv.ninf_asg {C : Cost n m} {s : St n m} (h : Inv C s) {j : Fin m}
    (hj : s.v j = XR.ninf) : ∃ i, s.colsol j = some i := by
  cases hc : s.colsol j with
  | some i => exact ⟨i, rfl⟩
  | none => rw [h.free j hc] at hj; cases hj

/-- An unassigned row has a finite reduced cost somewhere. -/
theorem exists_fin_reduced {C : Cost n m} {s : St n m} (h : Inv C s) {τ : Fin n → Fin m}
    (hτ : Feasible C τ) (i : Fin n) (hi : ¬ Asg s i) :
    ∃ j, IsFin (C i j) ∧ IsFin (s.v j) := by
  obtain ⟨i', j, hj, hC, h2⟩ := hall_escape h hτ i hi
    (Finset.univ.filter fun j => s.v j = XR.ninf)
    (fun j hj => h.ninf_asg (Finset.mem_filter.1 hj).2)
  have hj' : s.v j ≠ XR.ninf := fun h => hj (Finset.mem_filter.2 ⟨Finset.mem_univ _, h⟩)
  have hvj : IsFin (s.v j) := (h.isV j).resolve_left hj'
  rcases h2 with rfl | ⟨j', hj1, hj2⟩
  · exact ⟨j, hC, hvj⟩
  · obtain ⟨rank, hr⟩ := h.forced
    exact absurd (hr j' i' (Finset.mem_filter.1 hj1).2 hj2 j hC).1 hj'

/-- Assigning the unassigned row `i` to column `j` with a price that is not raised. -/
theorem Inv.assign {C : Cost n m} {s : St n m} (h : Inv C s) (i : Fin n) (hi : ¬ Asg s i)
    (j : Fin m) (hC : IsFin (C i j)) (q : ℚ) (hq : s.v j = XR.fin q) (x : XR)
    (hx : (∃ q', x = XR.fin q' ∧ q' ≤ q ∧ ∀ j' b, j' ≠ j → IsFin (C i j') → s.v j' = XR.fin b →
        (C i j).val - q' ≤ (C i j').val - b) ∨
      (x = XR.ninf ∧ ∀ j', j' ≠ j → IsFin (C i j') → s.v j' = XR.ninf)) :
    Inv C ⟨Function.update s.rowsol i (some j), Function.update s.colsol j (some i),
      Function.update s.v j x⟩ := by
  have hq0 := h.nonpos j q hq
  -- new price below the old one
  have hxq : ∀ b, x = XR.fin b → b ≤ q := by
    rintro b rfl
    rcases hx with ⟨q', e, hle, _⟩ | ⟨e, _⟩
    · injection e with e; rw [e]; exact hle
    · cases e
  refine ⟨?_, ?_, ?_, ?_, ?_, ?_, ?_⟩
  · intro j' i' hj'
    simp only at hj' ⊢
    by_cases hjj : j' = j
    · subst hjj
      rw [Function.update_self] at hj'
      obtain rfl := Option.some.inj hj'
      rw [Function.update_self]
    · rw [Function.update_of_ne hjj] at hj'
      have hii : i' ≠ i := by
        rintro rfl
        exact hi ⟨j', hj'⟩
      rw [Function.update_of_ne hii]
      exact h.rows j' i' hj'
  · intro j' i' hj'
    simp only at hj'
    by_cases hjj : j' = j
    · subst hjj
      rw [Function.update_self] at hj'
      obtain rfl := Option.some.inj hj'
      exact hC
    · rw [Function.update_of_ne hjj] at hj'
      exact h.finC j' i' hj'
  · intro j'
    simp only
    by_cases hjj : j' = j
    · subst hjj
      rw [Function.update_self]
      rcases hx with ⟨q', rfl, _⟩ | ⟨rfl, _⟩
      · exact Or.inr ⟨_, rfl⟩
      · exact Or.inl rfl
    · rw [Function.update_of_ne hjj]; exact h.isV j'
  · intro j' b hb
    simp only at hb
    by_cases hjj : j' = j
    · subst hjj
      rw [Function.update_self] at hb
      exact (hxq b hb).trans hq0
    · rw [Function.update_of_ne hjj] at hb; exact h.nonpos j' b hb
  · intro j' hj'
    simp only at hj' ⊢
    by_cases hjj : j' = j
    · subst hjj
      rw [Function.update_self] at hj'; cases hj'
    · rw [Function.update_of_ne hjj] at hj' ⊢
      exact h.free j' hj'
  · intro j1 i1 h1 a ha j' b hCf hb
    simp only at h1 ha hb
    by_cases hj1 : j1 = j
    · subst hj1
      rw [Function.update_self] at h1 ha
      obtain rfl := Option.some.inj h1
      rcases hx with ⟨q', e, hle, ht⟩ | ⟨e, _⟩
      · rw [ha] at e
        injection e with e
        subst e
        by_cases hj' : j' = j1
        · subst hj'
          rw [Function.update_self, ha] at hb
          injection hb with hb
          rw [hb]
        · rw [Function.update_of_ne hj'] at hb
          exact ht j' b hj' hCf hb
      · rw [e] at ha; cases ha
    · rw [Function.update_of_ne hj1] at h1 ha
      by_cases hj' : j' = j
      · subst hj'
        rw [Function.update_self] at hb
        have := h.tight j1 i1 h1 a ha j' q hCf hq
        have := hxq b hb
        linarith
      · rw [Function.update_of_ne hj'] at hb
        exact h.tight j1 i1 h1 a ha j' b hCf hb
  · obtain ⟨rank, hr⟩ := h.forced
    refine ⟨Function.update rank j (Finset.univ.sup rank + 1), ?_⟩
    intro j1 i1 hv h1 j' hCf
    simp only at hv h1 ⊢
    by_cases hj1 : j1 = j
    · subst hj1
      rw [Function.update_self] at hv h1
      obtain rfl := Option.some.inj h1
      rcases hx with ⟨q', e, _⟩ | ⟨e, hall⟩
      · rw [hv] at e; cases e
      · by_cases hj' : j' = j1
        · subst hj'
          exact ⟨by rw [Function.update_self]; exact e, Or.inl rfl⟩
        · refine ⟨?_, Or.inr ?_⟩
          · rw [Function.update_of_ne hj']
            exact hall j' hj' hCf
          · rw [Function.update_of_ne hj', Function.update_self]
            exact Nat.lt_succ_of_le (Finset.le_sup (f := rank) (Finset.mem_univ j'))
    · rw [Function.update_of_ne hj1] at hv h1
      obtain ⟨r1, r2⟩ := hr j1 i1 hv h1 j' hCf
      have hj' : j' ≠ j := by
        rintro rfl
        rw [hq] at r1; cases r1
      refine ⟨by rw [Function.update_of_ne hj']; exact r1, ?_⟩
      rw [Function.update_of_ne hj', Function.update_of_ne hj1]
      exact r2

/-- The assigned rows after `Inv.assign`. -/
theorem asg_assign {C : Cost n m} {s : St n m} (h : Inv C s) (i : Fin n) (hi : ¬ Asg s i)
    (j : Fin m) (x : Fin m → XR) (i' : Fin n) :
    Asg ⟨Function.update s.rowsol i (some j), Function.update s.colsol j (some i), x⟩ i' ↔
      i' = i ∨ (Asg s i' ∧ s.colsol j ≠ some i') := by
  constructor
  · rintro ⟨j', hj'⟩
    simp only at hj'
    by_cases hjj : j' = j
    · subst hjj
      rw [Function.update_self] at hj'
      exact Or.inl (Option.some.inj hj').symm
    · rw [Function.update_of_ne hjj] at hj'
      exact Or.inr ⟨⟨j', hj'⟩, fun hc => hjj (h.inj hj' hc)⟩
  · rintro (rfl | ⟨⟨j', hj'⟩, hne⟩)
    · exact ⟨j, by simp⟩
    · have hjj : j' ≠ j := by rintro rfl; exact hne hj'
      exact ⟨j', by simp only; rw [Function.update_of_ne hjj]; exact hj'⟩

end Verif.Lap

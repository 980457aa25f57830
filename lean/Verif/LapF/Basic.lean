import Verif.LapF.Model
import Verif.Lap.Basic
import Mathlib.Algebra.Order.Ring.Abs

/-!
# Rounded arithmetic and the invariant of the solver that does not depend on rounding
-/

namespace Verif.LapF

open Verif.Lap Verif.Lap.XR

variable {n m : Nat}

namespace Arith

variable (A : Arith)

@[simp] theorem sub_fin_fin (a b : ℚ) : A.sub (fin a) (fin b) = A.rs a b := rfl
@[simp] theorem sub_fin_ninf (a : ℚ) : A.sub (fin a) ninf = pinf := rfl
@[simp] theorem sub_fin_pinf (a : ℚ) : A.sub (fin a) pinf = ninf := rfl
@[simp] theorem sub_pinf_fin (a : ℚ) : A.sub pinf (fin a) = pinf := rfl
@[simp] theorem sub_pinf_ninf : A.sub pinf ninf = pinf := rfl
@[simp] theorem sub_ninf_fin (a : ℚ) : A.sub ninf (fin a) = ninf := rfl
@[simp] theorem add_fin_fin (a b : ℚ) : A.add (fin a) (fin b) = A.ra a b := rfl

end Arith

/-- `q` is a multiple of `1 / D`. -/
def OnGrid (D : Nat) (q : ℚ) : Prop := ∃ z : ℤ, q * D = z

/-- What is assumed of the machine arithmetic.  For numbers that are multiples of `1 / D` and of
magnitude at most `R`, a difference or a sum is computed to a finite number that is again a
multiple of `1 / D`, with an error of at most `δ`.  Nothing is assumed for larger numbers. -/
structure Rounds (A : Arith) (D : Nat) (R δ : ℚ) : Prop where
  pos : 0 < D
  nn : 0 ≤ δ
  sub : ∀ a b : ℚ, OnGrid D a → OnGrid D b → |a| ≤ R → |b| ≤ R →
    ∃ r, A.rs a b = fin r ∧ |r - (a - b)| ≤ δ ∧ OnGrid D r
  add : ∀ a b : ℚ, OnGrid D a → OnGrid D b → |a| ≤ R → |b| ≤ R →
    ∃ r, A.ra a b = fin r ∧ |r - (a + b)| ≤ δ ∧ OnGrid D r

/-- The finite costs are multiples of `1 / D` of magnitude at most `K`. -/
structure Scaled (C : Cost n m) (D : Nat) (K : ℚ) : Prop where
  nn : 0 ≤ K
  int : ∀ i j q, C i j = XR.fin q → OnGrid D q
  le : ∀ i j q, C i j = XR.fin q → |q| ≤ K

/-- Both the cost and the price are finite. -/
def FinAt (C : Cost n m) (v : Fin m → XR) (i : Fin n) (j : Fin m) : Prop :=
  IsFin (C i j) ∧ IsFin (v j)

/-- The exact reduced cost. -/
def redv (C : Cost n m) (v : Fin m → XR) (i : Fin n) (j : Fin m) : ℚ := (C i j).val - (v j).val

/-- The finite prices are multiples of `1 / D` of magnitude at most `V`. -/
def Prices (D : Nat) (V : ℚ) (v : Fin m → XR) : Prop :=
  ∀ j q, v j = fin q → OnGrid D q ∧ |q| ≤ V

/-- A computed reduced cost. -/
theorem red_cases {A : Arith} {D : Nat} {R δ K V : ℚ} (hA : Rounds A D R δ) {C : Cost n m}
    (hC : CostOk C) (hs : Scaled C D K) {v : Fin m → XR} (hv : ∀ j, IsV (v j))
    (hp : Prices D V v) (hK : K ≤ R) (hV : V ≤ R) (i : Fin n) (j : Fin m) :
    (A.sub (C i j) (v j) = pinf ∧ ¬ FinAt C v i j) ∨
    (FinAt C v i j ∧ ∃ r, A.sub (C i j) (v j) = fin r ∧ |r - redv C v i j| ≤ δ ∧ OnGrid D r) := by
  rcases hC i j with e | ⟨c, e⟩
  · left
    rcases hv j with e' | ⟨q, e'⟩ <;> simp [e, e', FinAt]
  · rcases hv j with e' | ⟨q, e'⟩
    · left; simp [e, e', FinAt]
    · right
      refine ⟨⟨⟨c, e⟩, ⟨q, e'⟩⟩, ?_⟩
      obtain ⟨r, h1, h2, h3⟩ := hA.sub c q (hs.int i j c e) (hp j q e').1
        ((hs.le i j c e).trans hK) ((hp j q e').2.trans hV)
      refine ⟨r, by rw [e, e', Arith.sub_fin_fin]; exact h1, ?_, h3⟩
      rw [redv, e, e', val_fin, val_fin]
      exact h2

/-- Invariant of the solver's state that holds whatever the operations return. -/
structure VInv (C : Cost n m) (s : St n m) : Prop where
  rows : ∀ j i, s.colsol j = some i → s.rowsol i = some j
  finC : ∀ j i, s.colsol j = some i → IsFin (C i j)
  isV : ∀ j, IsV (s.v j)
  free : ∀ j, s.colsol j = none → s.v j = XR.fin 0
  forced : ∃ rank : Fin m → Nat, ∀ j i, s.v j = XR.ninf → s.colsol j = some i →
    ∀ j', IsFin (C i j') → s.v j' = XR.ninf ∧ (j' = j ∨ rank j' < rank j)

theorem VInv.inj {C : Cost n m} {s : St n m} (h : VInv C s) {j j' : Fin m} {i : Fin n}
    (h1 : s.colsol j = some i) (h2 : s.colsol j' = some i) : j = j' := by
  have := h.rows j i h1
  rw [h.rows j' i h2] at this
  exact (Option.some.inj this).symm

/-- The columns priced `-inf` are assigned. -/
theorem VInv.ninf_asg {C : Cost n m} {s : St n m} (h : VInv C s) {j : Fin m}
    (hj : s.v j = XR.ninf) : ∃ i, s.colsol j = some i := by
  cases hc : s.colsol j with
  | some i => exact ⟨i, rfl⟩
  | none => rw [h.free j hc] at hj; cases hj

/-- Assigning the unassigned row `i` to column `j` with a finite price. -/
theorem VInv.assign {C : Cost n m} {s : St n m} (h : VInv C s) (i : Fin n) (hi : ¬ Asg s i)
    (j : Fin m) (hC : IsFin (C i j)) (q : ℚ) (hq : s.v j = XR.fin q) (x : XR)
    (hx : IsFin x ∨ (x = XR.ninf ∧ ∀ j', j' ≠ j → IsFin (C i j') → s.v j' = XR.ninf)) :
    VInv C ⟨Function.update s.rowsol i (some j), Function.update s.colsol j (some i),
      Function.update s.v j x⟩ := by
  refine ⟨?_, ?_, ?_, ?_, ?_⟩
  · intro j' i' hj'
    simp only at hj' ⊢
    by_cases hjj : j' = j
    · subst hjj
      rw [Function.update_self] at hj'
      obtain rfl := Option.some.inj hj'
      rw [Function.update_self]
    · rw [Function.update_of_ne hjj] at hj'
      have hii : i' ≠ i := by
        rintro rfl
        exact hi ⟨j', hj'⟩
      rw [Function.update_of_ne hii]
      exact h.rows j' i' hj'
  · intro j' i' hj'
    simp only at hj'
    by_cases hjj : j' = j
    · subst hjj
      rw [Function.update_self] at hj'
      obtain rfl := Option.some.inj hj'
      exact hC
    · rw [Function.update_of_ne hjj] at hj'
      exact h.finC j' i' hj'
  · intro j'
    simp only
    by_cases hjj : j' = j
    · subst hjj
      rw [Function.update_self]
      rcases hx with hx | ⟨rfl, _⟩
      · exact Or.inr hx
      · exact Or.inl rfl
    · rw [Function.update_of_ne hjj]; exact h.isV j'
  · intro j' hj'
    simp only at hj' ⊢
    by_cases hjj : j' = j
    · subst hjj
      rw [Function.update_self] at hj'; cases hj'
    · rw [Function.update_of_ne hjj] at hj' ⊢
      exact h.free j' hj'
  · obtain ⟨rank, hr⟩ := h.forced
    refine ⟨Function.update rank j (Finset.univ.sup rank + 1), ?_⟩
    intro j1 i1 hv h1 j' hCf
    simp only at hv h1 ⊢
    by_cases hj1 : j1 = j
    · subst hj1
      rw [Function.update_self] at hv h1
      obtain rfl := Option.some.inj h1
      rcases hx with ⟨q', e⟩ | ⟨e, hall⟩
      · rw [hv] at e; cases e
      · by_cases hj' : j' = j1
        · subst hj'
          exact ⟨by rw [Function.update_self]; exact e, Or.inl rfl⟩
        · refine ⟨?_, Or.inr ?_⟩
          · rw [Function.update_of_ne hj']
            exact hall j' hj' hCf
          · rw [Function.update_of_ne hj', Function.update_self]
            exact Nat.lt_succ_of_le (Finset.le_sup (f := rank) (Finset.mem_univ j'))
    · rw [Function.update_of_ne hj1] at hv h1
      obtain ⟨r1, r2⟩ := hr j1 i1 hv h1 j' hCf
      have hj' : j' ≠ j := by
        rintro rfl
        rw [hq] at r1; cases r1
      refine ⟨by rw [Function.update_of_ne hj']; exact r1, ?_⟩
      rw [Function.update_of_ne hj', Function.update_of_ne hj1]
      exact r2

/-- The assigned rows after `VInv.assign`. -/
theorem asg_assign {C : Cost n m} {s : St n m} (h : VInv C s) (i : Fin n)
    (j : Fin m) (x : Fin m → XR) (i' : Fin n) :
    Asg ⟨Function.update s.rowsol i (some j), Function.update s.colsol j (some i), x⟩ i' ↔
      i' = i ∨ (Asg s i' ∧ s.colsol j ≠ some i') := by
  constructor
  · rintro ⟨j', hj'⟩
    simp only at hj'
    by_cases hjj : j' = j
    · subst hjj
      rw [Function.update_self] at hj'
      exact Or.inl (Option.some.inj hj').symm
    · rw [Function.update_of_ne hjj] at hj'
      exact Or.inr ⟨⟨j', hj'⟩, fun hc => hjj (h.inj hj' hc)⟩
  · rintro (rfl | ⟨⟨j', hj'⟩, hne⟩)
    · exact ⟨j, by simp⟩
    · have hjj : j' ≠ j := by rintro rfl; exact hne hj'
      exact ⟨j', by simp only; rw [Function.update_of_ne hjj]; exact hj'⟩

end Verif.LapF

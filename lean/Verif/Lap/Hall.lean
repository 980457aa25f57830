import Verif.Lap.Basic
import Mathlib.Combinatorics.Hall.Finite
import Mathlib.Data.Nat.Bitwise

/-! # The feasibility check over all row subsets -/

namespace Verif.Lap

open XR

variable {n m : Nat}

/-- The rows of the subset `x`. -/
def rowsOf (n : Nat) (x : Nat) : Finset (Fin n) :=
  Finset.univ.filter fun i => i.val < 31 ∧ x.testBit i.val = true

/-- The columns with a finite entry in one of the rows `A`. -/
noncomputable def colsOf (C : Cost n m) (A : Finset (Fin n)) : Finset (Fin m) :=
  open Classical in Finset.univ.filter fun j => ∃ i ∈ A, IsFin (C i j)

theorem mem_colsOf {C : Cost n m} {A : Finset (Fin n)} {j : Fin m} :
    j ∈ colsOf C A ↔ ∃ i ∈ A, IsFin (C i j) := by
  simp [colsOf]

theorem isInf_iff {C : Cost n m} (hC : CostOk C) (i : Fin n) (j : Fin m) :
    (C i j).isInf = false ↔ IsFin (C i j) := by
  rcases hC i j with e | ⟨q, e⟩ <;> rw [e]
  · simp [isInf]
  · simp [isInf, isFin_fin]

theorem hasRow_spec {C : Cost n m} (hC : CostOk C) (x : Nat) (col : Fin m) :
    ∀ rows : List (Fin n),
      (hasRow C x col rows = some true ∧ ∃ i ∈ rowsOf n x, IsFin (C i col)) ∨
      (hasRow C x col rows = some false ∧
        ∀ i ∈ rows, i ∈ rowsOf n x → ¬ IsFin (C i col)) ∨
      (hasRow C x col rows = none ∧ 33 ≤ n) := by
  intro rows
  induction rows with
  | nil => right; left; exact ⟨rfl, by simp⟩
  | cons i rows ih =>
    unfold hasRow
    by_cases h1 : 32 ≤ i.val
    · rw [if_pos h1]
      right; right
      exact ⟨rfl, by have := i.isLt; omega⟩
    · rw [if_neg h1]
      by_cases h2 : (decide (i.val < 31) && x.testBit i.val && !(C i col).isInf) = true
      · rw [if_pos h2]
        left
        simp only [Bool.and_eq_true, decide_eq_true_eq, Bool.not_eq_true'] at h2
        refine ⟨rfl, i, ?_, (isInf_iff hC i col).1 h2.2⟩
        exact Finset.mem_filter.2 ⟨Finset.mem_univ _, h2.1⟩
      · rw [if_neg h2]
        rcases ih with h3 | ⟨h3, h4⟩ | h3
        · exact Or.inl h3
        · right; left
          refine ⟨h3, ?_⟩
          intro k hk hmem hfin
          rcases List.mem_cons.1 hk with rfl | hk
          · apply h2
            have := (Finset.mem_filter.1 hmem).2
            simp only [Bool.and_eq_true, decide_eq_true_eq, Bool.not_eq_true']
            exact ⟨this, (isInf_iff hC k col).2 hfin⟩
          · exact h4 k hk hmem hfin
        · exact Or.inr (Or.inr h3)

theorem hasRow_all {C : Cost n m} (hC : CostOk C) (x : Nat) (col : Fin m) :
    (hasRow C x col (List.finRange n) = some true ∧ col ∈ colsOf C (rowsOf n x)) ∨
    (hasRow C x col (List.finRange n) = some false ∧ col ∉ colsOf C (rowsOf n x)) ∨
    (hasRow C x col (List.finRange n) = none ∧ 33 ≤ n) := by
  rcases hasRow_spec hC x col (List.finRange n) with ⟨h1, h2⟩ | ⟨h1, h2⟩ | h1
  · left
    exact ⟨h1, mem_colsOf.2 h2⟩
  · right; left
    refine ⟨h1, ?_⟩
    intro hmem
    obtain ⟨i, hi, hf⟩ := mem_colsOf.1 hmem
    exact h2 i (List.mem_finRange i) hi hf
  · exact Or.inr (Or.inr h1)

theorem hallSubset_spec {C : Cost n m} (hC : CostOk C) (x pop : Nat) :
    ∀ (cols : List (Fin m)) (nb : Nat), cols.Nodup → nb < pop →
      (hallSubset C x pop cols nb = some true ∧
        pop ≤ nb + (cols.toFinset ∩ colsOf C (rowsOf n x)).card) ∨
      (hallSubset C x pop cols nb = some false ∧
        nb + (cols.toFinset ∩ colsOf C (rowsOf n x)).card < pop) ∨
      (hallSubset C x pop cols nb = none ∧ 33 ≤ n) := by
  intro cols
  induction cols with
  | nil => intro nb _ h; right; left; exact ⟨rfl, by simpa using h⟩
  | cons col cols ih =>
    intro nb hnd hlt
    rw [List.nodup_cons] at hnd
    have hnot : col ∉ cols.toFinset ∩ colsOf C (rowsOf n x) := by
      simp [hnd.1]
    unfold hallSubset
    rcases hasRow_all hC x col with ⟨h1, h2⟩ | ⟨h1, h2⟩ | ⟨h1, h2⟩
    · rw [h1]
      simp only
      have hcard : ((col :: cols).toFinset ∩ colsOf C (rowsOf n x)).card =
          (cols.toFinset ∩ colsOf C (rowsOf n x)).card + 1 := by
        rw [List.toFinset_cons, Finset.insert_inter_of_mem h2, Finset.card_insert_of_notMem hnot]
      rw [hcard]
      by_cases h3 : nb + 1 = pop
      · rw [if_pos h3]
        left
        exact ⟨rfl, by omega⟩
      · rw [if_neg h3]
        rcases ih (nb + 1) hnd.2 (by omega) with ⟨h4, h5⟩ | ⟨h4, h5⟩ | h4
        · exact Or.inl ⟨h4, by omega⟩
        · exact Or.inr (Or.inl ⟨h4, by omega⟩)
        · exact Or.inr (Or.inr h4)
    · rw [h1]
      simp only
      rw [List.toFinset_cons, Finset.insert_inter_of_notMem h2]
      exact ih nb hnd.2 hlt
    · rw [h1]
      exact Or.inr (Or.inr ⟨rfl, h2⟩)

theorem popcount_eq {x : Nat} (hx : x < 2 ^ min n 31) : popcount x = (rowsOf n x).card := by
  have himg : (rowsOf n x).image (fun i => i.val) =
      (Finset.range 31).filter fun b => x.testBit b = true := by
    ext b
    simp only [rowsOf, Finset.mem_image, Finset.mem_filter, Finset.mem_univ, true_and,
      Finset.mem_range]
    constructor
    · rintro ⟨i, h, rfl⟩; exact h
    · rintro ⟨h1, h2⟩
      have hb : b < n := by
        by_contra hc
        have hlt : x < 2 ^ b :=
          Nat.lt_of_lt_of_le hx (Nat.pow_le_pow_right (by norm_num) (by omega))
        rw [Nat.testBit_eq_false_of_lt hlt] at h2
        cases h2
      exact ⟨⟨b, hb⟩, ⟨h1, h2⟩, rfl⟩
  rw [← Finset.card_image_of_injective (rowsOf n x) Fin.val_injective, himg]
  unfold popcount
  rw [List.countP_eq_length_filter]
  have : (Finset.range 31).filter (fun b => x.testBit b = true) =
      ((List.range 31).filter x.testBit).toFinset := by
    ext b; simp
  rw [this, List.toFinset_card_of_nodup (List.nodup_range.filter _)]

theorem rowsOf_pos {x : Nat} (h0 : 0 < x) (hx : x < 2 ^ min n 31) : 0 < popcount x := by
  rw [popcount_eq (n := n) hx, Finset.card_pos]
  obtain ⟨b, hb⟩ := Nat.exists_testBit_of_ne_zero (Nat.pos_iff_ne_zero.1 h0)
  have hb' : b < min n 31 := by
    by_contra hc
    have hlt : x < 2 ^ b :=
      Nat.lt_of_lt_of_le hx (Nat.pow_le_pow_right (by norm_num) (by omega))
    rw [Nat.testBit_eq_false_of_lt hlt] at hb
    cases hb
  exact ⟨⟨b, by omega⟩, Finset.mem_filter.2 ⟨Finset.mem_univ _, by simp only; omega, hb⟩⟩

/-- Every row subset occurs. -/
theorem exists_bits (A : Finset (Fin n)) : ∃ x, x < 2 ^ n ∧ ∀ i : Fin n,
    x.testBit i.val = decide (i ∈ A) := by
  classical
  induction A using Finset.induction_on with
  | empty => exact ⟨0, by positivity, by simp⟩
  | insert a A _ ih =>
    obtain ⟨x, hx, hb⟩ := ih
    refine ⟨x ||| 2 ^ a.val, Nat.or_lt_two_pow hx (Nat.pow_lt_pow_right (by norm_num) a.isLt), ?_⟩
    intro i
    rw [Nat.testBit_or, hb, Nat.testBit_two_pow]
    by_cases e : i = a
    · subst e; simp
    · have : a.val ≠ i.val := fun h => e (Fin.ext h.symm)
      simp [e, this]

/-- The subset test for `x`. -/
def SubOk (C : Cost n m) (x : Nat) : Prop :=
  (rowsOf n x).card ≤ (colsOf C (rowsOf n x)).card

theorem hallSubset_full {C : Cost n m} (hC : CostOk C) {x : Nat} (h0 : 0 < x)
    (hx : x < 2 ^ min n 31) :
    (hallSubset C x (popcount x) (List.finRange m) 0 = some true ∧ SubOk C x) ∨
    (hallSubset C x (popcount x) (List.finRange m) 0 = some false ∧ ¬ SubOk C x) ∨
    (hallSubset C x (popcount x) (List.finRange m) 0 = none ∧ 33 ≤ n) := by
  have hall : (List.finRange m).toFinset ∩ colsOf C (rowsOf n x) = colsOf C (rowsOf n x) := by
    ext j; simp
  have := hallSubset_spec hC x (popcount x) (List.finRange m) 0 (List.nodup_finRange m)
    (rowsOf_pos h0 hx)
  rw [hall, Nat.zero_add] at this
  unfold SubOk
  rw [← popcount_eq hx]
  rcases this with h | ⟨h, h'⟩ | h
  · exact Or.inl h
  · exact Or.inr (Or.inl ⟨h, by omega⟩)
  · exact Or.inr (Or.inr h)

theorem hallLoop_spec {C : Cost n m} (hC : CostOk C) : ∀ (r x : Nat), 0 < x →
    x + r = 2 ^ min n 31 →
    (n ≤ 30 → ((hallLoop C r x = some true ∧ ∀ y, x ≤ y → y < 2 ^ min n 31 → SubOk C y) ∨
      (hallLoop C r x = some false ∧ ∃ y, x ≤ y ∧ y < 2 ^ min n 31 ∧ ¬ SubOk C y))) ∧
    (31 ≤ n → (∀ y, x ≤ y → y < 2 ^ min n 31 → SubOk C y) → hallLoop C r x = none) := by
  intro r
  induction r with
  | zero =>
    intro x h0 hx
    constructor
    · intro hn
      left
      refine ⟨by rw [hallLoop, if_neg (by omega)], ?_⟩
      intro y h1 h2; omega
    · intro hn _
      rw [hallLoop, if_pos hn]
  | succ r ih =>
    intro x h0 hx
    obtain ⟨ih1, ih2⟩ := ih (x + 1) (by omega) (by omega)
    constructor
    · intro hn
      rcases hallSubset_full hC h0 (by omega : x < 2 ^ min n 31) with ⟨h1, h2⟩ | ⟨h1, h2⟩ | ⟨_, h2⟩
      · simp only [hallLoop, h1]
        rcases ih1 hn with ⟨h3, h4⟩ | ⟨h3, y, h4, h5, h6⟩
        · left
          refine ⟨h3, ?_⟩
          intro y h5 h6
          by_cases e : y = x
          · rw [e]; exact h2
          · exact h4 y (by omega) h6
        · right; exact ⟨h3, y, by omega, h5, h6⟩
      · right
        exact ⟨by simp only [hallLoop, h1], x, le_refl _, by omega, h2⟩
      · omega
    · intro hn hall
      rcases hallSubset_full hC h0 (by omega : x < 2 ^ min n 31) with ⟨h1, h2⟩ | ⟨h1, h2⟩ | ⟨h1, h2⟩
      · simp only [hallLoop, h1]
        exact ih2 hn fun y h3 h4 => hall y (by omega) h4
      · exact absurd (hall x (le_refl _) (by omega)) h2
      · simp only [hallLoop, h1]

theorem Feasible.subOk {C : Cost n m} {τ : Fin n → Fin m} (hτ : Feasible C τ) (x : Nat) :
    SubOk C x := by
  unfold SubOk
  rw [← Finset.card_image_of_injective (rowsOf n x) hτ.1]
  apply Finset.card_le_card
  intro j hj
  obtain ⟨i, hi, rfl⟩ := Finset.mem_image.1 hj
  exact mem_colsOf.2 ⟨i, hi, hτ.2 i⟩

theorem feasible_of_subOk {C : Cost n m} (hn : n ≤ 30)
    (h : ∀ y, 1 ≤ y → y < 2 ^ min n 31 → SubOk C y) : ∃ τ, Feasible C τ := by
  classical
  have hmin : min n 31 = n := by omega
  rw [hmin] at h
  have key : ∀ A : Finset (Fin n),
      A.card ≤ (A.biUnion fun i => Finset.univ.filter fun j => IsFin (C i j)).card := by
    intro A
    by_cases hA : A = ∅
    · simp [hA]
    · obtain ⟨x, hx, hb⟩ := exists_bits A
      have hrows : rowsOf n x = A := by
        ext i
        have := i.isLt
        have h31 : i.val < 31 := by omega
        simp [rowsOf, hb, h31]
      have hx0 : 1 ≤ x := by
        by_contra hc
        have hx' : x = 0 := by omega
        subst hx'
        apply hA
        rw [← hrows]
        ext i; simp [rowsOf]
      have := h x hx0 hx
      unfold SubOk at this
      rw [hrows] at this
      refine this.trans (Finset.card_le_card ?_)
      intro j hj
      obtain ⟨i, hi, hf⟩ := mem_colsOf.1 hj
      exact Finset.mem_biUnion.2 ⟨i, hi, Finset.mem_filter.2 ⟨Finset.mem_univ _, hf⟩⟩
  obtain ⟨τ, hinj, hτ⟩ := (Finset.all_card_le_biUnion_card_iff_existsInjective'
    (fun i => Finset.univ.filter fun j => IsFin (C i j))).1 key
  exact ⟨τ, hinj, fun i => (Finset.mem_filter.1 (hτ i)).2⟩

/-- The check over all subsets decides feasibility. -/
theorem hallCheck_spec {C : Cost n m} (hC : CostOk C) (hn : n ≤ 30) :
    (hallCheck C = some true ∧ ∃ τ, Feasible C τ) ∨
    (hallCheck C = some false ∧ ¬ ∃ τ, Feasible C τ) := by
  have hpos : 0 < 2 ^ min n 31 := by positivity
  rcases (hallLoop_spec hC (2 ^ min n 31 - 1) 1 (by omega) (by omega)).1 hn with
    ⟨h1, h2⟩ | ⟨h1, y, _, _, h2⟩
  · exact Or.inl ⟨h1, feasible_of_subOk hn h2⟩
  · right
    refine ⟨h1, ?_⟩
    rintro ⟨τ, hτ⟩
    exact h2 (hτ.subOk y)

theorem hallCheck_none {C : Cost n m} (hC : CostOk C) (hn : 31 ≤ n) {τ : Fin n → Fin m}
    (hτ : Feasible C τ) : hallCheck C = none := by
  have hpos : 0 < 2 ^ min n 31 := by positivity
  exact (hallLoop_spec hC (2 ^ min n 31 - 1) 1 (by omega) (by omega)).2 hn
    fun y _ _ => hτ.subOk y

end Verif.Lap

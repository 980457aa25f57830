import Verif.Metric.Model
import Mathlib.Logic.Equiv.Fintype
import Mathlib.Algebra.BigOperators.Fin
import Mathlib.Data.Fintype.BigOperators

/-! # Matchings of targets and truths; permutations of the padded matrix -/

namespace Verif.Metric

open Verif.Lap

/-- A matching of some of the `M` targets with some of the `N` truths, one to one. -/
structure Matching (M N : Nat) where
  fn : Fin M → Option (Fin N)
  inj : ∀ i i' j, fn i = some j → fn i' = some j → i = i'

variable {M N n : Nat}

/-- The number of matched pairs. -/
def Matching.size (θ : Matching M N) : Nat := ∑ i, if (θ.fn i).isSome then 1 else 0

/-- The sum of `g` over the matched pairs. -/
def Matching.sum {A : Type*} [AddCommMonoid A] (θ : Matching M N) (g : Fin M → Fin N → A) : A :=
  ∑ i, match θ.fn i with
    | some j => g i j
    | none => 0

/-- The sum of `g` over the pairs a permutation of the padded index set makes. -/
def pairSum {A : Type*} [AddCommMonoid A] (h : M ≤ n) (g : Fin M → Fin N → A)
    (τ : Fin n → Fin n) : A :=
  ∑ i : Fin M, if h' : (τ (Fin.castLE h i)).val < N then g i ⟨τ (Fin.castLE h i), h'⟩ else 0

theorem sum_castLE {A : Type*} [AddCommMonoid A] (h : M ≤ n) (f : Fin M → A) :
    (∑ i : Fin n, if h' : i.val < M then f ⟨i, h'⟩ else 0) = ∑ i, f i := by
  let F : ℕ → A := fun i => if h' : i < M then f ⟨i, h'⟩ else 0
  have h1 : (∑ i : Fin n, if h' : i.val < M then f ⟨i, h'⟩ else 0) = ∑ i : Fin n, F i := rfl
  have h2 : ∑ i, f i = ∑ i : Fin M, F i := by
    apply Finset.sum_congr rfl
    intro i _
    simp [F]
  rw [h1, h2, Fin.sum_univ_eq_sum_range, Fin.sum_univ_eq_sum_range]
  symm
  apply Finset.sum_subset (Finset.range_subset_range.2 h)
  intro x _ hx
  simp only [Finset.mem_range] at hx
  simp [F, hx]

/-- Sum over the padded index set, split in a constant and the pairs. -/
theorem sum_pad {A : Type*} [AddCommGroup A] (h : M ≤ n) (a : A) (g : Fin M → Fin N → A)
    (τ : Fin n → Fin n) :
    (∑ i : Fin n, if h' : i.val < M ∧ (τ i).val < N then g ⟨i, h'.1⟩ ⟨τ i, h'.2⟩ else a) =
      n • a + pairSum h (fun i j => g i j - a) τ := by
  unfold pairSum
  rw [← sum_castLE h]
  have : n • a = ∑ _i : Fin n, a := by simp
  rw [this, ← Finset.sum_add_distrib]
  apply Finset.sum_congr rfl
  intro i _
  by_cases h1 : i.val < M
  · by_cases h2 : (τ i).val < N
    · have h3 : Fin.castLE h ⟨i, h1⟩ = i := rfl
      simp [h1, h2]
    · simp [h1, h2]
  · simp [h1]

/-- The matching made by a permutation, restricted to the pairs with `ok`. -/
noncomputable def ofPerm (h : M ≤ n) (ok : Fin M → Fin N → Prop) (τ : Equiv.Perm (Fin n)) :
    Matching M N := by
  classical exact
  { fn := fun i => if h' : (τ (Fin.castLE h i)).val < N then
      if ok i ⟨τ (Fin.castLE h i), h'⟩ then some ⟨τ (Fin.castLE h i), h'⟩ else none else none
    inj := by
      intro i i' j h1 h2
      have key : ∀ k : Fin M, (if h' : (τ (Fin.castLE h k)).val < N then
          if ok k ⟨τ (Fin.castLE h k), h'⟩ then some (⟨τ (Fin.castLE h k), h'⟩ : Fin N) else none
          else none) = some j → (τ (Fin.castLE h k)).val = j.val := by
        intro k hk
        split at hk
        · split at hk
          · rw [← Option.some.inj hk]
          · cases hk
        · cases hk
      have := (key i h1).trans (key i' h2).symm
      have := τ.injective (Fin.ext this)
      exact Fin.castLE_injective h this }

theorem pairSum_ofPerm {A : Type*} [AddCommMonoid A] (h : M ≤ n) (ok : Fin M → Fin N → Prop)
    (g : Fin M → Fin N → A) (hg : ∀ i j, ¬ ok i j → g i j = 0) (τ : Equiv.Perm (Fin n)) :
    (ofPerm h ok τ).sum g = pairSum h g τ := by
  unfold Matching.sum pairSum
  apply Finset.sum_congr rfl
  intro i _
  unfold ofPerm
  simp only
  by_cases h1 : (τ (Fin.castLE h i)).val < N
  · by_cases h2 : ok i ⟨τ (Fin.castLE h i), h1⟩
    · simp [h1, h2]
    · simp [h1, h2, hg i _ h2]
  · simp [h1]

/-- A matching extends to a permutation of the padded index set. -/
theorem exists_perm (hM : M ≤ n) (hN : N ≤ n) (θ : Matching M N) :
    ∃ τ : Equiv.Perm (Fin n), ∀ i j, θ.fn i = some j → τ (Fin.castLE hM i) = Fin.castLE hN j := by
  classical
  let p : Fin n → Prop := fun x => ∃ (i : Fin M) (j : Fin N), Fin.castLE hM i = x ∧ θ.fn i = some j
  have hp : ∀ x : {x // p x}, ∃ (j : Fin N), ∃ i, Fin.castLE hM i = x.1 ∧ θ.fn i = some j := by
    rintro ⟨x, i, j, h1, h2⟩
    exact ⟨j, i, h1, h2⟩
  choose f hf using hp
  let g : {x // p x} → Fin n := fun x => Fin.castLE hN (f x)
  have hg : Function.Injective g := by
    intro x y hxy
    have h1 : f x = f y := Fin.castLE_injective hN hxy
    obtain ⟨i, hi1, hi2⟩ := hf x
    obtain ⟨i', hi1', hi2'⟩ := hf y
    rw [h1] at hi2
    have := θ.inj i i' _ hi2 hi2'
    subst this
    exact Subtype.ext (hi1.symm.trans hi1')
  let e : {x // p x} ≃ {y // y ∈ Set.range g} := Equiv.ofInjective g hg
  refine ⟨e.extendSubtype, ?_⟩
  intro i j hij
  have hx : p (Fin.castLE hM i) := ⟨i, j, rfl, hij⟩
  rw [Equiv.extendSubtype_apply_of_mem e _ hx]
  change g ⟨_, hx⟩ = _
  obtain ⟨i', h1, h2⟩ := hf ⟨_, hx⟩
  have := Fin.castLE_injective hM h1
  subst this
  rw [hij] at h2
  change Fin.castLE hN (f ⟨_, hx⟩) = _
  rw [← Option.some.inj h2]

theorem exists_perm_le {A : Type*} [AddCommGroup A] [PartialOrder A] [IsOrderedAddMonoid A]
    (hM : M ≤ n) (hN : N ≤ n)
    (θ : Matching M N) (g g' : Fin M → Fin N → A) (h0 : ∀ i j, g i j ≤ 0)
    (hle : ∀ i j, g i j ≤ g' i j) :
    ∃ τ : Equiv.Perm (Fin n), pairSum hM g τ ≤ θ.sum g' := by
  obtain ⟨τ, hτ⟩ := exists_perm hM hN θ
  refine ⟨τ, ?_⟩
  unfold pairSum Matching.sum
  apply Finset.sum_le_sum
  intro i _
  cases hi : θ.fn i with
  | none =>
    simp only
    split
    · exact h0 _ _
    · exact le_refl _
  | some j =>
    have h1 := hτ i j hi
    have h2 : (τ (Fin.castLE hM i)).val < N := by rw [h1]; exact j.2
    have h3 : (⟨τ (Fin.castLE hM i), h2⟩ : Fin N) = j := by
      apply Fin.ext; simp [h1]
    simp only [h2, dif_pos]
    rw [h3]
    exact hle i j

/-- How many pairs a permutation makes, in one of the two orientations. -/
theorem pairSum_one (h : M ≤ max M N) (τ : Equiv.Perm (Fin (max M N))) :
    pairSum (N := N) h (fun _ _ => (1 : ℕ)) τ = min M N := by
  unfold pairSum
  rcases le_total M N with hMN | hMN
  · have hn : max M N = N := max_eq_right hMN
    have : ∀ i : Fin M, (τ (Fin.castLE h i)).val < N := fun i =>
      lt_of_lt_of_eq (τ (Fin.castLE h i)).2 hn
    simp [this, hMN]
  · have hn : max M N = M := max_eq_left hMN
    have e1 : (∑ i : Fin M, if h' : (τ (Fin.castLE h i)).val < N then (1 : ℕ) else 0) =
        ∑ i : Fin (max M N), if (τ i).val < N then 1 else 0 := by
      rw [← sum_castLE h]
      apply Finset.sum_congr rfl
      intro i _
      have : i.val < M := lt_of_lt_of_eq i.2 hn
      have h3 : Fin.castLE h ⟨i, this⟩ = i := rfl
      simp [this]
    rw [e1, Equiv.sum_comp τ (fun i : Fin (max M N) => if i.val < N then 1 else 0)]
    have e2 := sum_castLE (A := ℕ) (le_max_right M N) (fun _ : Fin N => 1)
    simp only [dite_eq_ite] at e2
    rw [e2]
    simp [hMN]

end Verif.Metric

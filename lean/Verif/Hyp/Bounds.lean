import Verif.Hyp.Model
import Mathlib.Algebra.BigOperators.Field
import Mathlib.Algebra.Order.BigOperators.Group.Finset

/-! # Bounds that the hypothesis loop keeps, whatever the costs and the fuel -/

namespace Verif.Hyp

open Verif.Lap Verif.Murty

variable {M N : Nat}

/-- Rows are non-negative and add up to at most the total weight. -/
structure Bnd (a : Acc M N) : Prop where
  pos : ∀ i j, 0 ≤ a.R i j
  le : ∀ i, ∑ j, a.R i j ≤ a.wsum

theorem Bnd.zero : Bnd (Acc.zero : Acc M N) := ⟨fun _ _ => le_refl _, fun _ => by simp [Acc.zero]⟩

theorem Bnd.add {a a' : Acc M N} (h : Bnd a) {w : ℝ} (hw : 0 ≤ w)
    {sol : Fin M → Option (Fin (N + 2 * M))} (e : a.add w sol = some a') : Bnd a' := by
  unfold Acc.add at e
  split at e
  · injection e with e
    subst e
    refine ⟨?_, ?_⟩
    · intro i j
      have := h.pos i j
      simp only
      split
      · linarith
      · exact this
    · intro i
      have h1 := h.le i
      simp only
      cases ht : (sol i).bind (target i) with
      | none => simp only [reduceCtorEq, if_false]; linarith
      | some j0 =>
        have : ∀ j, (if some j0 = some j then a.R i j + w else a.R i j) =
            a.R i j + if j0 = j then w else 0 := by
          intro j
          by_cases hj : j0 = j
          · simp [hj]
          · simp [hj]
        rw [Finset.sum_congr rfl fun j _ => this j, Finset.sum_add_distrib,
          Finset.sum_ite_eq Finset.univ j0 (fun _ => w)]
        simp only [Finset.mem_univ, if_true]
        linarith
  · cases e

theorem Bnd.loop {pick : List (Node M (N + 2 * M)) → Nat} {fuel : Nat} {wt : ℚ → ℝ}
    (hwt : ∀ q, 0 ≤ wt q) {wlim nmax : ℝ} (k : Nat) {S : State M (N + 2 * M)} {a a' : Acc M N}
    (h : Bnd a) (e : loop pick fuel wt wlim nmax k S a = some a') : Bnd a' := by
  induction k generalizing S a with
  | zero => simp [Hyp.loop] at e
  | succ k ih =>
    simp only [Hyp.loop] at e
    split at e
    · cases e
    · injection e with e; subst e; exact h
    · rename_i sol cost S' _
      cases hw : weight wt cost with
      | none => simp [hw] at e
      | some w =>
        simp only [hw] at e
        have hw0 : 0 ≤ w := by
          cases cost <;> simp [weight] at hw
          rw [← hw]; exact hwt _
        cases ha : a.add w sol with
        | none => simp [ha] at e
        | some b =>
          simp only [ha] at e
          have hb := h.add hw0 ha
          split at e
          · injection e with e; subst e; exact hb
          · exact ih hb e

theorem hypotheses_bnd {pick : List (Node M (N + 2 * M)) → Nat} {fuel : Nat} {wt : ℚ → ℝ}
    (hwt : ∀ q, 0 ≤ wt q) {wlim nmax : ℝ} {C : Cost M (N + 2 * M)} {a : Acc M N}
    (e : hypotheses pick fuel wt wlim nmax C = some a) : Bnd a := by
  unfold hypotheses at e
  split at e
  · cases e
  · exact Bnd.loop hwt _ Bnd.zero e

theorem Bnd.wsum_nonneg {a : Acc M N} (h : Bnd a) (i : Fin M) : 0 ≤ a.wsum :=
  (Finset.sum_nonneg fun j _ => h.pos i j).trans (h.le i)

theorem Bnd.posterior {a : Acc M N} (h : Bnd a) (i : Fin M) :
    0 ≤ a.posterior i ∧ a.posterior i ≤ 1 := by
  unfold Acc.posterior Acc.rowSum targetCorrect
  split
  · exact ⟨le_refl _, zero_le_one⟩
  · rename_i s hs
    split at hs
    · cases hs
    · rename_i hne
      injection hs with hs
      have hpos : 0 < a.wsum := lt_of_le_of_ne (h.wsum_nonneg i) (Ne.symm hne)
      have h1 : s ≤ 1 := by
        rw [← hs, ← Finset.sum_div]; exact (div_le_one hpos).2 (h.le i)
      split
      · rename_i hlim
        exact ⟨le_trans (by norm_num) hlim, h1⟩
      · exact ⟨le_refl _, zero_le_one⟩

theorem Bnd.row {a : Acc M N} (h : Bnd a) (i : Fin M) (j : Fin (N + 1)) :
    0 ≤ a.R i j / a.wsum ∧ a.R i j / a.wsum ≤ 1 := by
  have h0 := h.wsum_nonneg i
  refine ⟨div_nonneg (h.pos i j) h0, ?_⟩
  rcases h0.lt_or_eq with hp | hp
  · rw [div_le_one hp]
    exact (Finset.single_le_sum (fun k _ => h.pos i k) (Finset.mem_univ j)).trans (h.le i)
  · rw [← hp]; simp

end Verif.Hyp

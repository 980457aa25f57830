import Verif.Hyp.Model
import Verif.Murty.Props

/-! # What the hypothesis loop computes -/

namespace Verif.Hyp

open Verif.Lap Verif.Murty XR

variable {M N : Nat}

/-- The accumulator after the hypotheses `L` with weights `w`. -/
structure Repr (w : (Fin M → Fin (N + 2 * M)) → ℝ) (L : List (Fin M → Fin (N + 2 * M)))
    (a : Acc M N) : Prop where
  n : a.n = L.length
  wsum : a.wsum = (L.map w).sum
  R : ∀ i j, a.R i j = ((L.filter fun σ => target i (σ i) = some j).map w).sum

/-- The loop stops after the weights `P`: the last one is relatively small, or the number of
hypotheses is reached. -/
def Stop (wlim nmax : ℝ) (P : List ℝ) : Prop :=
  (P.sum ≠ 0 ∧ P.getLast?.getD 0 / P.sum < wlim) ∨ nmax ≤ (P.length : ℝ)

theorem add_repr {w : (Fin M → Fin (N + 2 * M)) → ℝ} {L : List (Fin M → Fin (N + 2 * M))}
    {a : Acc M N} (h : Repr w L a) (σ : Fin M → Fin (N + 2 * M)) :
    ∃ a', a.add (w σ) (fun i => some (σ i)) = some a' ∧ Repr w (L ++ [σ]) a' := by
  refine ⟨_, by unfold Acc.add; rw [if_pos (by simp)], ?_, ?_, ?_⟩
  · simp [h.n]
  · simp [h.wsum]
  · intro i j
    simp only [Option.bind_some, List.filter_append, List.map_append, List.sum_append, ← h.R]
    by_cases hj : target i (σ i) = some j
    · simp [hj]
    · simp [hj]

theorem loop_spec {A : Cost M (N + 2 * M)} (hM : M ≤ 30)
    {pick : List (Node M (N + 2 * M)) → Nat} (hp : PickOk pick) {o : ℚ} (wt : ℚ → ℝ)
    (wlim nmax : ℝ) (k : Nat) :
    ∀ (S : State M (N + 2 * M)) (L0 : List (Fin M → Fin (N + 2 * M))) (a : Acc M N)
      (T : Finset (Fin M → Fin (N + 2 * M))),
      QOk A S.queue → S.offset = fin o → Repr (fun σ => wt (total A σ + o)) L0 a →
      (∀ τ, τ ∈ T ↔ Rem A S.queue τ) → T.card ≤ k →
      ∃ (F : Nat) (L : List (Fin M → Fin (N + 2 * M))) (a' : Acc M N),
        (∀ fuel, F ≤ fuel → ∀ k', k < k' → loop pick fuel wt wlim nmax k' S a = some a') ∧
        Repr (fun σ => wt (total A σ + o)) (L0 ++ L) a' ∧
        L.Nodup ∧ (∀ σ ∈ L, Rem A S.queue σ) ∧
        L.Pairwise (fun σ τ => total A σ ≤ total A τ) ∧
        (∀ σ ∈ L, ∀ τ, Rem A S.queue τ → τ ∉ L → total A σ ≤ total A τ) ∧
        (∀ p, L0.length ≤ p → p + 1 < (L0 ++ L).length →
          ¬ Stop wlim nmax (((L0 ++ L).take (p + 1)).map fun σ => wt (total A σ + o))) ∧
        ((L ≠ [] ∧ Stop wlim nmax ((L0 ++ L).map fun σ => wt (total A σ + o))) ∨
          ∀ τ, Rem A S.queue τ → τ ∈ L) := by
  induction k with
  | zero =>
    intro S L0 a T hQ ho hR hT hk
    have hno : ∀ τ, ¬ Rem A S.queue τ := by
      intro τ hτ
      have := (hT τ).2 hτ
      rw [Finset.card_eq_zero.1 (Nat.le_zero.1 hk)] at this
      simp at this
    obtain ⟨F, out, S', hrun, _, _, hcase⟩ := draw_spec hM hp hQ ho
    rcases hcase with ⟨rfl, _, _⟩ | ⟨σ, rfl, hmem, _⟩
    · refine ⟨F, [], a, ?_, by simpa using hR, List.nodup_nil, by simp, List.Pairwise.nil, by simp,
        ?_, Or.inr fun τ h => absurd h (hno τ)⟩
      · intro fuel hf k' hk'
        obtain ⟨k', rfl⟩ := Nat.exists_eq_succ_of_ne_zero (Nat.pos_iff_ne_zero.1 hk')
        simp only [loop, hrun fuel hf]
      · intro p h1 h2
        simp at h2
        omega
    · exact absurd hmem (hno σ)
  | succ k ih =>
    intro S L0 a T hQ ho hR hT hk
    obtain ⟨F, out, S', hrun, hQ', ho', hcase⟩ := draw_spec hM hp hQ ho
    rcases hcase with ⟨rfl, hno, _⟩ | ⟨σ, rfl, hmem, hbest, hrem⟩
    · refine ⟨F, [], a, ?_, by simpa using hR, List.nodup_nil, by simp, List.Pairwise.nil, by simp,
        ?_, Or.inr fun τ h => absurd h (hno τ)⟩
      · intro fuel hf k' hk'
        obtain ⟨k', rfl⟩ := Nat.exists_eq_succ_of_ne_zero (n := k') (by omega)
        simp only [loop, hrun fuel hf]
      · intro p h1 h2
        simp at h2
        omega
    · obtain ⟨a1, ha1, hR1⟩ := add_repr hR σ
      set w := fun σ => wt (total A σ + o) with hw
      have hstop : ((a1.wsum ≠ 0 ∧ w σ / a1.wsum < wlim) ∨ nmax ≤ (a1.n : ℝ)) ↔
          Stop wlim nmax ((L0 ++ [σ]).map w) := by
        unfold Stop
        rw [hR1.wsum, hR1.n]
        simp
      by_cases hs : Stop wlim nmax ((L0 ++ [σ]).map w)
      · refine ⟨F, [σ], a1, ?_, hR1, by simp, ?_, by simp, ?_, ?_, Or.inl ⟨by simp, hs⟩⟩
        · intro fuel hf k' hk'
          obtain ⟨k', rfl⟩ := Nat.exists_eq_succ_of_ne_zero (n := k') (by omega)
          have hs' := hstop.2 hs
          simp only [loop, hrun fuel hf, weight]
          rw [ha1]
          simp only
          rw [if_pos hs']
        · intro τ hτ
          rw [List.mem_singleton.1 hτ]; exact hmem
        · intro τ hτ τ' hτ' _
          rw [List.mem_singleton.1 hτ]; exact hbest τ' hτ'
        · intro p h1 h2
          simp at h2
          omega
      · have hT' : ∀ τ, τ ∈ T.erase σ ↔ Rem A S'.queue τ := by
          intro τ
          rw [Finset.mem_erase, hT, hrem]
          exact and_comm
        have hcard : (T.erase σ).card ≤ k := by
          rw [Finset.card_erase_of_mem ((hT σ).2 hmem)]
          omega
        obtain ⟨F2, L, a', g1, g2, g3, g4, g5, g6, g7, g8⟩ :=
          ih S' (L0 ++ [σ]) a1 (T.erase σ) hQ' ho' hR1 hT' hcard
        have happ : L0 ++ [σ] ++ L = L0 ++ σ :: L := by simp
        rw [happ] at g2 g7 g8
        refine ⟨max F F2, σ :: L, a', ?_, g2, ?_, ?_, ?_, ?_, ?_, ?_⟩
        · intro fuel hf k' hk'
          obtain ⟨k', rfl⟩ := Nat.exists_eq_succ_of_ne_zero (n := k') (by omega)
          have hs' := mt hstop.1 hs
          have hnext := g1 fuel (le_trans (le_max_right _ _) hf) k' (by omega)
          simp only [loop, hrun fuel (le_trans (le_max_left _ _) hf), weight]
          rw [ha1]
          simp only
          rw [if_neg hs', hnext]
        · refine List.nodup_cons.2 ⟨fun h => ((hrem σ).1 (g4 σ h)).2 rfl, g3⟩
        · intro τ hτ
          rcases List.mem_cons.1 hτ with rfl | hτ
          · exact hmem
          · exact ((hrem τ).1 (g4 τ hτ)).1
        · exact List.Pairwise.cons (fun τ hτ => hbest τ ((hrem τ).1 (g4 τ hτ)).1) g5
        · intro τ hτ τ' hτ' hnot
          rw [List.mem_cons, not_or] at hnot
          rcases List.mem_cons.1 hτ with rfl | hτ
          · exact hbest τ' hτ'
          · exact g6 τ hτ τ' ((hrem τ').2 ⟨hτ', hnot.1⟩) hnot.2
        · intro p h1 h2
          rcases Nat.lt_or_ge L0.length p with h | h
          · exact g7 p (by simp; omega) h2
          · have : p = L0.length := by omega
            subst this
            have : (L0 ++ σ :: L).take (L0.length + 1) = L0 ++ [σ] := by
              rw [← happ, List.take_append_of_le_length (by simp)]
              simp
            rw [this]; exact hs
        · rcases g8 with ⟨_, h⟩ | h
          · exact Or.inl ⟨by simp, h⟩
          · right
            intro τ hτ
            by_cases he : τ = σ
            · rw [he]; exact List.mem_cons_self
            · exact List.mem_cons_of_mem _ (h τ ((hrem τ).2 ⟨hτ, he⟩))

/-- The hypothesis loop on a cost matrix: it terminates, and its variables are sums over a list of
distinct assignments, taken in order of cost, none of which leaves out a cheaper one. -/
theorem hypotheses_spec {C : Cost M (N + 2 * M)} (hC : CostOk C) (hM0 : 0 < M) (hM : M ≤ 30)
    {pick : List (Node M (N + 2 * M)) → Nat} (hp : PickOk pick) (wt : ℚ → ℝ) (wlim nmax : ℝ) :
    ∃ (F : Nat) (L : List (Fin M → Fin (N + 2 * M))) (a : Acc M N),
      (∀ fuel, F ≤ fuel → hypotheses pick fuel wt wlim nmax C = some a) ∧
      Repr (fun σ => wt (total C σ)) L a ∧ L.Nodup ∧ (∀ σ ∈ L, Feasible C σ) ∧
      L.Pairwise (fun σ τ => total C σ ≤ total C τ) ∧
      (∀ σ ∈ L, ∀ τ, Feasible C τ → τ ∉ L → total C σ ≤ total C τ) ∧
      (∀ p, p + 1 < L.length →
        ¬ Stop wlim nmax ((L.take (p + 1)).map fun σ => wt (total C σ))) ∧
      ((L ≠ [] ∧ Stop wlim nmax (L.map fun σ => wt (total C σ))) ∨
        ∀ τ, Feasible C τ → τ ∈ L) := by
  classical
  obtain ⟨A, S, o, h1, h2, h3, h4, h5⟩ := init_spec hC hM0 (by omega : 0 < N + 2 * M)
  obtain ⟨F, L, a, g1, g2, g3, g4, g5, g6, g7, g8⟩ := loop_spec (N := N) hM hp wt wlim nmax
    (Finset.univ.filter fun τ => Rem A S.queue τ).card S [] Acc.zero
    (Finset.univ.filter fun τ => Rem A S.queue τ) h2 h3 ⟨rfl, rfl, fun i j => rfl⟩
    (fun τ => by simp) (le_refl _)
  simp only [List.nil_append] at g2 g7 g8
  have hL : ∀ σ ∈ L, Feasible C σ := fun σ hσ => (h4 σ).1 (g4 σ hσ)
  have hmap : ∀ L' : List (Fin M → Fin (N + 2 * M)), (∀ σ ∈ L', σ ∈ L) →
      (L'.map fun σ => wt (total A σ + o)) = L'.map fun σ => wt (total C σ) := by
    intro L' h
    apply List.map_congr_left
    intro σ hσ
    rw [h5 σ (hL σ (h σ hσ))]
  refine ⟨max F ((Finset.univ.filter fun τ => Rem A S.queue τ).card + 1), L, a, ?_, ?_, g3, hL, ?_,
    ?_, ?_, ?_⟩
  · intro fuel hf
    simp only [hypotheses, h1]
    exact g1 fuel (le_trans (le_max_left _ _) hf) fuel (le_trans (le_max_right _ _) hf)
  · refine ⟨g2.n, ?_, ?_⟩
    · rw [g2.wsum, hmap L fun _ h => h]
    · intro i j
      rw [g2.R, hmap _ fun σ h => List.mem_of_mem_filter h]
  · refine List.Pairwise.imp_of_mem ?_ g5
    intro σ τ hσ hτ h
    rw [← h5 σ (hL σ hσ), ← h5 τ (hL τ hτ)]
    linarith
  · intro σ hσ τ hτ hnot
    rw [← h5 σ (hL σ hσ), ← h5 τ hτ]
    have := g6 σ hσ τ ((h4 τ).2 hτ) hnot
    linarith
  · intro p hp'
    have := g7 p (Nat.zero_le _) hp'
    rw [hmap _ fun σ h => List.mem_of_mem_take h] at this
    exact this
  · rcases g8 with ⟨h, h'⟩ | h
    · rw [hmap L fun _ h => h] at h'
      exact Or.inl ⟨h, h'⟩
    · exact Or.inr fun τ hτ => h τ ((h4 τ).2 hτ)

end Verif.Hyp

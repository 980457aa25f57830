import Verif.Hyp.Order
import Verif.Hyp.Props
import Verif.System.Fuel

/-!
# C107: one target and hypotheses of the same cost
-/

namespace Verif.Hyp

open Verif.Lap
open Verif.Lap.XR (fin IsC IsFin)
open Verif.Murty (Node PickOk)

variable {N : Nat}

/-- Assign column `k` to the only target. -/
def only (k : Fin (N + 2 * 1)) : Fin 1 → Fin (N + 2 * 1) := fun _ => k

theorem only_inj {i j : Fin (N + 2 * 1)} (h : only i = only j) : i = j := congrFun h 0

theorem only_surj (σ : Fin 1 → Fin (N + 2 * 1)) : ∃ k, σ = only k :=
  ⟨σ 0, by funext i; rw [Subsingleton.elim i 0]; rfl⟩

theorem only_feas {C : Cost 1 (N + 2 * 1)} (k : Fin (N + 2 * 1)) : Feasible C (only k) ↔ IsFin (C 0 k) := by
  constructor
  · intro h
    exact h.2 0
  · intro h
    refine ⟨fun i k _ => Subsingleton.elim i k, fun i => ?_⟩
    rw [Subsingleton.elim i 0]
    exact h

theorem only_total {C : Cost 1 (N + 2 * 1)} {k : Fin (N + 2 * 1)} {q : ℚ} (h : C 0 k = fin q) :
    total C (only k) = q := by
  simp only [total, Finset.univ_unique, Finset.sum_singleton, Fin.default_eq_zero, only, h]
  rfl

/-- One target: the costs settle everything if they are all different. -/
theorem settled_one {C : Cost 1 (N + 2 * 1)} (wt : ℚ → ℝ) (wlim nmax : ℝ)
    (h : ∀ k k' q, C 0 k = fin q → C 0 k' = fin q → k = k') : Settled C wt wlim nmax := by
  refine Or.inl fun σ τ hσ hτ he _ i => ?_
  obtain ⟨k, rfl⟩ := only_surj σ
  obtain ⟨k', rfl⟩ := only_surj τ
  obtain ⟨q, hq⟩ := (only_feas k).1 hσ
  obtain ⟨q', hq'⟩ := (only_feas k').1 hτ
  rw [only_total hq, only_total hq'] at he
  subst he
  rw [h k k' q hq hq']

/-- The first of the hypotheses drawn is the best, the second one of the two that come next; there is no third. -/
theorem tied_drawn {C : Cost 1 (N + 2 * 1)} {k0 k1 k2 : Fin (N + 2 * 1)} {q0 q : ℚ} (h12 : k1 ≠ k2)
    (c0 : C 0 k0 = fin q0) (c1 : C 0 k1 = fin q) (c2 : C 0 k2 = fin q) (hlt : q0 < q)
    (hrest : ∀ k q', k ≠ k0 → k ≠ k1 → k ≠ k2 → C 0 k = fin q' → q < q') {wt : ℚ → ℝ} {wlim nmax : ℝ}
    (hw0 : 0 < wt q0) (hw : 0 < wt q) (hs : wt q < wlim * (wt q0 + wt q)) (hw1 : wlim ≤ 1) (hn : 1 < nmax)
    {L : List (Fin 1 → Fin (N + 2 * 1))} (hL : Drawn C wt wlim nmax L) :
    L = [only k0, only k1] ∨ L = [only k0, only k2] := by
  have t0 := only_total c0
  have t1 := only_total c1
  have t2 := only_total c2
  have f0 : Feasible C (only k0) := (only_feas _).2 ⟨_, c0⟩
  have f1 : Feasible C (only k1) := (only_feas _).2 ⟨_, c1⟩
  have h01 : k0 ≠ k1 := by
    rintro rfl
    rw [c0] at c1
    injection c1 with h
    exact absurd h hlt.ne
  have h02 : k0 ≠ k2 := by
    rintro rfl
    rw [c0] at c2
    injection c2 with h
    exact absurd h hlt.ne
  -- what costs at most so much
  have hle : ∀ σ, Feasible C σ → total C σ ≤ q → σ = only k0 ∨ σ = only k1 ∨ σ = only k2 := by
    intro σ hσ hc
    obtain ⟨k, rfl⟩ := only_surj σ
    obtain ⟨q', hq'⟩ := (only_feas k).1 hσ
    rw [only_total hq'] at hc
    by_contra hne
    push Not at hne
    exact absurd (hrest k q' (fun h => hne.1 (by rw [h])) (fun h => hne.2.1 (by rw [h]))
      (fun h => hne.2.2 (by rw [h])) hq') (not_lt.2 hc)
  have hle0 : ∀ σ, Feasible C σ → total C σ ≤ q0 → σ = only k0 := by
    intro σ hσ hc
    rcases hle σ hσ (hc.trans hlt.le) with h | h | h
    · exact h
    · rw [h, t1] at hc
      exact absurd hlt (not_lt.2 hc)
    · rw [h, t2] at hc
      exact absurd hlt (not_lt.2 hc)
  cases L with
  | nil =>
    rcases hL.last with ⟨h, _⟩ | h
    · exact absurd rfl h
    · exact absurd (h _ f0) (by simp)
  | cons σ L =>
    have e0 : σ = only k0 := by
      apply hle0 σ (hL.feas σ List.mem_cons_self)
      rw [← t0]
      by_cases hm : only k0 ∈ σ :: L
      · rcases List.mem_cons.1 hm with h | h
        · rw [h]
        · exact (List.pairwise_cons.1 hL.sorted).1 _ h
      · exact hL.best σ List.mem_cons_self _ f0 hm
    subst e0
    cases L with
    | nil =>
      exfalso
      rcases hL.last with ⟨_, h | h⟩ | h
      · simp only [List.map_cons, List.map_nil, List.sum_cons, List.sum_nil, add_zero, List.getLast?_singleton,
          Option.getD_some, t0] at h
        rw [div_self hw0.ne'] at h
        linarith [h.2]
      · simp only [List.map_cons, List.map_nil, List.length_cons, List.length_nil] at h
        push_cast at h
        linarith
      · have := h _ f1
        rw [List.mem_singleton] at this
        exact h01 (only_inj this).symm
    | cons τ L =>
      have hτ : τ ∈ only k0 :: τ :: L := by simp
      have hτ0 : τ ≠ only k0 := by
        rintro rfl
        have := hL.nodup
        simp at this
      have e1 : τ = only k1 ∨ τ = only k2 := by
        have hc : total C τ ≤ q := by
          rw [← t1]
          by_cases hm : only k1 ∈ only k0 :: τ :: L
          · rcases List.mem_cons.1 hm with h | h
            · exact absurd (only_inj h).symm h01
            · rcases List.mem_cons.1 h with h | h
              · rw [h]
              · exact (List.pairwise_cons.1 (List.pairwise_cons.1 hL.sorted).2).1 _ h
          · exact hL.best τ hτ _ f1 hm
        exact (hle τ (hL.feas τ hτ) hc).resolve_left hτ0
      have hw2 : wt (total C τ) = wt q := by
        rcases e1 with rfl | rfl
        · rw [t1]
        · rw [t2]
      cases L with
      | nil => rcases e1 with rfl | rfl <;> simp
      | cons υ L =>
        exfalso
        refine hL.nostop 1 (by simp) (Or.inl ?_)
        simp only [List.take_succ_cons, List.take_zero, List.map_cons, List.map_nil, List.sum_cons, List.sum_nil,
          add_zero, t0, hw2, List.getLast?_cons_cons, List.getLast?_singleton, Option.getD_some]
        refine ⟨by positivity, ?_⟩
        rw [div_lt_iff₀ (by positivity)]
        exact hs

theorem only_target (j : Fin N) : target (M := 1) (N := N) 0 (j.castAdd _) = some j.castSucc := by
  rw [target_eq]
  exact Or.inl ⟨j.isLt, rfl⟩

/-- **C107, ties** A target, a report that explains it well, and two reports of the same, small likelihood: one
of the two counts, and the other does not. -/
theorem tied_spec {det : Fin 1 → Fin N → XR} {miss fls : Fin 1 → XR} {j0 j1 j2 : Fin N} {q0 q : ℚ}
    (h12 : j1 ≠ j2) (c0 : det 0 j0 = fin q0) (c1 : det 0 j1 = fin q) (c2 : det 0 j2 = fin q) (hlt : q0 < q)
    (hdet : ∀ j q', j ≠ j0 → j ≠ j1 → j ≠ j2 → det 0 j = fin q' → q < q') (hC : CostOk (costMatrix det miss fls))
    (hmiss : ∀ q', miss 0 = fin q' → q < q') (hfls : ∀ q', fls 0 = fin q' → q < q')
    {wt : ℚ → ℝ} {wlim nmax : ℝ} (hw0 : 0 < wt q0) (hw : 0 < wt q) (hs : wt q < wlim * (wt q0 + wt q))
    (hw1 : wlim ≤ 1) (hn : 1 < nmax) {pick : List (Node 1 (N + 2 * 1)) → Nat} (hp : PickOk pick) {fuel : Nat}
    {a : Acc 1 N} (e : hypotheses pick fuel wt wlim nmax (costMatrix det miss fls) = some a) :
    a.n = 2 ∧ a.wsum = wt q0 + wt q ∧
      ((a.R 0 j1.castSucc = wt q ∧ a.R 0 j2.castSucc = 0) ∨ (a.R 0 j1.castSucc = 0 ∧ a.R 0 j2.castSucc = wt q)) := by
  obtain ⟨F, L, a', g1, g2, g3, g4, g5, g6, g7, g8⟩ :=
    hypotheses_spec hC (by decide) (by decide) hp wt wlim nmax
  obtain rfl : a' = a := by
    have h1 := hypotheses_mono pick wt wlim nmax (le_max_left fuel F) e
    rw [g1 _ (le_max_right _ _)] at h1
    exact Option.some.inj h1
  have hcol : ∀ j : Fin N, costMatrix det miss fls 0 (j.castAdd _) = det 0 j := by
    intro j
    unfold costMatrix
    rw [dif_pos (show (j.castAdd _ : Fin (N + 2 * 1)).val < N from j.isLt)]
    rfl
  have hne : ∀ {i j : Fin N}, i ≠ j → (i.castAdd (2 * 1)) ≠ j.castAdd _ := fun h h' => h (Fin.castAdd_inj.1 h')
  have hL := tied_drawn (hne h12) ((hcol j0).trans c0) ((hcol j1).trans c1) ((hcol j2).trans c2) hlt (by
    intro k q' n0 n1 n2 hk
    by_cases hkN : k.val < N
    · have : k = (⟨k.val, hkN⟩ : Fin N).castAdd _ := rfl
      rw [this] at n0 n1 n2 hk
      rw [hcol] at hk
      exact hdet _ q' (fun h => n0 (by rw [h])) (fun h => n1 (by rw [h])) (fun h => n2 (by rw [h])) hk
    · unfold costMatrix at hk
      rw [dif_neg hkN] at hk
      have := k.isLt
      by_cases hkm : k.val = N
      · rw [if_pos (by simpa using hkm)] at hk
        exact hmiss q' hk
      · rw [if_neg (by simpa using hkm), if_pos (by simp; omega)] at hk
        exact hfls q' hk) hw0 hw hs hw1 hn ⟨g3, g4, g5, g6, g7, g8⟩
  have t0 := only_total ((hcol j0).trans c0)
  have t1 := only_total ((hcol j1).trans c1)
  have t2 := only_total ((hcol j2).trans c2)
  have h01 : j0 ≠ j1 := by
    rintro rfl
    rw [c0] at c1
    injection c1 with h
    exact absurd h hlt.ne
  have h02 : j0 ≠ j2 := by
    rintro rfl
    rw [c0] at c2
    injection c2 with h
    exact absurd h hlt.ne
  have hR : ∀ i j : Fin N, (decide (target (M := 1) (N := N) 0 (only (i.castAdd _) 0) = some j.castSucc)) = decide (i = j) := by
    intro i j
    simp only [only, only_target, Option.some.injEq, Fin.castSucc_inj]
  rcases hL with rfl | rfl
  · refine ⟨g2.n, by rw [g2.wsum]; simp [t0, t1], Or.inl ⟨?_, ?_⟩⟩
    · rw [g2.R]
      simp [hR, h01, t1]
    · rw [g2.R]
      simp [hR, h02, h12]
  · refine ⟨g2.n, by rw [g2.wsum]; simp [t0, t2], Or.inr ⟨?_, ?_⟩⟩
    · rw [g2.R]
      simp [hR, h01, Ne.symm h12]
    · rw [g2.R]
      simp [hR, h02, t2]

/-- Two targets and one report, the targets in the other order. -/
example : ∃ (F : Nat) (a a' : Acc 2 1),
    (∀ fuel, F ≤ fuel → hypotheses Murty.exists_pickOk.choose fuel ew 0 25 (costMatrix exDet exMiss exFls) = some a ∧
      hypotheses Murty.exists_pickOk.choose fuel ew 0 25 (costMatrix (fun i => exDet (Equiv.swap 0 1 i))
        (fun i => exMiss (Equiv.swap 0 1 i)) (fun i => exFls (Equiv.swap 0 1 i))) = some a') ∧
    a'.R 1 0 = a.R 0 0 := by
  obtain ⟨F, a, a', h1, _, _, _, h2⟩ := order_spec (det := exDet) (miss := exMiss) (fls := exFls)
    (det' := fun i => exDet (Equiv.swap 0 1 i)) (miss' := fun i => exMiss (Equiv.swap 0 1 i))
    (fls' := fun i => exFls (Equiv.swap 0 1 i)) (Equiv.swap 0 1) (Equiv.refl _)
    (by intro i j; simp [exDet]) (by intro i; simp) (by intro i; simp)
    (costMatrix_ok exDet_ok exMiss_ok exFls_ok) (by decide) (by decide) Murty.exists_pickOk.choose_spec
    Murty.exists_pickOk.choose_spec ew 0 25
  refine ⟨F, a, a', h1, ?_⟩
  have := h2 (Or.inr ⟨le_refl _, fun q => (ew_pos q).le, by norm_num⟩) 0 0
  rw [Equiv.swap_apply_left] at this
  exact this

end Verif.Hyp

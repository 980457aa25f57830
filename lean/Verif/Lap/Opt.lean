import Verif.Lap.Arr
import Verif.Lap.Augment
import Verif.Lap.Hall

/-! # Optimality of the final state -/

namespace Verif.Lap

open XR

variable {n m : Nat}

/-- In a complete state, the column of a row whose price is `-inf` is used in every feasible
assignment. -/
theorem forced_row {C : Cost n m} {s : St n m} (h : Inv C s) {σ : Fin n → Fin m}
    (hσ : ∀ i, s.colsol (σ i) = some i) {τ : Fin n → Fin m} (hτ : Feasible C τ) :
    ∀ i, s.v (σ i) = ninf → τ i = σ i := by
  obtain ⟨rank, hr⟩ := h.forced
  have key : ∀ (k : Nat) (i : Fin n), rank (σ i) = k → s.v (σ i) = ninf → τ i = σ i := by
    intro k
    induction k using Nat.strong_induction_on with
    | _ k ih =>
      intro i hk hv
      obtain ⟨h1, h2⟩ := hr (σ i) i hv (hσ i) (τ i) (hτ.2 i)
      rcases h2 with h2 | h2
      · exact h2
      · exfalso
        obtain ⟨i', hi'⟩ := h.ninf_asg h1
        have hσi' : σ i' = τ i := h.inj (hσ i') hi'
        have := ih (rank (σ i')) (by rw [hσi']; omega) i' rfl (by rw [hσi']; exact h1)
        rw [hσi'] at this
        have hii := hτ.1 this
        rw [hii] at hσi'
        rw [← hσi'] at h2
        omega
  intro i hv
  exact key _ i rfl hv

/-- A row that is not forced does not use a column priced `-inf` in any feasible assignment. -/
theorem unforced_row {C : Cost n m} {s : St n m} (h : Inv C s) {σ : Fin n → Fin m}
    (hσ : ∀ i, s.colsol (σ i) = some i) {τ : Fin n → Fin m} (hτ : Feasible C τ) (i : Fin n)
    (hi : s.v (σ i) ≠ ninf) : s.v (τ i) ≠ ninf := by
  intro hn
  obtain ⟨i', hi'⟩ := h.ninf_asg hn
  have hσi' : σ i' = τ i := h.inj (hσ i') hi'
  have h1 := forced_row h hσ hτ i' (by rw [hσi']; exact hn)
  rw [hσi'] at h1
  have hii := hτ.1 h1
  rw [hii] at hσi'
  rw [hσi'] at hi
  exact hi hn

/-- Reduced cost of the entry used by `τ` in row `i`, relative to the entry used by `σ`. -/
def slack (C : Cost n m) (v : Fin m → XR) (σ τ : Fin n → Fin m) (i : Fin n) : ℚ :=
  (C i (τ i)).val - (C i (σ i)).val + (v (σ i)).val - (v (τ i)).val

theorem slack_nonneg {C : Cost n m} {s : St n m} (h : Inv C s) {σ : Fin n → Fin m}
    (hσ : ∀ i, s.colsol (σ i) = some i) {τ : Fin n → Fin m} (hτ : Feasible C τ) (i : Fin n) :
    0 ≤ slack C s.v σ τ i := by
  unfold slack
  by_cases hv : s.v (σ i) = ninf
  · rw [forced_row h hσ hτ i hv]; linarith
  · obtain ⟨a, ha⟩ := (h.isV (σ i)).resolve_left hv
    obtain ⟨b, hb⟩ := (h.isV (τ i)).resolve_left (unforced_row h hσ hτ i hv)
    have := h.tight (σ i) i (hσ i) a ha (τ i) b (hτ.2 i) hb
    rw [ha, hb, val_fin, val_fin]
    linarith

theorem val_nonpos {C : Cost n m} {s : St n m} (h : Inv C s) (j : Fin m) : (s.v j).val ≤ 0 := by
  rcases h.isV j with e | ⟨q, e⟩
  · rw [e]; exact le_refl _
  · rw [e]; exact h.nonpos j q e

theorem total_slack {C : Cost n m} {s : St n m} (h : Inv C s) {σ : Fin n → Fin m}
    (hσ : ∀ i, s.colsol (σ i) = some i) {τ : Fin n → Fin m} (hτ : Feasible C τ) :
    total C σ + ∑ i, slack C s.v σ τ i ≤ total C τ := by
  have hinj : Function.Injective σ := by
    intro a b hab
    have h1 := hσ a
    rw [hab, hσ b] at h1
    exact (Option.some.inj h1).symm
  have e1 : ∑ i, (s.v (σ i)).val = ∑ j, (s.v j).val := by
    rw [← Finset.sum_image (f := fun j => (s.v j).val) (g := σ) (s := Finset.univ)
      (fun a _ b _ hab => hinj hab)]
    apply Finset.sum_subset (Finset.subset_univ _)
    intro j _ hj
    have : s.colsol j = none := by
      cases hc : s.colsol j with
      | none => rfl
      | some i =>
        exact absurd (Finset.mem_image.2 ⟨i, Finset.mem_univ _, h.inj (hσ i) hc⟩) hj
    rw [h.free j this]
    rfl
  have e2 : ∑ j, (s.v j).val ≤ ∑ i, (s.v (τ i)).val := by
    rw [← Finset.sum_image (f := fun j => (s.v j).val) (g := τ) (s := Finset.univ)
      (fun a _ b _ hab => hτ.1 hab)]
    rw [← Finset.sum_sdiff (Finset.subset_univ (Finset.univ.image τ))]
    have : ∑ j ∈ Finset.univ \ Finset.univ.image τ, (s.v j).val ≤ 0 :=
      Finset.sum_nonpos fun j _ => val_nonpos h j
    linarith
  have e3 : ∑ i, slack C s.v σ τ i = total C τ - total C σ + ∑ i, (s.v (σ i)).val
      - ∑ i, (s.v (τ i)).val := by
    unfold slack total
    rw [← Finset.sum_sub_distrib, ← Finset.sum_add_distrib, ← Finset.sum_sub_distrib]
  rw [e3, e1]
  linarith

theorem optimal {C : Cost n m} {s : St n m} (h : Inv C s) {σ : Fin n → Fin m}
    (hσ : ∀ i, s.colsol (σ i) = some i) {τ : Fin n → Fin m} (hτ : Feasible C τ) :
    total C σ ≤ total C τ := by
  have h1 := total_slack h hσ hτ
  have h2 : 0 ≤ ∑ i, slack C s.v σ τ i := Finset.sum_nonneg fun i _ => slack_nonneg h hσ hτ i
  linarith

/-- What the returned dual variables guarantee for the assignment `σ`. -/
structure Duals (C : Cost n m) (σ : Fin n → Fin m) (u : Fin n → XR) (v : Fin m → XR) : Prop where
  /-- column prices are `-inf` or finite and not positive -/
  vform : ∀ j, v j = ninf ∨ ∃ q, v j = fin q ∧ q ≤ 0
  /-- unassigned columns have price zero -/
  vfree : ∀ j, (∀ i, σ i ≠ j) → v j = fin 0
  /-- a row has a finite dual exactly if its column has a finite price, else `+inf` -/
  uform : ∀ i, (u i = pinf ∧ v (σ i) = ninf) ∨
    ∃ a q c, u i = fin a ∧ v (σ i) = fin q ∧ C i (σ i) = fin c ∧ a + q = c
  /-- the duals are below the costs -/
  below : ∀ i j a q c, u i = fin a → v j = fin q → C i j = fin c → a + q ≤ c
  /-- rows with an infinite dual have the same column in every feasible assignment -/
  forced : ∀ i, u i = pinf → ∀ τ, Feasible C τ → τ i = σ i
  /-- the other rows do not use a column priced `-inf` in any feasible assignment -/
  unforced : ∀ i a, u i = fin a → ∀ τ, Feasible C τ → v (τ i) ≠ ninf
  /-- the finite entries of a row with an infinite dual are in columns priced `-inf` -/
  forcedCols : ∀ i j, u i = pinf → IsFin (C i j) → v j = ninf

theorem foldl_cost {C : Cost n m} {rowsol : Fin n → Option (Fin m)} {σ : Fin n → Fin m}
    (hr : ∀ i, rowsol i = some (σ i)) (hf : ∀ i, IsFin (C i (σ i))) (l : List (Fin n)) :
    ∀ acc : ℚ, l.foldl (fun acc i => match rowsol i with
      | none => acc
      | some j => XR.add acc (C i j)) (fin acc) =
      fin (acc + (l.map fun i => (C i (σ i)).val).sum) := by
  induction l with
  | nil => intro acc; simp
  | cons i l ih =>
    intro acc
    rw [List.foldl_cons, hr i]
    simp only
    rw [(hf i).eq, add_fin_fin, ih]
    simp only [List.map_cons, List.sum_cons]
    rw [add_assoc]

/-- Everything about `rlap` on a feasible matrix, starting from zero prices. -/
theorem rlapWith_spec {fu : FindUmins m} (hfu : FuOk fu) {C : Cost n m} (hC : CostOk C) {τ : Fin n → Fin m} (hτ : Feasible C τ)
    (u0 : Fin n → XR) :
    ∃ F sol σ, (∀ fuel, F ≤ fuel → rlapWith fu C fuel u0 (fun _ => fin 0) = some sol) ∧
      (∀ i, sol.rowsol i = some (σ i)) ∧ Feasible C σ ∧
      (∀ τ, Feasible C τ → total C σ ≤ total C τ) ∧ sol.cost = fin (total C σ) ∧
      Duals C σ sol.u sol.v ∧
      (∀ τ, Feasible C τ → ∀ i, total C σ + slack C sol.v σ τ i ≤ total C τ) := by
  obtain ⟨D, K, hs⟩ := exists_scale C
  have hI0 : Inv C (⟨fun _ => none, fun _ => none, fun _ => fin 0⟩ : St n m) := by
    refine ⟨?_, ?_, fun _ => Or.inr ⟨0, rfl⟩, ?_, fun _ _ => rfl, ?_, fun _ => 0, ?_⟩
    · intro j i hj; cases hj
    · intro j i hj; cases hj
    · intro j q hq; injection hq with hq; rw [← hq]
    · intro j i hj; cases hj
    · intro j i _ hj; cases hj
  have hG0 : Grid D (fun _ : Fin m => fin 0) := by
    intro j q hq
    injection hq with hq
    exact ⟨0, by rw [← hq]; simp⟩
  have hF0 : FreeOk (⟨fun _ => none, fun _ => none, fun _ => fin 0⟩ : St n m) n 0 0
      (List.finRange n) := by
    have hp : pending n 0 0 (List.finRange n) = List.finRange n := by
      simp [pending, List.take_of_length_le]
    refine ⟨List.length_finRange, le_refl _, Nat.zero_le _, le_refl _, ?_, ?_⟩
    · rw [hp]; exact List.nodup_finRange n
    · intro i
      rw [hp]
      simp [Asg]
  obtain ⟨s1, free1, nf1, run1, hI1, hG1, hF1⟩ :=
    arrLoop_spec hfu hC hs (le_refl _) hτ n _ 0 0 (List.finRange n) _ rfl hI0 hG0 hF0
  obtain ⟨s2, free2, nf2, run2, hI2, hG2, hF2⟩ :=
    arrLoop_spec hfu hC hs (le_refl _) hτ nf1 _ 0 0 free1 s1 rfl hI1 hG1 hF1
  simp only at run1
  have hpend : pending nf2 0 0 free2 = free2.take nf2 := by simp [pending]
  have hnd2 := hF2.nd
  have hmem2 := hF2.mem
  rw [hpend] at hnd2 hmem2
  obtain ⟨s3, run3, hI3, hasg⟩ := augmentAll_spec hC hτ (free2.take nf2) s2 hI2 hnd2
    (fun f hf => (hmem2 f).1 hf)
  have hall : ∀ i, Asg s3 i := by
    intro i
    rw [hasg, hmem2]
    exact (em (Asg s2 i)).symm
  choose σ hσ using hall
  have hrow : ∀ i, s3.rowsol i = some (σ i) := fun i => hI3.rows _ _ (hσ i)
  have hfeas : Feasible C σ := by
    refine ⟨?_, fun i => hI3.finC _ _ (hσ i)⟩
    intro a b hab
    have h1 := hσ a
    rw [hab, hσ b] at h1
    exact (Option.some.inj h1).symm
  have hu : ∀ i, (finish C u0 s3).u i = (C i (σ i)).sub (s3.v (σ i)) := by
    intro i
    simp only [finish, hrow i]
  refine ⟨max (max (Phi D ((m + 2) * (2 * K)) (fun _ : Fin m => fin 0) + (n - 0) + 1)
    (Phi D ((m + 2) * (2 * K)) s1.v + (nf1 - 0) + 1)) (m + 1), finish C u0 s3, σ, ?_, hrow, hfeas,
    fun τ hτ => optimal hI3 hσ hτ, ?_, ?_, ?_⟩
  · intro fuel hfu
    have h1 := run1 fuel (by omega)
    have h2 := run2 fuel (by omega)
    have h3 := run3 fuel (by omega)
    simp only [rlapWith, h1, h2, h3, Option.map_some]
  · have := foldl_cost hrow hfeas.2 (List.finRange n) 0
    rw [zero_add] at this
    refine Eq.trans ?_ (this.trans ?_)
    · rfl
    · unfold total
      rw [Fin.sum_univ_def]
  · refine ⟨?_, ?_, ?_, ?_, ?_, ?_, ?_⟩
    · intro j
      rcases hI3.isV j with e | ⟨q, e⟩
      · exact Or.inl e
      · exact Or.inr ⟨q, e, hI3.nonpos j q e⟩
    · intro j hj
      refine hI3.free j ?_
      cases hc : s3.colsol j with
      | none => rfl
      | some i => exact absurd (hI3.inj (hσ i) hc) (hj i)
    · intro i
      obtain ⟨c, hc⟩ := hfeas.2 i
      rw [hu i, hc]
      rcases hI3.isV (σ i) with e | ⟨q, e⟩
      · left
        rw [e]
        exact ⟨rfl, e⟩
      · right
        rw [e]
        exact ⟨c - q, q, c, rfl, e, rfl, by ring⟩
    · intro i j a q c ha hq hc
      rw [hu i] at ha
      obtain ⟨c', q', hc', hq', rfl⟩ := hI3.red_fin hC ha
      have := hI3.tight (σ i) i (hσ i) q' hq' j q ⟨c, hc⟩ hq
      rw [hc', hc, val_fin, val_fin] at this
      linarith
    · intro i hi τ' hτ'
      refine forced_row hI3 hσ hτ' i ?_
      rw [hu i] at hi
      rcases hI3.isV (σ i) with e | ⟨q, e⟩
      · exact e
      · obtain ⟨c, hc⟩ := hfeas.2 i
        rw [e, hc] at hi; cases hi
    · intro i a ha τ' hτ'
      refine unforced_row hI3 hσ hτ' i ?_
      intro e
      rw [hu i, e] at ha
      obtain ⟨c, hc⟩ := hfeas.2 i
      rw [hc] at ha; cases ha
    · intro i j hi hf
      obtain ⟨rank, hr⟩ := hI3.forced
      refine (hr (σ i) i ?_ (hσ i) j hf).1
      rw [hu i] at hi
      rcases hI3.isV (σ i) with e | ⟨q, e⟩
      · exact e
      · obtain ⟨c, hc⟩ := hfeas.2 i
        rw [e, hc] at hi; cases hi
  · intro τ' hτ' i
    have h1 := total_slack hI3 hσ hτ'
    have h2 : slack C s3.v σ τ' i ≤ ∑ i, slack C s3.v σ τ' i :=
      Finset.single_le_sum (fun k _ => slack_nonneg hI3 hσ hτ' k) (Finset.mem_univ i)
    show total C σ + slack C s3.v σ τ' i ≤ _
    linarith

/-- The same with `find_umins_plain`. -/
theorem rlap_spec {C : Cost n m} (hC : CostOk C) {τ : Fin n → Fin m} (hτ : Feasible C τ)
    (u0 : Fin n → XR) :
    ∃ F sol σ, (∀ fuel, F ≤ fuel → rlap C fuel u0 (fun _ => fin 0) = some sol) ∧
      (∀ i, sol.rowsol i = some (σ i)) ∧ Feasible C σ ∧
      (∀ τ, Feasible C τ → total C σ ≤ total C τ) ∧ sol.cost = fin (total C σ) ∧
      Duals C σ sol.u sol.v ∧
      (∀ τ, Feasible C τ → ∀ i, total C σ + slack C sol.v σ τ i ≤ total C τ) :=
  rlapWith_spec findUmins_ok hC hτ u0

end Verif.Lap

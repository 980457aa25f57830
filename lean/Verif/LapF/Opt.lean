import Verif.LapF.Augment
import Verif.Lap.Opt
import Mathlib.Algebra.Order.Archimedean.Basic

/-! # The final state in rounded arithmetic -/

namespace Verif.LapF

open Verif.Lap Verif.Lap.XR

variable {n m : Nat}

/-- In a complete state, the column of a row whose price is `-inf` is used in every feasible
assignment. -/
theorem forced_row {C : Cost n m} {s : St n m} (h : VInv C s) {σ : Fin n → Fin m}
    (hσ : ∀ i, s.colsol (σ i) = some i) {τ : Fin n → Fin m} (hτ : Feasible C τ) :
    ∀ i, s.v (σ i) = ninf → τ i = σ i := by
  obtain ⟨rank, hr⟩ := h.forced
  have key : ∀ (k : Nat) (i : Fin n), rank (σ i) = k → s.v (σ i) = ninf → τ i = σ i := by
    intro k
    induction k using Nat.strong_induction_on with
    | _ k ih =>
      intro i hk hv
      obtain ⟨h1, h2⟩ := hr (σ i) i hv (hσ i) (τ i) (hτ.2 i)
      rcases h2 with h2 | h2
      · exact h2
      · exfalso
        obtain ⟨i', hi'⟩ := h.ninf_asg h1
        have hσi' : σ i' = τ i := h.inj (hσ i') hi'
        have := ih (rank (σ i')) (by rw [hσi']; omega) i' rfl (by rw [hσi']; exact h1)
        rw [hσi'] at this
        have hii := hτ.1 this
        rw [hii] at hσi'
        rw [← hσi'] at h2
        omega
  intro i hv
  exact key _ i rfl hv

/-- A row that is not forced does not use a column priced `-inf` in any feasible assignment. -/
theorem unforced_row {C : Cost n m} {s : St n m} (h : VInv C s) {σ : Fin n → Fin m}
    (hσ : ∀ i, s.colsol (σ i) = some i) {τ : Fin n → Fin m} (hτ : Feasible C τ) (i : Fin n)
    (hi : s.v (σ i) ≠ ninf) : s.v (τ i) ≠ ninf := by
  intro hn
  obtain ⟨i', hi'⟩ := h.ninf_asg hn
  have hσi' : σ i' = τ i := h.inj (hσ i') hi'
  have h1 := forced_row h hσ hτ i' (by rw [hσi']; exact hn)
  rw [hσi'] at h1
  have hii := hτ.1 h1
  rw [hii] at hσi'
  rw [hσi'] at hi
  exact hi hn

/-- Comparison of two assignments by prices, whatever the prices are: the difference of the totals
is the sum of the slacks, corrected by the prices of the columns used. -/
theorem total_slack_eq (C : Cost n m) (v : Fin m → XR) (σ τ : Fin n → Fin m) :
    total C τ - total C σ =
      ∑ i, slack C v σ τ i + (∑ i, (v (τ i)).val - ∑ i, (v (σ i)).val) := by
  unfold slack total
  rw [← Finset.sum_sub_distrib, ← Finset.sum_sub_distrib, ← Finset.sum_add_distrib]
  exact Finset.sum_congr rfl fun i _ => by ring

/-- The prices of the columns of `σ`, against those of `τ`, if the other columns have price zero:
the difference is at most the positive prices in the columns of `σ`. -/
theorem prices_le {v : Fin m → XR} {σ τ : Fin n → Fin m} (hσ : Function.Injective σ)
    (hτ : Function.Injective τ) (hfree : ∀ j, (∀ i, σ i ≠ j) → v j = fin 0) :
    ∑ i, (v (σ i)).val - ∑ i, (v (τ i)).val ≤ ∑ i, max (v (σ i)).val 0 := by
  classical
  have e1 : ∑ i, (v (σ i)).val = ∑ j, (v j).val := by
    rw [← Finset.sum_image (f := fun j => (v j).val) (g := σ) (s := Finset.univ)
      (fun a _ b _ hab => hσ hab)]
    apply Finset.sum_subset (Finset.subset_univ _)
    intro j _ hj
    rw [hfree j (fun i hi => hj (Finset.mem_image.2 ⟨i, Finset.mem_univ _, hi⟩))]
    rfl
  have e1' : ∑ i, max (v (σ i)).val 0 = ∑ j, max (v j).val 0 := by
    rw [← Finset.sum_image (f := fun j => max (v j).val 0) (g := σ) (s := Finset.univ)
      (fun a _ b _ hab => hσ hab)]
    apply Finset.sum_subset (Finset.subset_univ _)
    intro j _ hj
    rw [hfree j (fun i hi => hj (Finset.mem_image.2 ⟨i, Finset.mem_univ _, hi⟩))]
    simp
  have e2 : ∑ j, (v j).val ≤ ∑ i, (v (τ i)).val + ∑ j, max (v j).val 0 := by
    rw [← Finset.sum_image (f := fun j => (v j).val) (g := τ) (s := Finset.univ)
      (fun a _ b _ hab => hτ hab)]
    rw [← Finset.sum_sdiff (Finset.subset_univ (Finset.univ.image τ))]
    have h1 : ∑ j ∈ Finset.univ \ Finset.univ.image τ, (v j).val ≤
        ∑ j ∈ Finset.univ \ Finset.univ.image τ, max (v j).val 0 :=
      Finset.sum_le_sum fun j _ => le_max_left _ _
    have h2 : ∑ j ∈ Finset.univ \ Finset.univ.image τ, max (v j).val 0 ≤
        ∑ j, max (v j).val 0 :=
      Finset.sum_le_sum_of_subset_of_nonneg (Finset.subset_univ _) fun j _ _ => le_max_right _ _
    linarith
  rw [e1, e1']
  linarith

theorem slack_ge {C : Cost n m} {D : Nat} {S ε : ℚ} (hε : 0 ≤ ε) {s : St n m} (h : MInv C D S ε s)
    {σ : Fin n → Fin m} (hσ : ∀ i, s.colsol (σ i) = some i) {τ : Fin n → Fin m}
    (hτ : Feasible C τ) (i : Fin n) : -ε ≤ slack C s.v σ τ i := by
  by_cases hv : s.v (σ i) = ninf
  · unfold slack
    rw [forced_row h.toVInv hσ hτ i hv]; linarith
  · have h1 := (h.isV (σ i)).resolve_left hv
    have h2 := (h.isV (τ i)).resolve_left (unforced_row h.toVInv hσ hτ i hv)
    have := h.tight (σ i) i (hσ i) h1 (τ i) ⟨hτ.2 i, h2⟩
    unfold redv at this
    unfold slack
    linarith

theorem near_optimal {C : Cost n m} {D : Nat} {S ε : ℚ} (hε : 0 ≤ ε) {s : St n m}
    (h : MInv C D S ε s) {σ : Fin n → Fin m} (hσ : ∀ i, s.colsol (σ i) = some i)
    (hinj : Function.Injective σ) {τ : Fin n → Fin m} (hτ : Feasible C τ) :
    total C σ ≤ total C τ + 2 * n * ε := by
  have h1 := total_slack_eq C s.v σ τ
  have h2 := prices_le (v := s.v) hinj hτ.1 (by
    intro j hj
    refine h.free j ?_
    cases hc : s.colsol j with
    | none => rfl
    | some i => exact absurd (h.inj (hσ i) hc) (hj i))
  have h3 : -(n * ε) ≤ ∑ i, slack C s.v σ τ i := by
    have := Finset.card_nsmul_le_sum Finset.univ (fun i => slack C s.v σ τ i) (-ε)
      (fun i _ => slack_ge hε h hσ hτ i)
    rw [Finset.card_univ, Fintype.card_fin, nsmul_eq_mul] at this
    linarith
  have h4 : ∑ i, max (s.v (σ i)).val 0 ≤ n * ε := by
    have := Finset.sum_le_card_nsmul Finset.univ (fun i => max (s.v (σ i)).val 0) ε (by
      intro i _
      refine max_le ?_ hε
      rcases h.isV (σ i) with e | ⟨q, e⟩
      · rw [e]; exact hε
      · rw [e]; exact h.ub _ q e)
    rw [Finset.card_univ, Fintype.card_fin, nsmul_eq_mul] at this
    exact this
  linarith

/-- The rounded sum of the costs of an assignment. -/
theorem foldl_cost {A : Arith} {D : Nat} {R δ K : ℚ} (hA : Rounds A D R δ) {C : Cost n m}
    (hs : Scaled C D K) {rowsol : Fin n → Option (Fin m)} {σ : Fin n → Fin m}
    (hr : ∀ i, rowsol i = some (σ i)) (hf : ∀ i, IsFin (C i (σ i))) (l : List (Fin n)) :
    ∀ (acc M : ℚ), OnGrid D acc → |acc| ≤ M → M + l.length * (K + δ) ≤ R →
      ∃ c, l.foldl (fun acc i => match rowsol i with
        | none => acc
        | some j => A.add acc (C i j)) (fin acc) = fin c ∧
        |c - (acc + (l.map fun i => (C i (σ i)).val).sum)| ≤ l.length * δ := by
  have hδ := hA.nn
  have hK := hs.nn
  induction l with
  | nil => intro acc M _ _ _; exact ⟨acc, rfl, by simp⟩
  | cons i l ih =>
    intro acc M hg hM hR
    rw [List.length_cons] at hR
    push_cast at hR
    obtain ⟨q, hq⟩ := hf i
    have hqK := hs.le i (σ i) q hq
    have hM0 : 0 ≤ M := (abs_nonneg _).trans hM
    have hl0 : (0:ℚ) ≤ l.length * (K + δ) := by positivity
    have hexp : ((l.length : ℚ) + 1) * (K + δ) = l.length * (K + δ) + (K + δ) := by ring
    obtain ⟨r, h1, h2, h3⟩ := hA.add acc q hg (hs.int i (σ i) q hq)
      (by linarith) (by linarith)
    rw [List.foldl_cons, hr i]
    simp only
    rw [hq, Arith.add_fin_fin, h1]
    rw [abs_le] at h2 hM hqK
    obtain ⟨c, h4, h5⟩ := ih r (M + (K + δ)) h3 (by rw [abs_le]; constructor <;> linarith)
      (by linarith)
    refine ⟨c, h4, ?_⟩
    rw [List.map_cons, List.sum_cons, hq, val_fin, List.length_cons]
    push_cast
    rw [abs_le] at h5 ⊢
    constructor <;> linarith

/-- Slack of the duals after at most `n` augmentations. -/
def slackBound (n : Nat) (δ : ℚ) : ℚ := 8 * (n + 4) ^ n * δ

/-- What is returned by the solver in rounded arithmetic on a feasible matrix. -/
structure Result (C : Cost n m) (D : Nat) (K δ : ℚ) (sol : Sol n m) (σ : Fin n → Fin m) : Prop where
  rows : ∀ i, sol.rowsol i = some (σ i)
  feas : Feasible C σ
  near : ∀ τ, Feasible C τ → total C σ ≤ total C τ + 2 * n * slackBound n δ
  cost : ∃ c, sol.cost = fin c ∧ |c - total C σ| ≤ n * δ
  vform : ∀ j, sol.v j = ninf ∨ ∃ q, sol.v j = fin q ∧ q ≤ slackBound n δ ∧
    |q| ≤ (4 * m + 4) * (K + 2 * δ)
  vfree : ∀ j, (∀ i, σ i ≠ j) → sol.v j = fin 0
  uform : ∀ i, (sol.u i = pinf ∧ sol.v (σ i) = ninf) ∨
    ∃ a q c, sol.u i = fin a ∧ sol.v (σ i) = fin q ∧ C i (σ i) = fin c ∧ |a - (c - q)| ≤ δ
  below : ∀ i j a q c, sol.u i = fin a → sol.v j = fin q → C i j = fin c →
    a + q ≤ c + slackBound n δ
  forced : ∀ i, sol.u i = pinf → ∀ τ, Feasible C τ → τ i = σ i
  unforced : ∀ i, sol.u i ≠ pinf → ∀ τ, Feasible C τ → sol.v (τ i) ≠ ninf
  forcedCols : ∀ i j, sol.u i = pinf → IsFin (C i j) → sol.v j = ninf
  vgrid : ∀ j q, sol.v j = fin q → OnGrid D q
  ugrid : ∀ i a, sol.u i = fin a → OnGrid D a ∧ |a| ≤ (4 * m + 5) * (K + 2 * δ)

/-- Everything about `rlap` on a feasible matrix, starting from zero prices. -/
theorem rlap_spec {A : Arith} {C : Cost n m} {D : Nat} {R K δ S : ℚ} (hE : Env A C D R K δ S)
    {τ : Fin n → Fin m} (hτ : Feasible C τ) (u0 : Fin n → XR) :
    ∃ F sol σ, (∀ fuel, F ≤ fuel → rlap A C fuel u0 (fun _ => fin 0) = some sol) ∧
      Result C D K δ sol σ := by
  have hδ := hE.rounds.nn
  have hK := hE.scaled.nn
  have hS := hE.S_nonneg
  have hSe := hE.hS
  obtain ⟨g1, g2⟩ := hE.ranges
  have hs := hE.scaled
  have hC := hE.ok
  have hR1 : (2 * (m : ℚ) + 3) * (2 * K + 4 * δ) ≤ R := by
    have : (2 * (m : ℚ) + 3) * (2 * K + 4 * δ) = 4 * (m * S) + 6 * S := by rw [hSe]; ring
    linarith
  obtain ⟨B, hB⟩ : ∃ B : Nat, ((m : ℚ) + 2) * (2 * K + 4 * δ) ≤ B := exists_nat_ge _
  have hI0 : EInv C (4 * δ) (⟨fun _ => none, fun _ => none, fun _ => fin 0⟩ : St n m) := by
    refine ⟨⟨?_, ?_, fun _ => Or.inr ⟨0, rfl⟩, fun _ _ => rfl, fun _ => 0, ?_⟩, ?_, ?_⟩
    · intro j i hj; cases hj
    · intro j i hj; cases hj
    · intro j i _ hj; cases hj
    · intro j q hq; injection hq with hq; rw [← hq]
    · intro j i hj; cases hj
  have hG0 : Grid D (fun _ : Fin m => fin 0) := by
    intro j q hq
    injection hq with hq
    exact ⟨0, by rw [← hq]; simp⟩
  have hA0 : AInv C D K δ (⟨fun _ => none, fun _ => none, fun _ => fin 0⟩ : St n m) := by
    refine ⟨hI0, hG0, ?_⟩
    intro j q hq
    injection hq with hq
    rw [← hq]
    have : (0:ℚ) ≤ (m + 2) * (2 * K + 4 * δ) := by positivity
    have : (0:ℚ) ≤ cnt ((m + 2) * (2 * K + 4 * δ)) (fun _ : Fin m => fin 0) * (2 * K + 4 * δ) := by
      positivity
    linarith
  have hF0 : FreeOk (⟨fun _ => none, fun _ => none, fun _ => fin 0⟩ : St n m) n 0 0
      (List.finRange n) := by
    have hp : pending n 0 0 (List.finRange n) = List.finRange n := by
      simp [pending, List.take_of_length_le]
    refine ⟨List.length_finRange, le_refl _, Nat.zero_le _, le_refl _, ?_, ?_⟩
    · rw [hp]; exact List.nodup_finRange n
    · intro i
      rw [hp]
      simp [Asg]
  obtain ⟨s1, free1, nf1, run1, hI1, hF1⟩ :=
    arrLoop_spec hE.rounds hC hs hR1 hB hτ n _ 0 0 (List.finRange n) _ rfl hA0 hF0
  obtain ⟨s2, free2, nf2, run2, hI2, hF2⟩ :=
    arrLoop_spec hE.rounds hC hs hR1 hB hτ nf1 _ 0 0 free1 s1 rfl hI1 hF1
  simp only at run1
  have hpend : pending nf2 0 0 free2 = free2.take nf2 := by simp [pending]
  have hnd2 := hF2.nd
  have hmem2 := hF2.mem
  rw [hpend] at hnd2 hmem2
  have hM2 : MInv C D S (4 * δ) s2 := by
    refine ⟨hI2.inv.toVInv, ?_, ?_, ?_⟩
    · intro j q hq
      refine ⟨hI2.grid j q hq, ?_⟩
      have h1 := hI2.inv.nonpos j q hq
      have h2 := hI2.low j q hq
      have h3 : (cnt ((m + 2) * (2 * K + 4 * δ)) s2.v : ℚ) * (2 * K + 4 * δ) ≤
          m * (2 * K + 4 * δ) :=
        mul_le_mul_of_nonneg_right (by exact_mod_cast cnt_le _ s2.v) (by linarith)
      have h4 : (4 * (m : ℚ) + 4) * S = (m + 2) * (2 * K + 4 * δ) + m * (2 * K + 4 * δ) := by
        rw [hSe]; ring
      rw [h4, abs_le]
      constructor
      · linarith
      · have : (0:ℚ) ≤ (m + 2) * (2 * K + 4 * δ) := by positivity
        have : (0:ℚ) ≤ m * (2 * K + 4 * δ) := by positivity
        linarith
    · intro j q hq
      have := hI2.inv.nonpos j q hq
      linarith
    · rintro j i hc ⟨a, ha⟩ j' ⟨hCf, b, hb⟩
      have := hI2.inv.tight j i hc a ha j' b hCf hb
      rw [redv, redv, ha, hb, val_fin, val_fin]
      exact this
  obtain ⟨s3, ε, run3, hε, hεle, hI3, hasg⟩ := augmentAll_spec hE hτ (free2.take nf2) s2 (4 * δ)
    (by linarith) hM2 hnd2 (fun f hf => (hmem2 f).1 hf)
  have hεb4 : ε + 4 * δ ≤ slackBound n δ := by
    have h1 : (free2.take nf2).length ≤ n := by
      rw [List.length_take, hF2.len]; omega
    have h2 : ((n : ℚ) + 4) ^ (free2.take nf2).length ≤ (n + 4) ^ n := by
      refine pow_le_pow_right₀ ?_ h1
      have : (0:ℚ) ≤ n := Nat.cast_nonneg n
      linarith
    have h3 := mul_le_mul_of_nonneg_right h2 (by linarith : 0 ≤ 8 * δ)
    have h4 : slackBound n δ = ((n : ℚ) + 4) ^ n * (8 * δ) := by unfold slackBound; ring
    have h5 : (4 * δ + 4 * δ) = 8 * δ := by ring
    rw [h5] at hεle
    linarith
  have hεb : ε ≤ slackBound n δ := by linarith
  have hall : ∀ i, Asg s3 i := by
    intro i
    rw [hasg, hmem2]
    exact (em (Asg s2 i)).symm
  choose σ hσ using hall
  have hrow : ∀ i, s3.rowsol i = some (σ i) := fun i => hI3.rows _ _ (hσ i)
  have hfeas : Feasible C σ := by
    refine ⟨?_, fun i => hI3.finC _ _ (hσ i)⟩
    intro a b hab
    have h1 := hσ a
    rw [hab, hσ b] at h1
    exact (Option.some.inj h1).symm
  have hu : ∀ i, (finish A C u0 s3).u i = A.sub (C i (σ i)) (s3.v (σ i)) := by
    intro i
    simp only [finish, hrow i]
  have hucases := fun i => hI3.red_cases hE i (σ i)
  have hpinf : ∀ i, (finish A C u0 s3).u i = pinf ↔ s3.v (σ i) = ninf := by
    intro i
    rw [hu i]
    rcases hucases i with ⟨e, hn⟩ | ⟨hat, r, e, _⟩
    · rw [e]
      refine ⟨fun _ => ?_, fun _ => rfl⟩
      exact (hI3.isV (σ i)).resolve_right fun hf => hn ⟨hfeas.2 i, hf⟩
    · rw [e]
      obtain ⟨q, hq⟩ := hat.2
      rw [hq]; simp
  have hnm : n ≤ m := by
    have := Fintype.card_le_of_injective τ hτ.1
    simpa using this
  refine ⟨max (max (Phi D B (fun _ : Fin m => fin 0) + (n - 0) + 1)
    (Phi D B s1.v + (nf1 - 0) + 1)) (m + 1), finish A C u0 s3, σ, ?_, ?_⟩
  · intro fuel hfu
    have h1 := run1 fuel (by omega)
    have h2 := run2 fuel (by omega)
    have h3 := run3 fuel (by omega)
    simp only [rlap, h1, h2, h3, Option.map_some]
  · refine ⟨hrow, hfeas, ?_, ?_, ?_, ?_, ?_, ?_, ?_, ?_, ?_, ?_, ?_⟩
    · intro τ' hτ'
      have h1 := near_optimal hε hI3 hσ hfeas.1 hτ'
      have h2 : 2 * (n : ℚ) * ε ≤ 2 * n * slackBound n δ :=
        mul_le_mul_of_nonneg_left hεb (by positivity)
      linarith
    · have hnR : (0:ℚ) + (List.finRange n).length * (K + δ) ≤ R := by
        rw [List.length_finRange]
        have h1 : (n : ℚ) * (K + δ) ≤ m * S :=
          mul_le_mul (by exact_mod_cast hnm) (by linarith) (by linarith) (by positivity)
        linarith
      obtain ⟨c, h1, h2⟩ := foldl_cost hE.rounds hs hrow hfeas.2 (List.finRange n) 0 0 ⟨0, by simp⟩
        (by simp) hnR
      refine ⟨c, h1, ?_⟩
      rw [zero_add, List.length_finRange] at h2
      unfold total
      rw [Fin.sum_univ_def]
      exact h2
    · intro j
      rcases hI3.isV j with e | ⟨q, e⟩
      · exact Or.inl e
      · refine Or.inr ⟨q, e, (hI3.ub j q e).trans hεb, ?_⟩
        rw [← hSe]; exact (hI3.prices j q e).2
    · intro j hj
      refine hI3.free j ?_
      cases hc : s3.colsol j with
      | none => rfl
      | some i => exact absurd (hI3.inj (hσ i) hc) (hj i)
    · intro i
      rcases hucases i with ⟨e, hn⟩ | ⟨hat, r, e, h1, _⟩
      · left
        exact ⟨by rw [hu i]; exact e,
          (hI3.isV (σ i)).resolve_right fun hf => hn ⟨hfeas.2 i, hf⟩⟩
      · right
        obtain ⟨⟨c, hc⟩, ⟨q, hq⟩⟩ := hat
        refine ⟨r, q, c, by rw [hu i]; exact e, hq, hc, ?_⟩
        rw [redv, hc, hq, val_fin, val_fin] at h1
        exact h1
    · intro i j a q c ha hq hc
      rw [hu i] at ha
      rcases hucases i with ⟨e, hn⟩ | ⟨hat, r, e, h1, _⟩
      · rw [e] at ha; cases ha
      · rw [e] at ha
        injection ha with ha
        subst ha
        have h2 := hI3.tight (σ i) i (hσ i) hat.2 j ⟨⟨c, hc⟩, ⟨q, hq⟩⟩
        have h3 : redv C s3.v i j = c - q := by
          have hq' : s3.v j = fin q := hq
          rw [redv, hc, hq', val_fin, val_fin]
        rw [abs_le] at h1
        linarith
    · intro i hi τ' hτ'
      exact forced_row hI3.toVInv hσ hτ' i ((hpinf i).1 hi)
    · intro i hi τ' hτ'
      exact unforced_row hI3.toVInv hσ hτ' i (fun e => hi ((hpinf i).2 e))
    · intro i j hi hf
      obtain ⟨rank, hr⟩ := hI3.forced
      exact (hr (σ i) i ((hpinf i).1 hi) (hσ i) j hf).1
    · intro j q hq
      exact (hI3.prices j q hq).1
    · intro i a ha
      rw [hu i] at ha
      rcases hucases i with ⟨e, hn⟩ | ⟨hat, r, e, _, hg⟩
      · rw [e] at ha; cases ha
      · rw [e] at ha
        injection ha with ha
        rw [← ha, ← hSe]
        exact ⟨hg.1, by linarith [hg.2]⟩

end Verif.LapF

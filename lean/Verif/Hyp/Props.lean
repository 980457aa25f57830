import Verif.Hyp.Loop
import Mathlib.Algebra.BigOperators.Field

/-! # Properties C21–C23: posterior probabilities and the hypothesis budget -/

namespace Verif.Hyp

open Verif.Lap Verif.Murty XR

variable {M N : Nat}

/-- The weight of a hypothesis, `exp(-cost)`. -/
noncomputable def ew (q : ℚ) : ℝ := Real.exp (-(q : ℝ))

theorem ew_pos (q : ℚ) : 0 < ew q := Real.exp_pos _

theorem ew_le {a b : ℚ} (h : a ≤ b) : ew b ≤ ew a := by
  unfold ew
  apply Real.exp_le_exp.2
  have : (a : ℝ) ≤ b := by exact_mod_cast h
  linarith

/-- Total weight of the hypotheses of `L` that satisfy `P`. -/
noncomputable def mass (C : Cost M (N + 2 * M)) (L : List (Fin M → Fin (N + 2 * M)))
    (P : (Fin M → Fin (N + 2 * M)) → Bool) : ℝ :=
  ((L.filter P).map fun σ => ew (total C σ)).sum

theorem mass_nonneg (C : Cost M (N + 2 * M)) (L) (P) : 0 ≤ mass C L P := by
  apply List.sum_nonneg
  intro x hx
  obtain ⟨σ, _, rfl⟩ := List.mem_map.1 hx
  exact (ew_pos _).le

theorem mass_le (C : Cost M (N + 2 * M)) (L) (P) : mass C L P ≤ mass C L fun _ => true := by
  induction L with
  | nil => simp [mass]
  | cons σ L ih =>
    unfold mass at *
    have := (ew_pos (total C σ)).le
    by_cases h : P σ = true
    · simp only [List.filter_cons_of_pos h, List.filter_true, List.map_cons, List.sum_cons] at *
      linarith
    · simp only [List.filter_cons_of_neg h, List.filter_true, List.map_cons, List.sum_cons] at *
      linarith

theorem mass_pos (C : Cost M (N + 2 * M)) {L} (h : L ≠ []) : 0 < mass C L fun _ => true := by
  cases L with
  | nil => exact absurd rfl h
  | cons σ L =>
    have h1 := ew_pos (total C σ)
    have h2 := mass_nonneg C L fun _ => true
    unfold mass at *
    simp only [List.filter_true, List.map_cons, List.sum_cons] at *
    linarith

/-- Disjoint conditions: the masses add up. -/
theorem sum_mass {ι : Type} [Fintype ι] [DecidableEq ι] (C : Cost M (N + 2 * M)) (L)
    (P : ι → (Fin M → Fin (N + 2 * M)) → Bool) (Q : (Fin M → Fin (N + 2 * M)) → Bool)
    (hPQ : ∀ σ ∈ L, Q σ = true ↔ ∃ x, P x σ = true)
    (huniq : ∀ σ ∈ L, ∀ x y, P x σ = true → P y σ = true → x = y) :
    ∑ x, mass C L (P x) = mass C L Q := by
  induction L with
  | nil => simp [mass]
  | cons σ L ih =>
    have ih' := ih (fun σ h => hPQ σ (List.mem_cons_of_mem _ h))
      (fun σ h => huniq σ (List.mem_cons_of_mem _ h))
    have hstep : ∀ P' : (Fin M → Fin (N + 2 * M)) → Bool, mass C (σ :: L) P' =
        (if P' σ = true then ew (total C σ) else 0) + mass C L P' := by
      intro P'
      unfold mass
      by_cases h : P' σ = true
      · simp [h]
      · simp [h]
    simp only [hstep, Finset.sum_add_distrib, ih']
    congr 1
    by_cases hq : Q σ = true
    · obtain ⟨x, hx⟩ := (hPQ σ List.mem_cons_self).1 hq
      rw [if_pos hq, Finset.sum_eq_single x]
      · rw [if_pos hx]
      · intro y _ hy
        rw [if_neg]
        intro h
        exact hy (huniq σ List.mem_cons_self y x h hx)
      · intro h; exact absurd (Finset.mem_univ x) h
    · rw [if_neg hq]
      apply Finset.sum_eq_zero
      intro x _
      rw [if_neg]
      intro h
      exact hq ((hPQ σ List.mem_cons_self).2 ⟨x, h⟩)

theorem target_eq (i : Fin M) (c : Fin (N + 2 * M)) (j : Fin (N + 1)) : target i c = some j ↔
    (j.val < N ∧ c.val = j.val) ∨ (j.val = N ∧ c.val = N + i.val) := by
  unfold target
  by_cases h1 : c.val < N
  · rw [dif_pos h1, Option.some.injEq, Fin.ext_iff]
    simp only
    omega
  · rw [dif_neg h1]
    by_cases h2 : c.val = N + i.val
    · rw [if_pos h2, Option.some.injEq, Fin.ext_iff]
      simp only
      omega
    · rw [if_neg h2]
      have := j.2
      constructor
      · intro h; cases h
      · intro h; omega

/-- `L` is the list of the best hypotheses of the matrix: distinct, over finite entries, cheapest
first, and no other hypothesis is cheaper than a listed one. -/
structure Best (C : Cost M (N + 2 * M)) (L : List (Fin M → Fin (N + 2 * M))) : Prop where
  nodup : L.Nodup
  inj : ∀ σ ∈ L, Function.Injective σ
  fin : ∀ σ ∈ L, ∀ i, ∃ q, C i (σ i) = fin q
  sorted : L.Pairwise fun σ τ => total C σ ≤ total C τ
  best : ∀ σ ∈ L, ∀ τ, Feasible C τ → τ ∉ L → total C σ ≤ total C τ

/-- The matrix of a cluster (`costMatrix`) always has a hypothesis: all targets false. -/
theorem costMatrix_feasible {det : Fin M → Fin N → XR} {miss fls : Fin M → XR}
    (hf : ∀ i, IsFin (fls i)) : ∃ τ, Feasible (costMatrix det miss fls) τ := by
  refine ⟨fun i => ⟨N + M + i.val, by omega⟩, ?_, ?_⟩
  · intro a b h
    simp only [Fin.mk.injEq] at h
    exact Fin.ext (by omega)
  · intro i
    unfold costMatrix
    simp only
    rw [dif_neg (by omega), if_neg (by have := i.2; omega), if_pos trivial]
    exact hf i

theorem costMatrix_ok {det : Fin M → Fin N → XR} {miss fls : Fin M → XR}
    (hd : ∀ i j, IsC (det i j)) (hm : ∀ i, IsC (miss i)) (hf : ∀ i, IsFin (fls i)) :
    CostOk (costMatrix det miss fls) := by
  intro i j
  unfold costMatrix
  split
  · exact hd _ _
  · split
    · exact hm _
    · split
      · exact Or.inr (hf i)
      · exact Or.inr ⟨30000, rfl⟩

/-- Everything the hypothesis loop guarantees on a cluster's matrix. -/
theorem cluster_spec {det : Fin M → Fin N → XR} {miss fls : Fin M → XR}
    (hd : ∀ i j, IsC (det i j)) (hm : ∀ i, IsC (miss i)) (hf : ∀ i, IsFin (fls i))
    (hM0 : 0 < M) (hM : M ≤ 30) {pick : List (Node M (N + 2 * M)) → Nat} (hp : PickOk pick)
    (wlim nmax : ℝ) :
    ∃ (F : Nat) (L : List (Fin M → Fin (N + 2 * M))) (a : Acc M N),
      (∀ fuel, F ≤ fuel → hypotheses pick fuel ew wlim nmax (costMatrix det miss fls) = some a) ∧
      L ≠ [] ∧ a.n = L.length ∧ Best (costMatrix det miss fls) L ∧
      a.wsum = mass (costMatrix det miss fls) L (fun _ => true) ∧
      (∀ i j, a.R i j = mass (costMatrix det miss fls) L fun σ => target i (σ i) = some j) ∧
      (∀ p, p + 1 < L.length → ¬ Stop wlim nmax
        ((L.take (p + 1)).map fun σ => ew (total (costMatrix det miss fls) σ))) ∧
      (Stop wlim nmax (L.map fun σ => ew (total (costMatrix det miss fls) σ)) ∨
        ∀ τ, Feasible (costMatrix det miss fls) τ → τ ∈ L) := by
  obtain ⟨F, L, a, g1, g2, g3, g4, g5, g6, g7, g8⟩ :=
    hypotheses_spec (costMatrix_ok hd hm hf) hM0 hM hp ew wlim nmax
  refine ⟨F, L, a, g1, ?_, g2.n, ⟨g3, fun σ h => (g4 σ h).1, fun σ h => (g4 σ h).2, g5, g6⟩, ?_, ?_,
    g7, ?_⟩
  · rcases g8 with ⟨h, _⟩ | h
    · exact h
    · obtain ⟨τ, hτ⟩ := costMatrix_feasible (det := det) (miss := miss) hf
      exact List.ne_nil_of_mem (h τ hτ)
  · rw [g2.wsum]; simp [mass]
  · intro i j; rw [g2.R]; rfl
  · rcases g8 with ⟨_, h⟩ | h
    · exact Or.inl h
    · exact Or.inr h

/-! ## A concrete cluster: two targets, one report -/

/-- Detection costs of the example. -/
def exDet : Fin 2 → Fin 1 → XR := fun i _ => if i = 0 then XR.fin 1 else XR.pinf
/-- Missed-detection costs of the example. -/
def exMiss : Fin 2 → XR := fun _ => XR.fin 2
/-- False-target costs of the example. -/
def exFls : Fin 2 → XR := fun i => if i = 0 then XR.fin (1/2) else XR.fin 3

theorem exDet_ok : ∀ i j, IsC (exDet i j) := by
  intro i j
  unfold exDet
  split
  · exact Or.inr ⟨_, rfl⟩
  · exact Or.inl rfl
theorem exMiss_ok : ∀ i, IsC (exMiss i) := fun _ => Or.inr ⟨_, rfl⟩
theorem exFls_ok : ∀ i, IsFin (exFls i) := by
  intro i; unfold exFls; split <;> exact ⟨_, rfl⟩

/-! ## C21 -/

/-- C21: with `e` the normalised weight of the drawn hypotheses in which target `i` exists (it is
detected, or missed in its own column), `e` is in [0,1] and the posterior existence probability is
`e` (or 0 below the threshold 1e-6). -/
theorem C21_posterior {det : Fin M → Fin N → XR} {miss fls : Fin M → XR}
    (hd : ∀ i j, IsC (det i j)) (hm : ∀ i, IsC (miss i)) (hf : ∀ i, IsFin (fls i))
    (hM0 : 0 < M) (hM : M ≤ 30) {pick : List (Node M (N + 2 * M)) → Nat} (hp : PickOk pick)
    (wlim nmax : ℝ) :
    ∃ (F : Nat) (L : List (Fin M → Fin (N + 2 * M))) (a : Acc M N),
      (∀ fuel, F ≤ fuel → hypotheses pick fuel ew wlim nmax (costMatrix det miss fls) = some a) ∧
      L ≠ [] ∧ a.n = L.length ∧ Best (costMatrix det miss fls) L ∧ ∀ i : Fin M, ∃ e : ℝ,
        e = mass (costMatrix det miss fls) L
            (fun σ => (σ i).val < N || (σ i).val == N + i.val) /
          mass (costMatrix det miss fls) L (fun _ => true) ∧
        0 ≤ e ∧ e ≤ 1 ∧ a.posterior i = (if 1 / 1000000 ≤ e then e else 0) ∧
        0 ≤ a.posterior i ∧ a.posterior i ≤ 1 := by
  obtain ⟨F, L, a, g1, g2, g3, g4, g5, g6, _⟩ := cluster_spec hd hm hf hM0 hM hp wlim nmax
  refine ⟨F, L, a, g1, g2, g3, g4, fun i => ⟨_, rfl, ?_⟩⟩
  set C := costMatrix det miss fls
  have hpos := mass_pos C g2
  have hsum : ∑ j, a.R i j =
      mass C L (fun σ => (σ i).val < N || (σ i).val == N + i.val) := by
    simp only [g6]
    apply sum_mass
    · intro σ _
      simp only [target_eq, decide_eq_true_eq, Bool.or_eq_true, beq_iff_eq]
      constructor
      · rintro (h | h)
        · exact ⟨⟨(σ i).val, by omega⟩, Or.inl ⟨h, rfl⟩⟩
        · exact ⟨⟨N, by omega⟩, Or.inr ⟨rfl, h⟩⟩
      · rintro ⟨x, hx⟩
        omega
    · intro σ _ x y hx hy
      simp only [decide_eq_true_eq] at hx hy
      rw [hx] at hy
      exact Option.some.inj hy
  set e := mass C L (fun σ => (σ i).val < N || (σ i).val == N + i.val) /
    mass C L (fun _ => true) with he
  have h0 : 0 ≤ e := div_nonneg (mass_nonneg C L _) hpos.le
  have h1 : e ≤ 1 := (div_le_one hpos).2 (mass_le C L _)
  have hpost : a.posterior i = if 1 / 1000000 ≤ e then e else 0 := by
    unfold Acc.posterior Acc.rowSum
    rw [if_neg (by rw [g5]; exact ne_of_gt hpos)]
    have : ∑ j, a.R i j / a.wsum = e := by
      rw [← Finset.sum_div, hsum, g5]
    rw [this]
    unfold targetCorrect
    simp only
    split <;> rfl
  refine ⟨h0, h1, hpost, ?_, ?_⟩
  · rw [hpost]; split
    · exact h0
    · exact le_refl _
  · rw [hpost]; split
    · exact h1
    · exact zero_le_one

example := C21_posterior exDet_ok exMiss_ok exFls_ok (by decide) (by decide)
  exists_pickOk.choose_spec (1/100) 100

/-! ## C22 -/

/-- C22: for a cluster with targets, `rB` of a report is one minus the normalised weight of the
hypotheses that use the report, and lies in [0,1]. -/
theorem C22_birth {det : Fin M → Fin N → XR} {miss fls : Fin M → XR}
    (hd : ∀ i j, IsC (det i j)) (hm : ∀ i, IsC (miss i)) (hf : ∀ i, IsFin (fls i))
    (hM0 : 0 < M) (hM : M ≤ 30) {pick : List (Node M (N + 2 * M)) → Nat} (hp : PickOk pick)
    (wlim nmax : ℝ) :
    ∃ (F : Nat) (L : List (Fin M → Fin (N + 2 * M))) (rB : Fin N → Option ℝ),
      (∀ fuel, F ≤ fuel →
        clusterRB pick fuel ew wlim nmax (costMatrix det miss fls) = some rB) ∧
      L ≠ [] ∧ Best (costMatrix det miss fls) L ∧ ∀ j : Fin N, ∃ b : ℝ, rB j = some b ∧
        b = 1 - mass (costMatrix det miss fls) L (fun σ => decide (∃ i, (σ i).val = j.val)) /
          mass (costMatrix det miss fls) L (fun _ => true) ∧
        0 ≤ b ∧ b ≤ 1 := by
  obtain ⟨F, L, a, g1, g2, g3, g4, g5, g6, _⟩ := cluster_spec hd hm hf hM0 hM hp wlim nmax
  refine ⟨F, L, a.rB, ?_, g2, g4, ?_⟩
  · intro fuel hfu
    have hn : a.n ≠ 0 := by
      rw [g3]
      exact fun h => g2 (List.length_eq_zero_iff.1 h)
    simp only [clusterRB, g1 fuel hfu]
    rw [if_neg (by omega), if_neg hn]
  · intro j
    set C := costMatrix det miss fls
    have hpos := mass_pos C g2
    have hsum : ∑ i, a.R i j.castSucc =
        mass C L (fun σ => decide (∃ i, (σ i).val = j.val)) := by
      simp only [g6]
      apply sum_mass
      · intro σ _
        simp only [target_eq, decide_eq_true_eq]
        refine exists_congr fun i => ?_
        have hj := j.2
        rw [Fin.val_castSucc]
        omega
      · intro σ hσ x y hx hy
        simp only [target_eq, decide_eq_true_eq, Fin.val_castSucc] at hx hy
        have hj := j.2
        exact g4.inj σ hσ (Fin.ext (by omega))
    have hb : 1 - ∑ i, a.R i j.castSucc / a.wsum =
        1 - mass C L (fun σ => decide (∃ i, (σ i).val = j.val)) / mass C L (fun _ => true) := by
      rw [← Finset.sum_div, hsum, g5]
    refine ⟨1 - ∑ i, a.R i j.castSucc / a.wsum, ?_, hb, ?_, ?_⟩
    · unfold Acc.rB
      rw [if_neg (by rw [g5]; exact ne_of_gt hpos)]
    · rw [hb]
      have := (div_le_one hpos).2 (mass_le C L (fun σ => decide (∃ i, (σ i).val = j.val)))
      linarith
    · rw [hb]
      have := div_nonneg (mass_nonneg C L (fun σ => decide (∃ i, (σ i).val = j.val))) hpos.le
      linarith

/-- C22, no targets: every report has birth probability 1. -/
theorem C22_birth_no_targets (pick : List (Node 0 (N + 2 * 0)) → Nat) (fuel : Nat) (wt : ℚ → ℝ)
    (wlim nmax : ℝ) (C : Cost 0 (N + 2 * 0)) :
    clusterRB pick fuel wt wlim nmax C = some fun _ => some 1 := rfl

example := C22_birth exDet_ok exMiss_ok exFls_ok (by decide) (by decide)
  exists_pickOk.choose_spec (1/100) 100
example := C22_birth_no_targets (N := 3) (fun _ => 0) 7 ew (1/100) 100 (fun i => i.elim0)

/-! ## C23 -/

/-- C23: at least one and at most `max 1 ⌈nhyp_max⌉` hypotheses are drawn, in order of decreasing
weight; no earlier hypothesis had a relative weight below `w_lim`; if the last one has not and the
number is below `nhyp_max`, all hypotheses have been drawn. -/
theorem C23_budget {det : Fin M → Fin N → XR} {miss fls : Fin M → XR}
    (hd : ∀ i j, IsC (det i j)) (hm : ∀ i, IsC (miss i)) (hf : ∀ i, IsFin (fls i))
    (hM0 : 0 < M) (hM : M ≤ 30) {pick : List (Node M (N + 2 * M)) → Nat} (hp : PickOk pick)
    (wlim nmax : ℝ) :
    ∃ (F : Nat) (L : List (Fin M → Fin (N + 2 * M))) (a : Acc M N) (w : Nat → ℝ),
      (∀ fuel, F ≤ fuel → hypotheses pick fuel ew wlim nmax (costMatrix det miss fls) = some a) ∧
      a.n = L.length ∧ Best (costMatrix det miss fls) L ∧
      (∀ p (h : p < L.length), w p = Real.exp (-(total (costMatrix det miss fls) L[p] : ℝ))) ∧
      1 ≤ a.n ∧ a.n ≤ max 1 ⌈nmax⌉₊ ∧
      (∀ p q, p ≤ q → q < a.n → w q ≤ w p) ∧
      (∀ p, p + 1 < a.n → wlim ≤ w p / ∑ q ∈ Finset.range (p + 1), w q) ∧
      (wlim ≤ w (a.n - 1) / ∑ q ∈ Finset.range a.n, w q → (a.n : ℝ) < nmax →
        ∀ τ, Feasible (costMatrix det miss fls) τ → τ ∈ L) := by
  obtain ⟨F, L, a, g1, g2, g3, g4, g5, g6, g7, g8⟩ := cluster_spec hd hm hf hM0 hM hp wlim nmax
  set C := costMatrix det miss fls
  let w : Nat → ℝ := fun p => if h : p < L.length then ew (total C L[p]) else 0
  have hw : ∀ p (h : p < L.length), w p = ew (total C L[p]) := fun p h => dif_pos h
  have hlen : 1 ≤ L.length := List.length_pos_iff.2 g2
  have hsum : ∀ p, p ≤ L.length →
      ((L.take p).map fun σ => ew (total C σ)).sum = ∑ q ∈ Finset.range p, w q := by
    intro p
    induction p with
    | zero => intro _; simp
    | succ p ih =>
      intro h
      rw [Finset.sum_range_succ, ← ih (by omega), hw p (by omega),
        List.take_succ_eq_append_getElem (by omega), List.map_append, List.sum_append,
        List.map_singleton, List.sum_singleton]
  have hpos : ∀ p, 0 < p → p ≤ L.length → 0 < ∑ q ∈ Finset.range p, w q := by
    intro p hp0 hp
    apply Finset.sum_pos
    · intro q hq
      rw [hw q (by have := Finset.mem_range.1 hq; omega)]
      exact ew_pos _
    · exact ⟨0, Finset.mem_range.2 hp0⟩
  have hstop : ∀ p, p < L.length → (Stop wlim nmax ((L.take (p + 1)).map fun σ => ew (total C σ)) ↔
      w p / ∑ q ∈ Finset.range (p + 1), w q < wlim ∨ nmax ≤ ((p + 1 : Nat) : ℝ)) := by
    intro p hp
    unfold Stop
    rw [hsum (p + 1) hp]
    have h1 : ((L.take (p + 1)).map fun σ => ew (total C σ)).getLast?.getD 0 = w p := by
      rw [List.take_succ_eq_append_getElem hp, List.map_append, List.map_singleton,
        List.getLast?_append, hw p hp]
      rfl
    have h2 : ((L.take (p + 1)).map fun σ => ew (total C σ)).length = p + 1 := by
      rw [List.length_map, List.length_take]; omega
    rw [h1, h2]
    have := (hpos (p + 1) (by omega) hp).ne'
    constructor
    · rintro (⟨_, h⟩ | h)
      · exact Or.inl h
      · exact Or.inr h
    · rintro (h | h)
      · exact Or.inl ⟨this, h⟩
      · exact Or.inr h
  refine ⟨F, L, a, w, g1, g3, g4, fun p h => hw p h, by omega, ?_, ?_, ?_, ?_⟩
  · rw [g3]
    by_contra hcon
    rw [not_le, max_lt_iff] at hcon
    obtain ⟨hc1, hc2⟩ := hcon
    have := mt (hstop (L.length - 2) (by omega)).2 (g7 (L.length - 2) (by omega))
    rw [not_or] at this
    have h3 := this.2
    rw [not_le] at h3
    have e : L.length - 2 + 1 = L.length - 1 := by omega
    rw [e] at h3
    have h4 := Nat.lt_ceil.2 h3
    omega
  · intro p q hpq hq
    rw [g3] at hq
    rw [hw q hq, hw p (by omega)]
    apply ew_le
    rcases Nat.lt_or_eq_of_le hpq with h | h
    · exact List.pairwise_iff_getElem.1 g4.sorted p q (by omega) hq h
    · subst h; exact le_refl _
  · intro p hp
    rw [g3] at hp
    have := mt (hstop p (by omega)).2 (g7 p hp)
    rw [not_or, not_lt] at this
    exact this.1
  · intro h1 h2
    rcases g8 with h | h
    · exfalso
      have e : L.length - 1 + 1 = L.length := by omega
      have := (hstop (L.length - 1) (by omega)).1 (by rw [e, List.take_length]; exact h)
      rw [e] at this
      rw [g3] at h1 h2
      rcases this with h | h
      · exact absurd h (not_lt.2 h1)
      · exact absurd h2 (not_lt.2 h)
    · exact h

example := C23_budget exDet_ok exMiss_ok exFls_ok (by decide) (by decide)
  exists_pickOk.choose_spec (1/100) 100

/-! ## Findings -/

/-- A cluster with 31 or more targets is undefined behaviour (C16): whatever the costs, the
all-false hypothesis is feasible. -/
theorem cluster_target_limit {det : Fin M → Fin N → XR} {miss fls : Fin M → XR}
    (hd : ∀ i j, IsC (det i j)) (hm : ∀ i, IsC (miss i)) (hf : ∀ i, IsFin (fls i))
    (hM : 31 ≤ M) {pick : List (Node M (N + 2 * M)) → Nat} (hp : PickOk pick) (fuel : Nat)
    (wt : ℚ → ℝ) (wlim nmax : ℝ) :
    hypotheses pick fuel wt wlim nmax (costMatrix det miss fls) = none := by
  obtain ⟨τ, hτ⟩ := costMatrix_feasible (det := det) (miss := miss) hf
  obtain ⟨S, h1, h2⟩ := murty_row_limit (costMatrix_ok hd hm hf) hM hτ.1 hτ.2 hp fuel
  simp only [hypotheses, h1]
  cases fuel with
  | zero => rfl
  | succ fuel => simp only [loop, h2]

example (fuel : Nat) : hypotheses (M := 31) (N := 0) exists_pickOk.choose fuel ew (1/100) 100
    (costMatrix (fun _ j => j.elim0) (fun _ => XR.fin 1) (fun _ => XR.fin 1)) = none :=
  cluster_target_limit (fun _ j => j.elim0) (fun _ => Or.inr ⟨1, rfl⟩) (fun _ => ⟨1, rfl⟩)
    (le_refl _) exists_pickOk.choose_spec fuel ew (1/100) 100

/-- If the weights of all hypotheses underflow to zero, every posterior is lost: all targets of the
cluster get `r = 0` and all reports a NaN birth probability. -/
theorem cluster_underflow {det : Fin M → Fin N → XR} {miss fls : Fin M → XR}
    (hd : ∀ i j, IsC (det i j)) (hm : ∀ i, IsC (miss i)) (hf : ∀ i, IsFin (fls i))
    (hM0 : 0 < M) (hM : M ≤ 30) {pick : List (Node M (N + 2 * M)) → Nat} (hp : PickOk pick)
    (wlim nmax : ℝ) (wt : ℚ → ℝ)
    (hu : ∀ τ, Feasible (costMatrix det miss fls) τ → wt (total (costMatrix det miss fls) τ) = 0) :
    ∃ (F : Nat) (a : Acc M N), (∀ fuel, F ≤ fuel →
        hypotheses pick fuel wt wlim nmax (costMatrix det miss fls) = some a) ∧
      (∀ i, a.posterior i = 0) ∧ ∀ j, a.rB j = none := by
  obtain ⟨F, L, a, g1, g2, g3, g4, _⟩ :=
    hypotheses_spec (costMatrix_ok hd hm hf) hM0 hM hp wt wlim nmax
  have h0 : a.wsum = 0 := by
    rw [g2.wsum]
    apply List.sum_eq_zero
    intro x hx
    obtain ⟨σ, hσ, rfl⟩ := List.mem_map.1 hx
    exact hu σ (g4 σ hσ)
  refine ⟨F, a, g1, ?_, ?_⟩
  · intro i
    unfold Acc.posterior Acc.rowSum
    rw [if_pos h0]
    rfl
  · intro j
    unfold Acc.rB
    rw [if_pos h0]

/-- A case: one target with `r = 1`, no reports, `pD = 1`.  The missed-detection cost is
`-log(1 * 0) = +inf`, the false-target cost is 30000, and `exp(-30000)` is zero as a `double`. -/
example : ∃ (F : Nat) (a : Acc 1 0), (∀ fuel, F ≤ fuel →
    hypotheses exists_pickOk.choose fuel (fun q => if q ≤ 745 then ew q else 0) (1/100) 100
      (costMatrix (fun _ j => j.elim0) (fun _ => XR.pinf) (fun _ => XR.fin 30000)) = some a) ∧
    a.posterior 0 = 0 := by
  obtain ⟨F, a, h1, h2, _⟩ := cluster_underflow (M := 1) (N := 0)
    (det := fun _ j => j.elim0) (miss := fun _ => XR.pinf) (fls := fun _ => XR.fin 30000)
    (fun _ j => j.elim0) (fun _ => Or.inl rfl) (fun _ => ⟨30000, rfl⟩) (by decide) (by decide)
    exists_pickOk.choose_spec (1/100) 100 (fun q => if q ≤ 745 then ew q else 0) (by
      intro τ hτ
      have h0 := hτ.2 0
      have e : total (costMatrix (M := 1) (N := 0) (fun _ j => j.elim0) (fun _ => XR.pinf)
          (fun _ => XR.fin 30000)) τ = 30000 := by
        unfold total
        rw [Fin.sum_univ_one]
        generalize τ 0 = j at h0 ⊢
        fin_cases j
        · exact absurd h0 not_isFin_pinf
        · rfl
      rw [e]
      norm_num)
  exact ⟨F, a, h1, h2 0⟩

end Verif.Hyp

import Verif.Hyp.Loop

/-!
# C107: the order of the targets and of the reports in a cluster

The loop draws the hypotheses in order of their costs, so their costs do not depend on how targets and reports
are numbered.  Which of several equally likely hypotheses is drawn last does.
-/

namespace Verif.Hyp

open Verif.Lap Verif.Murty XR

variable {M N : Nat}

/-! ## Two runs on one matrix -/

/-- What `hypotheses_spec` says about the list of hypotheses drawn. -/
structure Drawn (C : Cost M (N + 2 * M)) (wt : ℚ → ℝ) (wlim nmax : ℝ)
    (L : List (Fin M → Fin (N + 2 * M))) : Prop where
  nodup : L.Nodup
  feas : ∀ σ ∈ L, Feasible C σ
  sorted : L.Pairwise fun σ τ => total C σ ≤ total C τ
  best : ∀ σ ∈ L, ∀ τ, Feasible C τ → τ ∉ L → total C σ ≤ total C τ
  nostop : ∀ p, p + 1 < L.length →
    ¬ Stop wlim nmax ((L.take (p + 1)).map fun σ => wt (total C σ))
  last : (L ≠ [] ∧ Stop wlim nmax (L.map fun σ => wt (total C σ))) ∨ ∀ τ, Feasible C τ → τ ∈ L

theorem Drawn.kth_le {C : Cost M (N + 2 * M)} {wt : ℚ → ℝ} {wlim nmax : ℝ}
    {L L' : List (Fin M → Fin (N + 2 * M))} (h : Drawn C wt wlim nmax L)
    (h' : Drawn C wt wlim nmax L') (k : Nat) (hk : k < L.length) (hk' : k < L'.length) :
    total C L[k] ≤ total C L'[k] := by
  by_contra hlt
  push Not at hlt
  have hsub : ∀ τ ∈ L'.take (k + 1), τ ∈ L.take k := by
    intro τ hτ
    obtain ⟨p, hp, rfl⟩ := List.mem_iff_getElem.1 hτ
    rw [List.length_take] at hp
    rw [List.getElem_take]
    have hp' : p < L'.length := by omega
    have hle : total C L'[p] ≤ total C L'[k] := by
      rcases Nat.lt_or_ge p k with h1 | h1
      · exact List.pairwise_iff_getElem.1 h'.sorted p k hp' hk' h1
      · have : p = k := by omega
        subst this
        exact le_refl _
    have hm : L'[p] ∈ L := by
      by_contra hn
      have := h.best _ (List.getElem_mem hk) _ (h'.feas _ (List.getElem_mem hp')) hn
      linarith
    obtain ⟨q, hq, e⟩ := List.mem_iff_getElem.1 hm
    have hqk : q < k := by
      by_contra hge
      rcases Nat.lt_or_ge k q with h1 | h1
      · have := List.pairwise_iff_getElem.1 h.sorted k q hk hq h1
        rw [e] at this
        linarith
      · have : q = k := by omega
        subst this
        rw [← e] at hle
        linarith
    rw [← e]
    exact List.mem_take_iff_getElem.2 ⟨q, by omega, rfl⟩
  have hnd : (L'.take (k + 1)).Nodup := h'.nodup.sublist (List.take_sublist _ _)
  have := (List.subperm_of_subset hnd hsub).length_le
  rw [List.length_take, List.length_take] at this
  omega

theorem Drawn.length_le {C : Cost M (N + 2 * M)} {wt : ℚ → ℝ} {wlim nmax : ℝ}
    {L L' : List (Fin M → Fin (N + 2 * M))} (h : Drawn C wt wlim nmax L)
    (h' : Drawn C wt wlim nmax L') : L'.length ≤ L.length := by
  by_contra hlt
  push Not at hlt
  rcases h.last with ⟨h1, h2⟩ | h1
  · have hpos : 0 < L.length := List.length_pos_iff.2 h1
    refine h'.nostop (L.length - 1) (by omega) ?_
    have e : (L'.take (L.length - 1 + 1)).map (fun σ => wt (total C σ)) =
        L.map fun σ => wt (total C σ) := by
      apply List.ext_getElem
      · simp; omega
      · intro k g1 g2
        simp only [List.getElem_map, List.getElem_take]
        rw [List.length_map] at g2
        rw [le_antisymm (h.kth_le h' k g2 (by omega)) (h'.kth_le h k (by omega) g2)]
    rw [e]
    exact h2
  · have := (List.subperm_of_subset h'.nodup fun τ hτ => h1 τ (h'.feas τ hτ)).length_le
    omega

/-- The costs drawn are the same in any two runs. -/
theorem Drawn.totals {C : Cost M (N + 2 * M)} {wt : ℚ → ℝ} {wlim nmax : ℝ}
    {L L' : List (Fin M → Fin (N + 2 * M))} (h : Drawn C wt wlim nmax L)
    (h' : Drawn C wt wlim nmax L') : L.map (total C) = L'.map (total C) := by
  have hl := le_antisymm (h'.length_le h) (h.length_le h')
  apply List.ext_getElem
  · simpa using hl
  · intro k g1 g2
    rw [List.length_map] at g1 g2
    simp only [List.getElem_map]
    exact le_antisymm (h.kth_le h' k g1 g2) (h'.kth_le h k g2 g1)

/-- Which hypotheses are drawn is settled by their costs: hypotheses of the same cost that count either say the
same about every target, or there are no limits on the hypotheses drawn. -/
def Settled (C : Cost M (N + 2 * M)) (wt : ℚ → ℝ) (wlim nmax : ℝ) : Prop :=
  (∀ σ τ, Feasible C σ → Feasible C τ → total C σ = total C τ → wt (total C σ) ≠ 0 →
    ∀ i, target i (σ i) = target i (τ i)) ∨
  (wlim ≤ 0 ∧ (∀ q, 0 ≤ wt q) ∧ ((N + 2 * M : ℕ) : ℝ) ^ M ≤ nmax)

theorem Drawn.all {C : Cost M (N + 2 * M)} {wt : ℚ → ℝ} {wlim nmax : ℝ}
    {L : List (Fin M → Fin (N + 2 * M))} (h : Drawn C wt wlim nmax L) (hw : wlim ≤ 0)
    (hwt : ∀ q, 0 ≤ wt q) (hn : ((N + 2 * M : ℕ) : ℝ) ^ M ≤ nmax) : ∀ τ, Feasible C τ → τ ∈ L := by
  rcases h.last with ⟨_, h2 | h2⟩ | h1
  · exfalso
    have h0 : ∀ l : List (Fin M → Fin (N + 2 * M)), 0 ≤ (l.map fun σ => wt (total C σ)).sum := by
      intro l
      apply List.sum_nonneg
      intro x hx
      obtain ⟨σ, _, rfl⟩ := List.mem_map.1 hx
      exact hwt _
    have h3 : 0 ≤ (L.map fun σ => wt (total C σ)).getLast?.getD 0 := by
      cases e : (L.map fun σ => wt (total C σ)).getLast? with
      | none => simp
      | some x =>
        obtain ⟨σ, _, rfl⟩ := List.mem_map.1 (List.mem_of_getLast? e)
        exact hwt _
    have := div_nonneg h3 (h0 L)
    linarith [h2.2]
  · intro τ _
    have hcard : Fintype.card (Fin M → Fin (N + 2 * M)) = (N + 2 * M) ^ M := by simp
    have hle : (N + 2 * M) ^ M ≤ L.length := by
      rw [List.length_map] at h2
      exact_mod_cast le_trans hn h2
    have hf : L.toFinset = Finset.univ := by
      apply Finset.eq_univ_of_card
      rw [List.toFinset_card_of_nodup h.nodup, hcard]
      refine le_antisymm ?_ hle
      rw [← hcard]
      exact h.nodup.length_le_card
    rw [← List.mem_toFinset, hf]
    exact Finset.mem_univ _
  · exact h1

/-- Two runs whose hypotheses are settled accumulate the same matrix. -/
theorem Drawn.same {C : Cost M (N + 2 * M)} {wt : ℚ → ℝ} {wlim nmax : ℝ}
    {L L' : List (Fin M → Fin (N + 2 * M))} (h : Drawn C wt wlim nmax L)
    (h' : Drawn C wt wlim nmax L') (hs : Settled C wt wlim nmax) (i : Fin M) (j : Fin (N + 1)) :
    ((L.filter fun σ => target i (σ i) = some j).map fun σ => wt (total C σ)).sum =
      ((L'.filter fun σ => target i (σ i) = some j).map fun σ => wt (total C σ)).sum := by
  have key : ∀ l : List (Fin M → Fin (N + 2 * M)),
      ((l.filter fun σ => target i (σ i) = some j).map fun σ => wt (total C σ)).sum =
        (l.map fun σ => if target i (σ i) = some j then wt (total C σ) else 0).sum := by
    intro l
    induction l with
    | nil => rfl
    | cons σ l ih =>
      by_cases hj : target i (σ i) = some j
      · simp [hj, ih]
      · simp [hj, ih]
  rcases hs with hs | ⟨h1, h2, h3⟩
  · rw [key, key]
    congr 1
    have ht := h.totals h'
    have hl : L.length = L'.length := by simpa using congrArg List.length ht
    apply List.ext_getElem
    · simpa using hl
    · intro k g1 g2
      rw [List.length_map] at g1 g2
      simp only [List.getElem_map]
      have hk : total C L[k] = total C L'[k] :=
        le_antisymm (h.kth_le h' k g1 g2) (h'.kth_le h k g2 g1)
      by_cases h0 : wt (total C L[k]) = 0
      · rw [← hk, h0]
        simp
      · rw [← hk, hs _ _ (h.feas _ (List.getElem_mem g1)) (h'.feas _ (List.getElem_mem g2)) hk h0 i]
  · have hp : L.Perm L' := (List.perm_ext_iff_of_nodup h.nodup h'.nodup).2 fun τ =>
      ⟨fun g => h'.all h1 h2 h3 τ (h.feas τ g), fun g => h.all h1 h2 h3 τ (h'.feas τ g)⟩
    exact ((hp.filter _).map _).sum_eq

/-! ## Numbering targets and reports differently -/

/-- Where a column of the cost matrix goes when target `i` becomes number `e i` and report `j` number `f j`. -/
def ocolFn (e : Equiv.Perm (Fin M)) (f : Equiv.Perm (Fin N)) (j : Fin (N + 2 * M)) : Fin (N + 2 * M) :=
  if h : j.val < N then ⟨f ⟨j.val, h⟩, by omega⟩
  else if h' : j.val < N + M then ⟨N + e ⟨j.val - N, by omega⟩, by omega⟩
  else ⟨N + M + e ⟨j.val - (N + M), by omega⟩, by omega⟩

theorem colFn_det (e : Equiv.Perm (Fin M)) (f : Equiv.Perm (Fin N)) {j : Fin (N + 2 * M)} (h : j.val < N) :
    (ocolFn e f j).val = f ⟨j.val, h⟩ := by
  unfold ocolFn
  rw [dif_pos h]

theorem colFn_miss (e : Equiv.Perm (Fin M)) (f : Equiv.Perm (Fin N)) {j : Fin (N + 2 * M)} {i : Fin M}
    (h : j.val = N + i) : (ocolFn e f j).val = N + e i := by
  have h1 : ¬ j.val < N := by omega
  have h2 : j.val < N + M := by omega
  have h3 : (⟨j.val - N, by omega⟩ : Fin M) = i := Fin.ext (by simp only; omega)
  unfold ocolFn
  rw [dif_neg h1, dif_pos h2]
  simp only [h3]

theorem colFn_fls (e : Equiv.Perm (Fin M)) (f : Equiv.Perm (Fin N)) {j : Fin (N + 2 * M)} {i : Fin M}
    (h : j.val = N + M + i) : (ocolFn e f j).val = N + M + e i := by
  have h1 : ¬ j.val < N := by omega
  have h2 : ¬ j.val < N + M := by omega
  have h3 : (⟨j.val - (N + M), by omega⟩ : Fin M) = i := Fin.ext (by simp only; omega)
  unfold ocolFn
  rw [dif_neg h1, dif_neg h2]
  simp only [h3]

/-- A column is a report, the column of a miss, or that of a false target. -/
theorem col_cases (j : Fin (N + 2 * M)) : (∃ h : j.val < N, True) ∨ (∃ i : Fin M, j.val = N + i) ∨
    ∃ i : Fin M, j.val = N + M + i := by
  rcases Nat.lt_or_ge j.val N with h | h
  · exact Or.inl ⟨h, trivial⟩
  · rcases Nat.lt_or_ge j.val (N + M) with h' | h'
    · exact Or.inr (Or.inl ⟨⟨j.val - N, by omega⟩, by simp only; omega⟩)
    · exact Or.inr (Or.inr ⟨⟨j.val - (N + M), by omega⟩, by simp only; omega⟩)

theorem colFn_inj (e : Equiv.Perm (Fin M)) (f : Equiv.Perm (Fin N)) :
    Function.Injective (ocolFn (M := M) (N := N) e f) := by
  intro x y h
  have hv := congrArg Fin.val h
  have hin : ∀ i i' : Fin M, (e i).val = (e i').val → i = i' := fun i i' g => e.injective (Fin.ext g)
  have hif : ∀ i i' : Fin N, (f i).val = (f i').val → i = i' := fun i i' g => f.injective (Fin.ext g)
  apply Fin.ext
  rcases col_cases x with ⟨hx, _⟩ | ⟨i, hx⟩ | ⟨i, hx⟩ <;> rcases col_cases y with ⟨hy, _⟩ | ⟨i', hy⟩ | ⟨i', hy⟩
  · rw [colFn_det e f hx, colFn_det e f hy] at hv
    exact congrArg (fun z : Fin N => z.val) (hif ⟨x, hx⟩ ⟨y, hy⟩ hv)
  · rw [colFn_det e f hx, colFn_miss e f hy] at hv
    have := (f ⟨x, hx⟩).isLt
    omega
  · rw [colFn_det e f hx, colFn_fls e f hy] at hv
    have := (f ⟨x, hx⟩).isLt
    omega
  · rw [colFn_miss e f hx, colFn_det e f hy] at hv
    have := (f ⟨y, hy⟩).isLt
    omega
  · rw [colFn_miss e f hx, colFn_miss e f hy] at hv
    have := hin i i' (by omega)
    subst this
    omega
  · rw [colFn_miss e f hx, colFn_fls e f hy] at hv
    have := (e i).isLt
    omega
  · rw [colFn_fls e f hx, colFn_det e f hy] at hv
    have := (f ⟨y, hy⟩).isLt
    omega
  · rw [colFn_fls e f hx, colFn_miss e f hy] at hv
    have := (e i').isLt
    omega
  · rw [colFn_fls e f hx, colFn_fls e f hy] at hv
    have := hin i i' (by omega)
    subst this
    omega

/-- The same as a permutation of the columns. -/
noncomputable def ocol (e : Equiv.Perm (Fin M)) (f : Equiv.Perm (Fin N)) : Equiv.Perm (Fin (N + 2 * M)) :=
  Equiv.ofBijective (ocolFn e f) (Finite.injective_iff_bijective.1 (colFn_inj e f))

/-- Where a column of `R` goes. -/
def rep (f : Equiv.Perm (Fin N)) (j : Fin (N + 1)) : Fin (N + 1) :=
  if h : j.val < N then (f ⟨j.val, h⟩).castSucc else Fin.last N

theorem ocol_cost {det det' : Fin M → Fin N → XR} {miss miss' fls fls' : Fin M → XR} (e : Equiv.Perm (Fin M))
    (f : Equiv.Perm (Fin N)) (hd : ∀ i j, det' (e i) (f j) = det i j) (hm : ∀ i, miss' (e i) = miss i)
    (hf : ∀ i, fls' (e i) = fls i) (i : Fin M) (j : Fin (N + 2 * M)) :
    costMatrix det' miss' fls' (e i) (ocol e f j) = costMatrix det miss fls i j := by
  have hin : ∀ i i' : Fin M, (e i).val = (e i').val ↔ i.val = i'.val := fun i i' =>
    ⟨fun g => congrArg Fin.val (e.injective (Fin.ext g)), fun g => by rw [Fin.ext g]⟩
  show costMatrix det' miss' fls' (e i) (ocolFn e f j) = _
  unfold costMatrix
  rcases col_cases j with ⟨hj, _⟩ | ⟨k, hj⟩ | ⟨k, hj⟩
  · have h := colFn_det e f hj
    have h1 : (ocolFn e f j).val < N := by rw [h]; exact (f _).isLt
    rw [dif_pos h1, dif_pos hj, ← hd]
    congr 1
    exact Fin.ext h
  · have h := colFn_miss e f hj
    have hk := (e k).isLt
    rw [dif_neg (by omega), dif_neg (by omega)]
    by_cases hik : k.val = i.val
    · have := (hin k i).2 hik
      rw [if_pos (by omega), if_pos (by omega), hm]
    · have := mt (hin k i).1 hik
      rw [if_neg (by omega), if_neg (by omega), if_neg (by omega), if_neg (by omega)]
  · have h := colFn_fls e f hj
    have hk := (e i).isLt
    rw [dif_neg (by omega), dif_neg (by omega)]
    rw [if_neg (show ¬ (ocolFn e f j).val = N + (e i).val by omega),
      if_neg (show ¬ j.val = N + i.val by omega)]
    by_cases hik : k.val = i.val
    · have := (hin k i).2 hik
      rw [if_pos (by omega), if_pos (by omega), hf]
    · have := mt (hin k i).1 hik
      rw [if_neg (by omega), if_neg (by omega)]

theorem rep_inj (f : Equiv.Perm (Fin N)) : Function.Injective (rep f) := by
  intro x y h
  unfold rep at h
  have hv := congrArg Fin.val h
  apply Fin.ext
  split at hv <;> split at hv
  · simp only [Fin.val_castSucc] at hv
    have := f.injective (Fin.ext hv)
    simpa using this
  · rename_i h1 h2
    simp only [Fin.val_castSucc, Fin.val_last] at hv
    have := (f ⟨x, h1⟩).isLt
    omega
  · rename_i h1 h2
    simp only [Fin.val_castSucc, Fin.val_last] at hv
    have := (f ⟨y, h2⟩).isLt
    omega
  · omega

theorem ocol_target (e : Equiv.Perm (Fin M)) (f : Equiv.Perm (Fin N)) (i : Fin M) (j : Fin (N + 2 * M)) :
    target (e i) (ocol e f j) = (target i j).map (rep f) := by
  have hin : ∀ i i' : Fin M, (e i).val = (e i').val ↔ i.val = i'.val := fun i i' =>
    ⟨fun g => congrArg Fin.val (e.injective (Fin.ext g)), fun g => by rw [Fin.ext g]⟩
  show target (e i) (ocolFn e f j) = _
  unfold target
  rcases col_cases j with ⟨hj, _⟩ | ⟨k, hj⟩ | ⟨k, hj⟩
  · have h := colFn_det e f hj
    have h1 : (ocolFn e f j).val < N := by rw [h]; exact (f _).isLt
    rw [dif_pos h1, dif_pos hj, Option.map_some]
    congr 1
    unfold rep
    rw [dif_pos (show (⟨j.val, Nat.lt_succ_of_lt hj⟩ : Fin (N + 1)).val < N from hj)]
    exact Fin.ext h
  · have h := colFn_miss e f hj
    rw [dif_neg (by omega), dif_neg (by omega)]
    by_cases hik : k.val = i.val
    · have := (hin k i).2 hik
      rw [if_pos (by omega), if_pos (by omega), Option.map_some]
      unfold rep
      rw [dif_neg (by simp)]
      rfl
    · have := mt (hin k i).1 hik
      rw [if_neg (by omega), if_neg (by omega)]
      rfl
  · have h := colFn_fls e f hj
    have hk := (e i).isLt
    rw [dif_neg (by omega), dif_neg (by omega)]
    rw [if_neg (by omega), if_neg (by omega)]
    rfl

/-- The same assignment in the other numbering. -/
noncomputable def renum (e : Equiv.Perm (Fin M)) (f : Equiv.Perm (Fin N)) (σ : Fin M → Fin (N + 2 * M)) :
    Fin M → Fin (N + 2 * M) := fun i => (ocol e f).symm (σ (e i))

theorem renum_inj (e : Equiv.Perm (Fin M)) (f : Equiv.Perm (Fin N)) : Function.Injective (renum e f) := by
  intro σ τ h
  funext i
  have := congrFun h (e.symm i)
  simpa [renum] using this

theorem renum_surj (e : Equiv.Perm (Fin M)) (f : Equiv.Perm (Fin N)) (τ : Fin M → Fin (N + 2 * M)) :
    ∃ σ, renum e f σ = τ := ⟨fun i => ocol e f (τ (e.symm i)), by funext i; simp [renum]⟩

section

variable {C C' : Cost M (N + 2 * M)} {e : Equiv.Perm (Fin M)} {f : Equiv.Perm (Fin N)}
  (hC : ∀ i j, C' (e i) (ocol e f j) = C i j)

include hC

theorem renum_total (σ : Fin M → Fin (N + 2 * M)) : total C (renum e f σ) = total C' σ := by
  unfold total
  rw [← Equiv.sum_comp e fun i => (C' i (σ i)).val]
  apply Finset.sum_congr rfl
  intro i _
  rw [← hC]
  simp [renum]

theorem renum_feasible (σ : Fin M → Fin (N + 2 * M)) : Feasible C (renum e f σ) ↔ Feasible C' σ := by
  constructor
  · rintro ⟨h1, h2⟩
    refine ⟨fun x y h => ?_, fun i => ?_⟩
    · have := @h1 (e.symm x) (e.symm y) (by simp [renum, h])
      simpa using this
    · have := h2 (e.symm i)
      rw [← hC] at this
      simpa [renum] using this
  · rintro ⟨h1, h2⟩
    refine ⟨fun x y h => ?_, fun i => ?_⟩
    · have h3 : σ (e x) = σ (e y) := by simpa [renum] using h
      exact e.injective (h1 h3)
    · rw [← hC]
      simpa [renum] using h2 (e i)

theorem Drawn.renum {wt : ℚ → ℝ} {wlim nmax : ℝ} {L : List (Fin M → Fin (N + 2 * M))}
    (h : Drawn C' wt wlim nmax L) : Drawn C wt wlim nmax (L.map (renum e f)) := by
  have ht := renum_total hC
  have hmap : ∀ l : List (Fin M → Fin (N + 2 * M)),
      (l.map (Hyp.renum e f)).map (fun σ => wt (total C σ)) = l.map fun σ => wt (total C' σ) := by
    intro l
    rw [List.map_map]
    apply List.map_congr_left
    intro σ _
    simp only [Function.comp_apply, ht]
  refine ⟨h.nodup.map (renum_inj e f), ?_, ?_, ?_, ?_, ?_⟩
  · intro σ hσ
    obtain ⟨τ, hτ, rfl⟩ := List.mem_map.1 hσ
    exact (renum_feasible hC τ).2 (h.feas τ hτ)
  · rw [List.pairwise_map]
    exact h.sorted.imp fun {a b} hab => by rw [ht, ht]; exact hab
  · intro σ hσ τ hτ hn
    obtain ⟨σ', hσ', rfl⟩ := List.mem_map.1 hσ
    obtain ⟨τ', rfl⟩ := renum_surj e f τ
    rw [ht, ht]
    exact h.best σ' hσ' τ' ((renum_feasible hC τ').1 hτ) fun hm => hn (List.mem_map_of_mem hm)
  · intro p hp
    rw [← List.map_take, hmap]
    exact h.nostop p (by simpa using hp)
  · rcases h.last with ⟨h1, h2⟩ | h1
    · refine Or.inl ⟨by simpa using h1, ?_⟩
      rw [hmap]
      exact h2
    · refine Or.inr fun τ hτ => ?_
      obtain ⟨τ', rfl⟩ := renum_surj e f τ
      exact List.mem_map_of_mem (h1 τ' ((renum_feasible hC τ').1 hτ))

theorem renum_R {wt : ℚ → ℝ} (L : List (Fin M → Fin (N + 2 * M))) (i : Fin M) (j : Fin (N + 1)) :
    (((L.map (renum e f)).filter fun σ => target i (σ i) = some j).map fun σ => wt (total C σ)).sum =
      ((L.filter fun σ => target (e i) (σ (e i)) = some (rep f j)).map fun σ => wt (total C' σ)).sum := by
  have hiff : ∀ σ : Fin M → Fin (N + 2 * M), target i (Hyp.renum e f σ i) = some j ↔
      target (e i) (σ (e i)) = some (rep f j) := by
    intro σ
    have h1 := ocol_target e f i (Hyp.renum e f σ i)
    have h2 : ocol e f (Hyp.renum e f σ i) = σ (e i) := by simp [Hyp.renum]
    rw [h2] at h1
    rw [h1, Option.map_eq_some_iff]
    constructor
    · intro h
      exact ⟨j, h, rfl⟩
    · rintro ⟨k, hk, hkj⟩
      rw [hk, rep_inj f hkj]
  induction L with
  | nil => rfl
  | cons σ L ih =>
    by_cases h : target (e i) (σ (e i)) = some (rep f j)
    · have h' := (hiff σ).2 h
      simp [h, h', ih, renum_total hC]
    · have h' := mt (hiff σ).1 h
      simp [h, h', ih]

end

/-- **C107, one cluster** Let a cluster be given in two numberings, target `i` and report `j` of the first being
target `e i` and report `f j` of the second, and let any implementation of the queue serve each.  As many
hypotheses are drawn, of the same total weight.  If their costs settle which hypotheses are drawn, every entry
of `R` is the same too. -/
theorem order_spec {det det' : Fin M → Fin N → XR} {miss miss' fls fls' : Fin M → XR}
    (e : Equiv.Perm (Fin M)) (f : Equiv.Perm (Fin N)) (hd : ∀ i j, det' (e i) (f j) = det i j)
    (hm : ∀ i, miss' (e i) = miss i) (hf : ∀ i, fls' (e i) = fls i)
    (hC : CostOk (costMatrix det miss fls)) (hM0 : 0 < M) (hM : M ≤ 30)
    {pick pick' : List (Node M (N + 2 * M)) → Nat} (hp : PickOk pick) (hp' : PickOk pick') (wt : ℚ → ℝ)
    (wlim nmax : ℝ) :
    ∃ (F : Nat) (a a' : Acc M N),
      (∀ fuel, F ≤ fuel → hypotheses pick fuel wt wlim nmax (costMatrix det miss fls) = some a ∧
        hypotheses pick' fuel wt wlim nmax (costMatrix det' miss' fls') = some a') ∧
      a'.n = a.n ∧ a'.wsum = a.wsum ∧
      ((∀ q, 0 ≤ wt q) → 0 ≤ a.wsum ∧ ∀ i j, 0 ≤ a.R i j) ∧
      (Settled (costMatrix det miss fls) wt wlim nmax → ∀ i j, a'.R (e i) (rep f j) = a.R i j) := by
  have hc := ocol_cost e f hd hm hf
  have hC' : CostOk (costMatrix det' miss' fls') := by
    intro i j
    have := hC (e.symm i) ((ocol e f).symm j)
    rw [← hc] at this
    simpa using this
  obtain ⟨F, L, a, g0, g1, g2, g3, g4, g5, g6, g7⟩ := hypotheses_spec hC hM0 hM hp wt wlim nmax
  obtain ⟨F', L', a', k0, k1, k2, k3, k4, k5, k6, k7⟩ := hypotheses_spec hC' hM0 hM hp' wt wlim nmax
  have hL : Drawn _ wt wlim nmax L := ⟨g2, g3, g4, g5, g6, g7⟩
  have hL' := Drawn.renum hc (⟨k2, k3, k4, k5, k6, k7⟩ : Drawn _ wt wlim nmax L')
  have ht := hL.totals hL'
  refine ⟨max F F', a, a', fun fuel hfuel => ⟨g0 fuel (le_trans (le_max_left _ _) hfuel),
    k0 fuel (le_trans (le_max_right _ _) hfuel)⟩, ?_, ?_, ?_, ?_⟩
  · rw [k1.n, g1.n]
    have := congrArg List.length ht
    simpa using this.symm
  · rw [k1.wsum, g1.wsum]
    have h1 := congrArg (fun l => (l.map wt).sum) ht
    simp only [List.map_map] at h1
    have h2 : (L.map (wt ∘ total (costMatrix det miss fls))).sum =
        (L.map fun σ => wt (total (costMatrix det miss fls) σ)).sum := rfl
    rw [← h2, h1]
    congr 1
    apply List.map_congr_left
    intro σ _
    simp only [Function.comp_apply, renum_total hc]
  · intro hw
    have h0 : ∀ l : List (Fin M → Fin (N + 2 * M)),
        0 ≤ (l.map fun σ => wt (total (costMatrix det miss fls) σ)).sum := by
      intro l
      apply List.sum_nonneg
      intro x hx
      obtain ⟨σ, _, rfl⟩ := List.mem_map.1 hx
      exact hw _
    exact ⟨by rw [g1.wsum]; exact h0 _, fun i j => by rw [g1.R]; exact h0 _⟩
  · intro hs i j
    rw [k1.R, g1.R, hL.same hL' hs i j, renum_R hc]

end Verif.Hyp

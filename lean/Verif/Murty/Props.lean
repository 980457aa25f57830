import Verif.Murty.Draw

/-! # Properties C17–C20: the k-best assignment enumeration -/

namespace Verif.Murty

open Verif.Lap XR

variable {n m : Nat}

/-- Everything the draws of a fresh `Murty` object guarantee; the properties are projections. -/
theorem murty_spec {C : Cost n m} (hC : CostOk C) (hn : 0 < n) (hn' : n ≤ 30) (hm : 0 < m)
    {pick : List (Node n m) → Nat} (hp : PickOk pick) :
    ∃ M, init C = some M ∧ ∀ k, ∃ (F : Nat) (L : List (Fin n → Fin m)),
      (∀ fuel, F ≤ fuel → draws pick fuel k M =
        some (L.map (fun σ => some (fun i => some (σ i), fin (total C σ))) ++
          List.replicate (k - L.length) none)) ∧
      L.Nodup ∧ (∀ σ ∈ L, Feasible C σ) ∧
      L.Pairwise (fun σ τ => total C σ ≤ total C τ) ∧
      (∀ σ ∈ L, ∀ τ, Feasible C τ → τ ∉ L → total C σ ≤ total C τ) ∧
      (L.length = k ∨ (L.length < k ∧ ∀ τ, Feasible C τ → τ ∈ L)) := by
  obtain ⟨A, M, o, h1, h2, h3, h4, h5⟩ := init_spec hC hn hm
  refine ⟨M, h1, ?_⟩
  intro k
  obtain ⟨F, L, g1, g2, g3, g4, g5, g6⟩ := draws_spec hn' hp k M h2 h3
  have hL : ∀ σ ∈ L, Feasible C σ := fun σ hσ => (h4 σ).1 (g3 σ hσ)
  refine ⟨F, L, ?_, g2, hL, ?_, ?_, ?_⟩
  · intro fuel hf
    rw [g1 fuel hf]
    congr 2
    apply List.map_congr_left
    intro σ hσ
    rw [h5 σ (hL σ hσ)]
  · refine List.Pairwise.imp_of_mem ?_ g4
    intro σ τ hσ hτ h
    rw [← h5 σ (hL σ hσ), ← h5 τ (hL τ hτ)]
    linarith
  · intro σ hσ τ hτ hnot
    rw [← h5 σ (hL σ hσ), ← h5 τ hτ]
    have := g5 σ hσ τ ((h4 τ).2 hτ) hnot
    linarith
  · rcases g6 with h | ⟨h, h'⟩
    · exact Or.inl h
    · exact Or.inr ⟨h, fun τ hτ => h' τ ((h4 τ).2 hτ)⟩

/-! ## A concrete queue discipline and matrix -/

/-- Position of the first element that no other element beats. -/
def firstBest (Q : List (Node n m)) : Nat :=
  Q.findIdx fun s => Q.all fun x => !worse s x

/-- A 2×3 matrix with a negative and two forbidden entries: four assignments. -/
def exM : Cost 2 3 := ![![fin 5, fin (-2), pinf], ![fin 1, fin 3, fin (7/2)]]

theorem exM_ok : CostOk exM := by
  intro i j
  fin_cases i <;> fin_cases j
  exacts [Or.inr ⟨_, rfl⟩, Or.inr ⟨_, rfl⟩, Or.inl rfl, Or.inr ⟨_, rfl⟩, Or.inr ⟨_, rfl⟩,
    Or.inr ⟨_, rfl⟩]

/-- The model run on it: costs of six draws. -/
example : ((init exM).bind fun M => draws firstBest 40 6 M).map
    (fun L => L.map fun x => x.map fun y => (y.1 0, y.1 1, y.2)) =
    some [some (some 1, some 0, fin (-1)), some (some 1, some 2, fin (3/2)),
      some (some 0, some 1, fin 8), some (some 0, some 2, fin (17/2)), none, none] := by
  decide +kernel

/-- A preference that satisfies `PickOk` exists (any tie-breaking of the priority queue does): with
finite costs, a minimal element in the order (cost, rows). -/
theorem exists_pickOk : ∃ pick : List (Node n m) → Nat, PickOk pick := by
  classical
  have : ∀ Q : List (Node n m), Q ≠ [] → ∃ (i : Nat) (s : Node n m), Q[i]? = some s ∧ ∀ x ∈ Q, worse s x = false := by
    have hirr : ∀ a : Node n m, worse a a = false := by
      intro a
      unfold worse
      have : a.cost.lt a.cost = false := by cases a.cost <;> simp [XR.lt]
      simp [this]
    have htrans : ∀ a b c : Node n m, worse a b = true → worse b c = true → worse a c = true := by
      intro a b c
      unfold worse
      generalize a.cost = x
      generalize b.cost = y
      generalize c.cost = z
      intro h1 h2
      cases x <;> cases y <;> cases z <;>
        simp_all [XR.lt, XR.feq]
      all_goals first | omega | skip
      rename_i p q r
      rcases lt_trichotomy p q with h | h | h
      · have e1 : ¬ q < p := not_lt.2 h.le
        have e2 : p ≠ q := ne_of_lt h
        simp [e1, e2] at h1
      · subst h
        simp only [lt_irrefl, false_or, if_false, ite_true] at h1
        by_cases h3 : r < p
        · exact Or.inl h3
        · by_cases h4 : p = r
          · right; simp_all; omega
          · simp [h3, h4] at h2
      · by_cases h3 : r < q
        · exact Or.inl (h3.trans h)
        · by_cases h4 : q = r
          · exact Or.inl (h4 ▸ h)
          · simp [h3, h4] at h2
    intro Q hQ
    have : ∃ s ∈ Q, ∀ x ∈ Q, worse s x = false := by
      induction Q with
      | nil => exact absurd rfl hQ
      | cons a Q ih =>
        by_cases hq : Q = []
        · subst hq
          exact ⟨a, List.mem_cons_self, by simp [hirr]⟩
        · obtain ⟨s, hs, hbest⟩ := ih hq
          by_cases hw : worse s a = true
          · refine ⟨a, List.mem_cons_self, ?_⟩
            intro x hx
            rcases List.mem_cons.1 hx with rfl | hx
            · exact hirr x
            · by_contra h
              have := htrans s a x hw (by simpa using h)
              rw [hbest x hx] at this
              cases this
          · refine ⟨s, List.mem_cons_of_mem _ hs, ?_⟩
            intro x hx
            rcases List.mem_cons.1 hx with rfl | hx
            · simpa using hw
            · exact hbest x hx
    obtain ⟨s, hs, hbest⟩ := this
    obtain ⟨i, hi, rfl⟩ := List.mem_iff_getElem.1 hs
    exact ⟨i, _, List.getElem?_eq_getElem hi, hbest⟩
  refine ⟨fun Q => if h : Q ≠ [] then (this Q h).choose else 0, ?_⟩
  intro Q hQ
  simp only [dif_pos hQ]
  exact (this Q hQ).choose_spec

/-! ## C17 -/

/-- C17: every successful draw returns a one-to-one assignment over finite entries of the given
matrix, and the reported cost is the sum of those entries. -/
theorem C17_valid {C : Cost n m} (hC : CostOk C) (hn : 0 < n) (hn' : n ≤ 30) (hm : 0 < m)
    {pick : List (Node n m) → Nat} (hp : PickOk pick) :
    ∃ M, init C = some M ∧ ∀ k, ∃ F, ∀ fuel, F ≤ fuel → ∃ R, draws pick fuel k M = some R ∧
      R.length = k ∧ ∀ sol c, some (sol, c) ∈ R → ∃ (σ : Fin n → Fin m) (x : Fin n → ℚ),
        (∀ i, sol i = some (σ i)) ∧ Function.Injective σ ∧ (∀ i, C i (σ i) = fin (x i)) ∧
        c = fin (∑ i, x i) := by
  obtain ⟨M, h1, h2⟩ := murty_spec hC hn hn' hm hp
  refine ⟨M, h1, fun k => ?_⟩
  obtain ⟨F, L, g1, _, g3, _, _, g6⟩ := h2 k
  refine ⟨F, fun fuel hf => ⟨_, g1 fuel hf, ?_, ?_⟩⟩
  · rcases g6 with h | ⟨h, _⟩ <;>
      simp only [List.length_append, List.length_map, List.length_replicate] <;> omega
  · intro sol c hmem
    rcases List.mem_append.1 hmem with h | h
    · obtain ⟨σ, hσ, heq⟩ := List.mem_map.1 h
      simp only [Option.some.injEq, Prod.mk.injEq] at heq
      obtain ⟨rfl, rfl⟩ := heq
      have hf := g3 σ hσ
      exact ⟨σ, fun i => (C i (σ i)).val, fun _ => rfl, hf.1, fun i => (hf.2 i).eq, rfl⟩
    · have := (List.mem_replicate.1 h).2
      cases this

example : ∃ pick : List (Node 2 3) → Nat, PickOk pick ∧ ∃ M, init exM = some M ∧ ∀ k, ∃ F, ∀ fuel,
    F ≤ fuel → ∃ R, draws pick fuel k M = some R ∧ R.length = k := by
  obtain ⟨pick, hp⟩ := exists_pickOk (n := 2) (m := 3)
  obtain ⟨M, h1, h2⟩ := C17_valid exM_ok (by decide) (by decide) (by decide) hp
  refine ⟨pick, hp, M, h1, fun k => ?_⟩
  obtain ⟨F, h3⟩ := h2 k
  refine ⟨F, fun fuel hf => ?_⟩
  obtain ⟨R, h4, h5, _⟩ := h3 fuel hf
  exact ⟨R, h4, h5⟩

theorem getElem?_draws {α β : Type} {L : List α} {f : α → β} {d : Nat} {i : Nat} {x : β}
    (h : (L.map (fun a => some (f a)) ++ List.replicate d none)[i]? = some (some x)) :
    ∃ a, L[i]? = some a ∧ x = f a := by
  rw [List.getElem?_append] at h
  split at h
  · rw [List.getElem?_map] at h
    cases hl : L[i]? with
    | none => rw [hl] at h; cases h
    | some a =>
      rw [hl] at h
      simp only [Option.map_some, Option.some.injEq] at h
      exact ⟨a, rfl, h.symm⟩
  · rw [List.getElem?_replicate] at h
    split at h <;> cases h

/-! ## C18 -/

/-- C18: successive draws have non-decreasing cost, and no assignment is cheaper than a drawn one
unless it was drawn before (in particular the first draw is a minimum). -/
theorem C18_order {C : Cost n m} (hC : CostOk C) (hn : 0 < n) (hn' : n ≤ 30) (hm : 0 < m)
    {pick : List (Node n m) → Nat} (hp : PickOk pick) :
    ∃ M, init C = some M ∧ ∀ k, ∃ F, ∀ fuel, F ≤ fuel → ∃ R, draws pick fuel k M = some R ∧
      (∀ (i j : Nat) si ci sj cj, i < j → R[i]? = some (some (si, fin ci)) →
        R[j]? = some (some (sj, fin cj)) → ci ≤ cj) ∧
      (∀ (i : Nat) si ci, R[i]? = some (some (si, fin ci)) → ∀ (τ : Fin n → Fin m) (x : Fin n → ℚ),
        Function.Injective τ → (∀ l, C l (τ l) = fin (x l)) → ∑ l, x l < ci →
        ∃ j : Nat, j < i ∧ ∃ c, R[j]? = some (some (fun l => some (τ l), c))) := by
  obtain ⟨M, h1, h2⟩ := murty_spec hC hn hn' hm hp
  refine ⟨M, h1, fun k => ?_⟩
  obtain ⟨F, L, g1, g2, g3, g4, g5, _⟩ := h2 k
  refine ⟨F, fun fuel hf => ⟨_, g1 fuel hf, ?_, ?_⟩⟩
  · intro i j si ci sj cj hij hi hj
    obtain ⟨a, ha, ha'⟩ := getElem?_draws (f := fun σ =>
      ((fun i => some (σ i) : Fin n → Option (Fin m)), fin (total C σ))) hi
    obtain ⟨b, hb, hb'⟩ := getElem?_draws (f := fun σ =>
      ((fun i => some (σ i) : Fin n → Option (Fin m)), fin (total C σ))) hj
    simp only [Prod.mk.injEq, fin.injEq] at ha' hb'
    rw [ha'.2, hb'.2]
    obtain ⟨hi1, hi2⟩ := List.getElem?_eq_some_iff.1 ha
    obtain ⟨hj1, hj2⟩ := List.getElem?_eq_some_iff.1 hb
    rw [← hi2, ← hj2]
    exact List.pairwise_iff_getElem.1 g4 i j hi1 hj1 hij
  · intro i si ci hi τ x hτ hx hlt
    obtain ⟨a, ha, ha'⟩ := getElem?_draws (f := fun σ =>
      ((fun i => some (σ i) : Fin n → Option (Fin m)), fin (total C σ))) hi
    simp only [Prod.mk.injEq, fin.injEq] at ha'
    have htot : total C τ = ∑ l, x l :=
      Finset.sum_congr rfl fun l _ => by rw [hx l, val_fin]
    rw [← htot, ha'.2] at hlt
    have hfeas : Feasible C τ := ⟨hτ, fun l => ⟨x l, hx l⟩⟩
    obtain ⟨hi1, hi2⟩ := List.getElem?_eq_some_iff.1 ha
    have hmem : τ ∈ L := by
      by_contra hnot
      exact absurd hlt (not_lt.2 (g5 a (hi2 ▸ List.getElem_mem hi1) τ hfeas hnot))
    obtain ⟨j, hj1, hj2⟩ := List.mem_iff_getElem.1 hmem
    refine ⟨j, ?_, fin (total C τ), ?_⟩
    · by_contra hji
      rw [not_lt] at hji
      have : total C a ≤ total C τ := by
        rcases Nat.lt_or_eq_of_le hji with h | h
        · rw [← hi2, ← hj2]
          exact List.pairwise_iff_getElem.1 g4 i j hi1 hj1 h
        · subst h
          rw [← hi2, ← hj2]
      exact absurd hlt (not_lt.2 this)
    · rw [List.getElem?_append_left (by simpa using hj1), List.getElem?_map,
        List.getElem?_eq_getElem hj1, hj2]
      rfl

example := C18_order exM_ok (by decide) (by decide) (by decide) exists_pickOk.choose_spec

/-! ## C19 -/

/-- C19: no two successful draws return the same assignment. -/
theorem C19_no_repeat {C : Cost n m} (hC : CostOk C) (hn : 0 < n) (hn' : n ≤ 30) (hm : 0 < m)
    {pick : List (Node n m) → Nat} (hp : PickOk pick) :
    ∃ M, init C = some M ∧ ∀ k, ∃ F, ∀ fuel, F ≤ fuel → ∃ R, draws pick fuel k M = some R ∧
      ∀ (i j : Nat) sol ci cj, R[i]? = some (some (sol, ci)) → R[j]? = some (some (sol, cj)) → i = j := by
  obtain ⟨M, h1, h2⟩ := murty_spec hC hn hn' hm hp
  refine ⟨M, h1, fun k => ?_⟩
  obtain ⟨F, L, g1, g2, _⟩ := h2 k
  refine ⟨F, fun fuel hf => ⟨_, g1 fuel hf, ?_⟩⟩
  intro i j sol ci cj hi hj
  obtain ⟨a, ha, ha'⟩ := getElem?_draws (f := fun σ =>
    ((fun i => some (σ i) : Fin n → Option (Fin m)), fin (total C σ))) hi
  obtain ⟨b, hb, hb'⟩ := getElem?_draws (f := fun σ =>
    ((fun i => some (σ i) : Fin n → Option (Fin m)), fin (total C σ))) hj
  simp only [Prod.mk.injEq] at ha' hb'
  have hab : a = b := by
    funext l
    have := congrFun (ha'.1.symm.trans hb'.1) l
    exact Option.some.inj this
  subst hab
  obtain ⟨hi1, hi2⟩ := List.getElem?_eq_some_iff.1 ha
  obtain ⟨hj1, hj2⟩ := List.getElem?_eq_some_iff.1 hb
  exact (List.Nodup.getElem_inj_iff g2).1 (hi2.trans hj2.symm)

example := C19_no_repeat exM_ok (by decide) (by decide) (by decide) exists_pickOk.choose_spec

/-! ## C20 -/

/-- C20: with `N` the number of assignments over finite entries, the first `N` draws succeed, all
later ones fail, and every assignment is drawn. -/
theorem C20_exhaustive {C : Cost n m} (hC : CostOk C) (hn : 0 < n) (hn' : n ≤ 30) (hm : 0 < m)
    {pick : List (Node n m) → Nat} (hp : PickOk pick) (S : Finset (Fin n → Fin m))
    (hS : ∀ τ, τ ∈ S ↔ Function.Injective τ ∧ ∀ i, ∃ q, C i (τ i) = fin q) :
    ∃ M, init C = some M ∧ ∀ k, ∃ F, ∀ fuel, F ≤ fuel → ∃ R, draws pick fuel k M = some R ∧
      (∀ i : Nat, i < k → (i < S.card ↔ ∃ x, R[i]? = some (some x)) ∧
        (S.card ≤ i ↔ R[i]? = some none)) ∧
      (S.card ≤ k → ∀ τ ∈ S, ∃ c, some ((fun i => some (τ i)), c) ∈ R) := by
  classical
  obtain ⟨M, h1, h2⟩ := murty_spec hC hn hn' hm hp
  refine ⟨M, h1, fun k => ?_⟩
  obtain ⟨F, L, g1, g2, g3, _, _, g6⟩ := h2 k
  have hsub : L.toFinset ⊆ S := by
    intro τ hτ
    exact (hS τ).2 (g3 τ (List.mem_toFinset.1 hτ))
  have hcard : L.toFinset.card = L.length := List.toFinset_card_of_nodup g2
  have hle : L.length ≤ S.card := hcard ▸ Finset.card_le_card hsub
  have hall : S.card ≤ k → ∀ τ ∈ S, τ ∈ L := by
    intro hk τ hτ
    rcases g6 with h | ⟨_, h⟩
    · have : L.toFinset = S := Finset.eq_of_subset_of_card_le hsub (by omega)
      rw [← this] at hτ
      exact List.mem_toFinset.1 hτ
    · exact h τ ((hS τ).1 hτ)
  have hlen : L.length = min k S.card := by
    rcases g6 with h | ⟨h, h'⟩
    · omega
    · have : S ⊆ L.toFinset := fun τ hτ => List.mem_toFinset.2 (h' τ ((hS τ).1 hτ))
      have := Finset.card_le_card this
      omega
  refine ⟨F, fun fuel hf => ⟨_, g1 fuel hf, ?_, ?_⟩⟩
  · intro i hi
    by_cases hiL : i < L.length
    · have hget : (L.map (fun σ => some ((fun i => some (σ i) : Fin n → Option (Fin m)),
          fin (total C σ))) ++ List.replicate (k - L.length) none)[i]? =
          some (some (fun l => some (L[i] l), fin (total C L[i]))) := by
        rw [List.getElem?_append_left (by simpa using hiL), List.getElem?_map,
          List.getElem?_eq_getElem hiL]
        rfl
      rw [hget]
      refine ⟨⟨fun _ => ⟨_, rfl⟩, fun _ => by omega⟩, ⟨fun h => by omega, fun h => by cases h⟩⟩
    · have hget : (L.map (fun σ => some ((fun i => some (σ i) : Fin n → Option (Fin m)),
          fin (total C σ))) ++ List.replicate (k - L.length) none)[i]? = some none := by
        rw [List.getElem?_append_right (by simp; omega), List.getElem?_replicate,
          if_pos (by simp; omega)]
      rw [hget]
      refine ⟨⟨fun h => by omega, fun ⟨x, h⟩ => by cases h⟩, ⟨fun _ => rfl, fun _ => by omega⟩⟩
  · intro hk τ hτ
    refine ⟨fin (total C τ), List.mem_append_left _ (List.mem_map.2 ⟨τ, hall hk τ hτ, rfl⟩)⟩

example := C20_exhaustive exM_ok (by decide) (by decide) (by decide)
  exists_pickOk.choose_spec {![0, 1], ![0, 2], ![1, 0], ![1, 2]} (by
    intro τ
    constructor
    · intro h
      simp only [Finset.mem_insert, Finset.mem_singleton] at h
      rcases h with rfl | rfl | rfl | rfl <;>
        refine ⟨by decide, fun i => ?_⟩ <;> fin_cases i <;> exact ⟨_, rfl⟩
    · rintro ⟨h1, h2⟩
      have h0 := h2 0
      have hne : τ 0 ≠ τ 1 := fun e => absurd (h1 e) (by decide)
      have hτ : τ = ![τ 0, τ 1] := by funext i; fin_cases i <;> rfl
      generalize τ 0 = a at *
      generalize τ 1 = b at *
      subst hτ
      fin_cases a <;> fin_cases b <;> first
        | decide
        | exact absurd rfl hne
        | (obtain ⟨q, hq⟩ := h0; cases hq))

/-! ## The row limit -/

/-- With 31 or more rows and a feasible matrix the first draw already has undefined behaviour
(C16). -/
theorem murty_row_limit {C : Cost n m} (hC : CostOk C) (hn : 31 ≤ n) {τ : Fin n → Fin m}
    (hinj : Function.Injective τ) (hfin : ∀ i, ∃ q, C i (τ i) = fin q)
    {pick : List (Node n m) → Nat} (hp : PickOk pick) (fuel : Nat) :
    ∃ M, init C = some M ∧ draw pick fuel M = none := by
  have hn0 : 0 < n := by omega
  have hm : 0 < m := Fin.pos (τ ⟨0, hn0⟩)
  obtain ⟨mn, h1, h2, h3⟩ := minCoeff_spec hC hn0 hm
  have key : ∀ (A : Cost n m) (o : XR), CostOk A → Feasible A τ →
      draw pick fuel ⟨o, [root A]⟩ = none := by
    intro A o hA hf
    obtain ⟨s, hs, _⟩ := hp [root A] (by simp)
    have hsr : s = root A := by
      obtain ⟨h4, h5⟩ := List.getElem?_eq_some_iff.1 hs
      rw [← h5]
      have : pick [root A] = 0 := by simpa using h4
      simp [this]
    subst hsr
    have hsolve : solve fuel (root A) = none := by
      have : lap (root A).C fuel = none := C16_row_limit hA hn hf.1 hf.2 fuel
      simp only [solve, this]
    have hsv : (root A).solved = false := rfl
    simp [draw, drawTop, hs, hsv, hsolve]
  unfold init
  rw [h1]
  simp only
  split
  · rename_i hlt
    refine ⟨_, rfl, key _ _ ?_ ?_⟩
    · intro i j
      obtain ⟨q, rfl⟩ : ∃ q, mn = fin q := by
        rcases h2 with rfl | ⟨q, rfl⟩
        · simp at hlt
        · exact ⟨q, rfl⟩
      exact sub_isC (hC i j) (Or.inr ⟨q, rfl⟩)
    · obtain ⟨q, rfl⟩ : ∃ q, mn = fin q := by
        rcases h2 with rfl | ⟨q, rfl⟩
        · simp at hlt
        · exact ⟨q, rfl⟩
      exact ⟨hinj, fun i => (sub_isFin_iff (hC i _) (Or.inr ⟨q, rfl⟩)).2 ⟨hfin i, ⟨q, rfl⟩⟩⟩
  · exact ⟨_, rfl, key _ _ hC ⟨hinj, hfin⟩⟩

example (fuel : Nat) : ∃ M, init (fun (_ _ : Fin 31) => fin (-1)) = some M ∧
    draw exists_pickOk.choose fuel M = none :=
  murty_row_limit (fun _ _ => Or.inr ⟨-1, rfl⟩) (le_refl _) (τ := id) Function.injective_id
    (fun _ => ⟨-1, rfl⟩) exists_pickOk.choose_spec fuel

end Verif.Murty

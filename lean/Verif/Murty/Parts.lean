import Verif.Murty.Node
import Mathlib.Data.Finset.Card

/-! # Partitioning a solved node -/

namespace Verif.Murty

open Verif.Lap XR

variable {n m : Nat}

/-! ## `partition_with` -/

/-- What `partition_with` does, in terms of the two index embeddings. -/
theorem partitionWith_eq (node : Node n m) (i : Fin node.r) (j : Fin node.c) :
    ∃ (node' : Node n m) (e : Fin node'.r → Fin node.r) (f : Fin node'.c → Fin node.c),
      partitionWith node i j = some node' ∧ StrictMono e ∧ StrictMono f ∧
      (∀ x, x ∈ Set.range e ↔ x ≠ i) ∧ (∀ y, y ∈ Set.range f ↔ y ≠ j) ∧
      (∀ a b, node'.C a b = node.C (e a) (f b)) ∧
      (∀ a, node'.rmap a = node.rmap (e a)) ∧ (∀ b, node'.cmap b = node.cmap (f b)) ∧
      node'.sol = node.sol ∧ node'.cost = node.cost ∧
      node'.bound = node.bound.add (node.C i j) ∧
      (∀ g : Fin node.r → ℚ, ∑ a, g a = g i + ∑ a, g (e a)) ∧ node'.r ≤ node.r := by
  obtain ⟨r, c, C, u, v, cost, bound, solved, sol, res, rmap, cmap⟩ := node
  simp only at i j
  cases r with
  | zero => exact i.elim0
  | succ r =>
    cases c with
    | zero => exact j.elim0
    | succ c =>
      refine ⟨⟨r, c, fun a b => C (i.succAbove a) (j.succAbove b), u ∘ i.succAbove,
        v ∘ j.succAbove, cost, bound.add (C i j), false, sol, fun _ => none,
        rmap ∘ i.succAbove, cmap ∘ j.succAbove⟩, i.succAbove, j.succAbove, ?_, Fin.strictMono_succAbove i,
        Fin.strictMono_succAbove j, ?_, ?_, ?_, ?_, ?_, rfl, rfl, rfl, ?_, ?_⟩
      · simp only [partitionWith]
        rw [dif_pos ⟨i.2, j.2⟩]
      · intro x
        rw [Fin.range_succAbove]; simp
      · intro y
        rw [Fin.range_succAbove]; simp
      · intro a b; rfl
      · intro a; rfl
      · intro a; rfl
      · intro g
        exact Fin.sum_univ_succAbove g i
      · exact Nat.le_succ r

/-- `partition_with` keeps the invariant and fixes the row. -/
theorem partitionWith_spec {A : Cost n m} {node : Node n m} (h : Ok A node)
    {σ : Fin n → Fin m} (hσ : Sols A node σ) (hsol : ∀ k, node.sol k = some (σ k))
    (i : Fin node.r) (j : Fin node.c) (hij : σ (node.rmap i) = node.cmap j) :
    ∃ (node' : Node n m) (e : Fin node'.r → Fin node.r) (f : Fin node'.c → Fin node.c),
      partitionWith node i j = some node' ∧ StrictMono e ∧ StrictMono f ∧
      (∀ x, x ∈ Set.range e ↔ x ≠ i) ∧ (∀ y, y ∈ Set.range f ↔ y ≠ j) ∧
      (∀ a, node'.rmap a = node.rmap (e a)) ∧ (∀ b, node'.cmap b = node.cmap (f b)) ∧
      node'.sol = node.sol ∧ node'.cost = node.cost ∧ Ok A node' ∧
      ∀ τ, Sols A node' τ ↔ Sols A node τ ∧ τ (node.rmap i) = σ (node.rmap i) := by
  obtain ⟨node', e, f, hrun, he, hf, hre, hrf, hC, hr, hc, hs, hcost, hbound, hsum, hle⟩ :=
    partitionWith_eq node i j
  have hfinij : IsFin (node.C i j) := by
    obtain ⟨b, h1, h2⟩ := hσ.2.2 i
    rw [hij] at h1
    rw [h.cinj h1]; exact h2
  have hA : node.C i j = A (node.rmap i) (node.cmap j) := h.entry i j hfinij
  -- rows of the new node
  have hrange : ∀ k, k ∈ Set.range node'.rmap ↔ k ∈ Set.range node.rmap ∧ k ≠ node.rmap i := by
    intro k
    constructor
    · rintro ⟨a, rfl⟩
      rw [hr a]
      exact ⟨⟨_, rfl⟩, fun heq => (hre (e a)).1 ⟨a, rfl⟩ (h.rinj heq)⟩
    · rintro ⟨⟨x, rfl⟩, hx⟩
      obtain ⟨a, rfl⟩ := (hre x).2 (fun e => hx (by rw [e]))
      exact ⟨a, hr a⟩
  have hcrange : ∀ l, l ∈ Set.range node'.cmap ↔ l ∈ Set.range node.cmap ∧ l ≠ node.cmap j := by
    intro l
    constructor
    · rintro ⟨b, rfl⟩
      rw [hc b]
      exact ⟨⟨_, rfl⟩, fun heq => (hrf (f b)).1 ⟨b, rfl⟩ (h.cinj heq)⟩
    · rintro ⟨⟨x, rfl⟩, hx⟩
      obtain ⟨b, rfl⟩ := (hrf x).2 (fun e => hx (by rw [e]))
      exact ⟨b, hc b⟩
  have hsols : ∀ τ, Sols A node' τ ↔ Sols A node τ ∧ τ (node.rmap i) = σ (node.rmap i) := by
    intro τ
    constructor
    · rintro ⟨h1, h2, h3⟩
      have hi : τ (node.rmap i) = σ (node.rmap i) := by
        have := (h2 (node.rmap i) (fun hk => ((hrange _).1 hk).2 rfl)).1
        rw [hs, hsol] at this
        exact (Option.some.inj this).symm
      refine ⟨⟨h1, ?_, ?_⟩, hi⟩
      · intro k hk
        have := h2 k (fun h' => hk ((hrange k).1 h').1)
        rw [hs] at this
        exact this
      · intro x
        by_cases hx : x = i
        · subst hx
          exact ⟨j, by rw [hi, hij], hfinij⟩
        · obtain ⟨a, rfl⟩ := (hre x).2 hx
          obtain ⟨b, hb1, hb2⟩ := h3 a
          rw [hr, hc] at hb1
          rw [hC] at hb2
          exact ⟨f b, hb1, hb2⟩
    · rintro ⟨⟨h1, h2, h3⟩, hi⟩
      refine ⟨h1, ?_, ?_⟩
      · intro k hk
        rw [hs]
        by_cases hk' : k ∈ Set.range node.rmap
        · have : k = node.rmap i := by
            by_contra hne
            exact hk ((hrange k).2 ⟨hk', hne⟩)
          subst this
          refine ⟨by rw [hsol, hi], ?_⟩
          rw [hi, hij, ← hA]; exact hfinij
        · exact h2 k hk'
      · intro a
        obtain ⟨y, hy1, hy2⟩ := h3 (e a)
        have hyj : y ≠ j := by
          rintro rfl
          rw [← hij, ← hi] at hy1
          exact (hre (e a)).1 ⟨a, rfl⟩ (h.rinj (h1 hy1))
        obtain ⟨b, rfl⟩ := (hrf y).2 hyj
        exact ⟨b, by rw [hr, hc]; exact hy1, by rw [hC]; exact hy2⟩
  refine ⟨node', e, f, hrun, he, hf, hre, hrf, hr, hc, hs, hcost, ?_, hsols⟩
  refine ⟨?_, ?_, ?_, ?_, ?_, ?_, ?_, hle.trans h.small⟩
  · intro a a' heq
    rw [hr, hr] at heq
    exact he.injective (h.rinj heq)
  · intro a a' heq
    rw [hc, hc] at heq
    exact hf.injective (h.cinj heq)
  · intro a b
    rw [hC]; exact h.costOk _ _
  · intro a b hfin
    rw [hC] at hfin ⊢
    rw [hr, hc]
    exact h.entry _ _ hfin
  · intro k hk
    rw [hs]
    by_cases hk' : k ∈ Set.range node.rmap
    · have : k = node.rmap i := by
        by_contra hne
        exact hk ((hrange k).2 ⟨hk', hne⟩)
      subst this
      refine ⟨node.cmap j, by rw [hsol, hij], fun h' => ((hcrange _).1 h').2 rfl, ?_⟩
      rw [← hA]; exact hfinij
    · obtain ⟨l, h1, h2, h3⟩ := h.bnd k hk'
      exact ⟨l, h1, fun h' => h2 ((hcrange l).1 h').1, h3⟩
  · intro k k' hk hk' heq
    rw [hs, hsol, hsol] at heq
    exact hσ.1 (Option.some.inj heq)
  · obtain ⟨β, h1, h2⟩ := h.bcost
    obtain ⟨q, hq⟩ := hfinij
    refine ⟨β + q, by rw [hbound, h1, hq]; rfl, ?_⟩
    intro τ hτ
    obtain ⟨hτ1, hτ2⟩ := (hsols τ).1 hτ
    rw [h2 τ hτ1, hsum, hτ2, hij, ← hA, hq, val_fin]
    have : ∀ a, (A (node'.rmap a) (τ (node'.rmap a))).val =
        (A (node.rmap (e a)) (τ (node.rmap (e a)))).val := by intro a; rw [hr]
    simp only [this]
    ring

/-! ## `partition_without` -/

theorem partitionWithout_spec {A : Cost n m} {node : Node n m} (h : Ok A node)
    (i : Fin node.r) (j : Fin node.c) (c d : ℚ) (hcost : node.cost = fin c)
    (hlow : ∀ τ, Sols A node τ → τ (node.rmap i) ≠ node.cmap j → c + d ≤ total A τ) :
    ∃ node', partitionWithout node i j (fin d) = some node' ∧ Full A node' ∧
      node'.solved = false ∧
      ∀ τ, Sols A node' τ ↔ Sols A node τ ∧ τ (node.rmap i) ≠ node.cmap j := by
  refine ⟨_, by unfold partitionWithout; rw [dif_pos ⟨i.2, j.2⟩], ?_⟩
  set node' : Node n m := { node with
      C := fun a b => if a = ⟨i, i.2⟩ ∧ b = ⟨j, j.2⟩ then XR.pinf else node.C a b
      cost := node.cost.add (fin d)
      solved := false
      res := fun _ => none } with hn'
  have hC : ∀ a b, node'.C a b = if a = i ∧ b = j then XR.pinf else node.C a b := fun a b => rfl
  have hsols : ∀ τ, Sols A node' τ ↔ Sols A node τ ∧ τ (node.rmap i) ≠ node.cmap j := by
    intro τ
    constructor
    · rintro ⟨h1, h2, h3⟩
      refine ⟨⟨h1, h2, ?_⟩, ?_⟩
      · intro a
        obtain ⟨b, hb1, hb2⟩ := h3 a
        rw [hC] at hb2
        by_cases hab : a = i ∧ b = j
        · rw [if_pos hab] at hb2; exact absurd hb2 not_isFin_pinf
        · rw [if_neg hab] at hb2; exact ⟨b, hb1, hb2⟩
      · intro heq
        obtain ⟨b, hb1, hb2⟩ := h3 i
        have hbj : b = j := h.cinj (hb1.symm.trans heq)
        rw [hC, if_pos ⟨rfl, hbj⟩] at hb2
        exact absurd hb2 not_isFin_pinf
    · rintro ⟨⟨h1, h2, h3⟩, hne⟩
      refine ⟨h1, h2, ?_⟩
      intro a
      obtain ⟨b, hb1, hb2⟩ := h3 a
      refine ⟨b, hb1, ?_⟩
      rw [hC, if_neg]
      · exact hb2
      · rintro ⟨ha, hb⟩
        have hb3 : τ (node.rmap a) = node.cmap b := hb1
        rw [ha, hb] at hb3
        exact hne hb3
  refine ⟨⟨⟨h.rinj, h.cinj, ?_, ?_, h.bnd, h.bndInj, ?_, h.small⟩, ?_, ?_⟩, rfl, hsols⟩
  · intro a b
    rw [hC]
    split
    · exact Or.inl rfl
    · exact h.costOk a b
  · intro a b hf
    rw [hC] at hf ⊢
    by_cases hab : a = i ∧ b = j
    · rw [if_pos hab] at hf; exact absurd hf not_isFin_pinf
    · rw [if_neg hab] at hf ⊢; exact h.entry a b hf
  · obtain ⟨β, h1, h2⟩ := h.bcost
    exact ⟨β, h1, fun τ hτ => h2 τ ((hsols τ).1 hτ).1⟩
  · refine ⟨c + d, ?_, ?_⟩
    · change node.cost.add (fin d) = _
      rw [hcost]; rfl
    · intro τ hτ
      obtain ⟨h1, h2⟩ := (hsols τ).1 hτ
      exact hlow τ h1 h2
  · intro hs
    cases hs

/-! ## Indices -/

/-- The index of `y` after deleting the indices `B`. -/
theorem rank_eq {k l : Nat} (e : Fin k → Fin l) (he : StrictMono e) (B : List (Fin l))
    (hB : B.Nodup) (hr : ∀ x, x ∈ Set.range e ↔ x ∉ B) (a : Fin k) :
    B.countP (fun x => x < e a) + a.val = (e a).val := by
  classical
  have h1 : B.countP (fun x => x < e a) = (B.toFinset.filter (fun x => x < e a)).card := by
    rw [List.countP_eq_length_filter, ← List.toFinset_card_of_nodup (hB.filter _)]
    congr 1
    ext x
    simp
  have h2 : a.val = ((Finset.univ.filter fun x : Fin l => x ∉ B).filter
      (fun x => x < e a)).card := by
    have : (Finset.univ.filter fun x : Fin l => x ∉ B).filter (fun x => x < e a) =
        (Finset.Iio a).map ⟨e, he.injective⟩ := by
      ext x
      simp only [Finset.mem_filter, Finset.mem_univ, true_and, Finset.mem_map, Finset.mem_Iio,
        Function.Embedding.coeFn_mk]
      constructor
      · rintro ⟨h3, h4⟩
        obtain ⟨a', rfl⟩ := (hr x).2 h3
        exact ⟨a', he.lt_iff_lt.1 h4, rfl⟩
      · rintro ⟨a', h3, rfl⟩
        exact ⟨(hr _).1 ⟨a', rfl⟩, he h3⟩
    rw [this, Finset.card_map, Fin.card_Iio]
  have h3 : (e a).val = (Finset.univ.filter fun x : Fin l => x < e a).card := by
    have : (Finset.univ.filter fun x : Fin l => x < e a) = Finset.Iio (e a) := by
      ext x; simp
    rw [this, Fin.card_Iio]
  rw [h1, h3]
  conv_lhs => rw [h2]
  rw [← Finset.card_union_of_disjoint]
  · congr 1
    ext x
    simp only [Finset.mem_union, Finset.mem_filter, List.mem_toFinset, Finset.mem_univ, true_and]
    tauto
  · rw [Finset.disjoint_left]
    intro x h4 h5
    simp only [Finset.mem_filter, List.mem_toFinset, Finset.mem_univ, true_and] at h4 h5
    exact h5.1 h4.1

/-! ## Sorting -/

theorem insertDesc_perm {r c : Nat} (a : DualEntry r c) (l : List (DualEntry r c)) :
    (insertDesc a l).Perm (a :: l) := by
  induction l with
  | nil => exact List.Perm.refl _
  | cons b l ih =>
    unfold insertDesc
    split
    · exact (ih.cons b).trans (List.Perm.swap a b l)
    · exact List.Perm.refl _

theorem sortDesc_perm {r c : Nat} (l : List (DualEntry r c)) : (sortDesc l).Perm l := by
  induction l with
  | nil => exact List.Perm.refl _
  | cons a l ih => exact (insertDesc_perm a _).trans (ih.cons a)

theorem duals_eq (s : Node n m) (ρ : Fin s.r → Fin s.c) (h : ∀ a, s.res a = some (ρ a))
    (l : List (Fin s.r)) : duals s l = some (l.map fun a => (dualOf s a (ρ a), a, ρ a)) := by
  induction l with
  | nil => rfl
  | cons a l ih => simp only [duals, h a, ih, List.map_cons]

theorem sortByDual_spec (s : Node n m) (ρ : Fin s.r → Fin s.c)
    (h : ∀ a, s.res a = some (ρ a)) : ∃ order, sortByDual s = some order ∧
      (∀ p ∈ order, p = (dualOf s p.2.1 (ρ p.2.1), p.2.1, ρ p.2.1)) ∧
      (order.map fun p => p.2.1).Nodup ∧ ∀ a, ∃ p ∈ order, p.2.1 = a := by
  refine ⟨sortDesc ((List.finRange s.r).map fun a => (dualOf s a (ρ a), a, ρ a)), ?_, ?_, ?_, ?_⟩
  · simp only [sortByDual, duals_eq s ρ h, Option.map_some]
  · intro p hp
    rw [(sortDesc_perm _).mem_iff] at hp
    obtain ⟨a, _, rfl⟩ := List.mem_map.1 hp
    rfl
  · rw [((sortDesc_perm _).map fun p => p.2.1).nodup_iff, List.map_map]
    have : ((fun p : DualEntry s.r s.c => p.2.1) ∘ fun a => (dualOf s a (ρ a), a, ρ a)) = id := rfl
    rw [this, List.map_id]
    exact List.nodup_finRange _
  · intro a
    refine ⟨(dualOf s a (ρ a), a, ρ a), ?_, rfl⟩
    rw [(sortDesc_perm _).mem_iff]
    exact List.mem_map.2 ⟨a, List.mem_finRange a, rfl⟩

/-! ## The partition loop -/

/-- Two nodes share no assignment. -/
def Disj (A : Cost n m) (a b : Node n m) : Prop := ∀ τ, ¬ (Sols A a τ ∧ Sols A b τ)

/-- The node of the partition loop after binding the entries `before`. -/
structure Rel (A : Cost n m) (s : Node n m) (σ : Fin n → Fin m)
    (before : List (DualEntry s.r s.c)) (node : Node n m) (e : Fin node.r → Fin s.r)
    (f : Fin node.c → Fin s.c) : Prop where
  ok : Ok A node
  sol : node.sol = s.sol
  cost : node.cost = s.cost
  emono : StrictMono e
  fmono : StrictMono f
  erange : ∀ x, x ∈ Set.range e ↔ x ∉ before.map fun p => p.2.1
  frange : ∀ y, y ∈ Set.range f ↔ y ∉ before.map fun p => p.2.2
  rmap : ∀ a, node.rmap a = s.rmap (e a)
  cmap : ∀ b, node.cmap b = s.cmap (f b)
  mem : ∀ τ, Sols A node τ ↔
    Sols A s τ ∧ ∀ p ∈ before, τ (s.rmap p.2.1) = σ (s.rmap p.2.1)

theorem parts_spec {A : Cost n m} {s : Node n m} (hs : Ok A s) {σ : Fin n → Fin m}
    {ρ : Fin s.r → Fin s.c} (hS : Solved A s σ ρ) (todo : List (DualEntry s.r s.c)) :
    ∀ (before : List (DualEntry s.r s.c)) (node : Node n m) (e : Fin node.r → Fin s.r)
      (f : Fin node.c → Fin s.c), Rel A s σ before node e f →
      (∀ p ∈ before ++ todo, p = (dualOf s p.2.1 (ρ p.2.1), p.2.1, ρ p.2.1)) →
      ((before ++ todo).map fun p => p.2.1).Nodup →
      (∀ a, ∃ p ∈ before ++ todo, p.2.1 = a) →
      ∃ new, parts before todo node = some new ∧ (∀ q ∈ new, Full A q) ∧
        new.Pairwise (Disj A) ∧
        (∀ τ, (∃ q ∈ new, Sols A q τ) ↔ Sols A node τ ∧ τ ≠ σ) := by
  have hρinj : Function.Injective ρ := by
    intro a a' e
    apply hs.rinj
    apply hS.mem.1
    rw [hS.comm, hS.comm, e]
  induction todo with
  | nil =>
    intro before node e f hR hform hnd hall
    refine ⟨[], rfl, by simp, List.Pairwise.nil, ?_⟩
    intro τ
    simp only [List.not_mem_nil, false_and, exists_false, false_iff, not_and, not_not]
    intro hτ
    obtain ⟨h1, h2⟩ := (hR.mem τ).1 hτ
    funext k
    by_cases hk : k ∈ Set.range s.rmap
    · obtain ⟨a, rfl⟩ := hk
      obtain ⟨p, hp, rfl⟩ := hall a
      rw [List.append_nil] at hp
      exact h2 p hp
    · have := (h1.2.1 k hk).1
      rw [hS.sol k] at this
      exact (Option.some.inj this).symm
  | cons p todo ih =>
    intro before node e f hR hform hnd hall
    have hp := hform p (by simp)
    have hnd1 : (before.map fun p => p.2.1).Nodup := by
      rw [List.map_append] at hnd
      exact hnd.of_append_left
    have hpb : p.2.1 ∉ before.map fun p => p.2.1 := by
      rw [List.map_append, List.map_cons, List.nodup_append] at hnd
      intro h
      exact hnd.2.2 _ h _ List.mem_cons_self rfl
    have hcols : (before.map fun p => p.2.2) = (before.map fun p => p.2.1).map ρ := by
      rw [List.map_map]
      apply List.map_congr_left
      intro q hq
      have := hform q (List.mem_append_left _ hq)
      change q.2.2 = ρ q.2.1
      rw [this]
    have hnd2 : (before.map fun p => p.2.2).Nodup := by
      rw [hcols]; exact hnd1.map hρinj
    have hp2 : p.2.2 = ρ p.2.1 := by rw [hp]
    have hpc : p.2.2 ∉ before.map fun p => p.2.2 := by
      rw [hcols, hp2]
      intro h
      obtain ⟨x, hx, hx'⟩ := List.mem_map.1 h
      rw [hρinj hx'] at hx
      exact hpb hx
    obtain ⟨i, hi⟩ := (hR.erange p.2.1).2 hpb
    obtain ⟨j, hj⟩ := (hR.frange p.2.2).2 hpc
    have hci := rank_eq e hR.emono _ hnd1 hR.erange i
    have hcj := rank_eq f hR.fmono _ hnd2 hR.frange j
    rw [hi, List.countP_map] at hci
    rw [hj, List.countP_map] at hcj
    have hidx : partitionIndex before p = some (i.val, j.val) := by
      unfold partitionIndex
      simp only
      have e1 : (before.countP fun q => q.2.1 < p.2.1) + i.val = p.2.1.val := hci
      have e2 : (before.countP fun q => q.2.2 < p.2.2) + j.val = p.2.2.val := hcj
      rw [if_pos ⟨by omega, by omega⟩]
      congr 2 <;> omega
    have hσnode : Sols A node σ := (hR.mem σ).2 ⟨hS.mem, fun _ _ => rfl⟩
    have hsoln : ∀ k, node.sol k = some (σ k) := by rw [hR.sol]; exact hS.sol
    have hri : node.rmap i = s.rmap p.2.1 := by rw [hR.rmap, hi]
    have hcj' : node.cmap j = s.cmap p.2.2 := by rw [hR.cmap, hj]
    have hij : σ (node.rmap i) = node.cmap j := by rw [hri, hcj', hp2, hS.comm]
    obtain ⟨node', e', f', hrun, he', hf', hre', hrf', hr', hc', hs', hcost', hok', hsols'⟩ :=
      partitionWith_spec hR.ok hσnode hsoln i j hij
    have hR' : Rel A s σ (before ++ [p]) node' (e ∘ e') (f ∘ f') := by
      refine ⟨hok', hs'.trans hR.sol, hcost'.trans hR.cost, hR.emono.comp he', hR.fmono.comp hf',
        ?_, ?_, ?_, ?_, ?_⟩
      · intro x
        rw [List.map_append, List.mem_append, List.map_singleton, List.mem_singleton, not_or,
          ← hR.erange, ← hi]
        constructor
        · rintro ⟨a, rfl⟩
          exact ⟨⟨_, rfl⟩, fun h => (hre' (e' a)).1 ⟨a, rfl⟩ (hR.emono.injective h)⟩
        · rintro ⟨⟨y, rfl⟩, hy⟩
          obtain ⟨a, rfl⟩ := (hre' y).2 (fun h => hy (by rw [h]))
          exact ⟨a, rfl⟩
      · intro x
        rw [List.map_append, List.mem_append, List.map_singleton, List.mem_singleton, not_or,
          ← hR.frange, ← hj]
        constructor
        · rintro ⟨a, rfl⟩
          exact ⟨⟨_, rfl⟩, fun h => (hrf' (f' a)).1 ⟨a, rfl⟩ (hR.fmono.injective h)⟩
        · rintro ⟨⟨y, rfl⟩, hy⟩
          obtain ⟨a, rfl⟩ := (hrf' y).2 (fun h => hy (by rw [h]))
          exact ⟨a, rfl⟩
      · intro a; rw [hr', hR.rmap]; rfl
      · intro b; rw [hc', hR.cmap]; rfl
      · intro τ
        rw [hsols', hR.mem, hri]
        simp only [List.mem_append, List.mem_singleton]
        constructor
        · rintro ⟨⟨h1, h2⟩, h3⟩
          refine ⟨h1, ?_⟩
          rintro q (hq | rfl)
          · exact h2 q hq
          · exact h3
        · rintro ⟨h1, h2⟩
          exact ⟨⟨h1, fun q hq => h2 q (Or.inl hq)⟩, h2 p (Or.inr rfl)⟩
    have happ : before ++ [p] ++ todo = before ++ p :: todo := by simp
    obtain ⟨rest, hrest, hfull, hpw, hmem⟩ := ih (before ++ [p]) node' (e ∘ e') (f ∘ f') hR'
      (by rw [happ]; exact hform) (by rw [happ]; exact hnd) (by rw [happ]; exact hall)
    have hcostn : node.cost = fin (total A σ) := hR.cost.trans hS.cost
    have hp1 : p.1 = dualOf s p.2.1 (ρ p.2.1) := congrArg Prod.fst hp
    by_cases hlt : p.1.lt pinf = true
    · -- the partition is pushed
      obtain ⟨d, hd⟩ : ∃ d, p.1 = fin d := by
        rcases hS.dualC p.2.1 with h | ⟨d, h⟩
        · rw [hp1, h] at hlt; cases hlt
        · exact ⟨d, by rw [hp1, h]⟩
      obtain ⟨q, hq1, hq2, hq3, hq4⟩ := partitionWithout_spec hR.ok i j (total A σ) d hcostn (by
        intro τ hτ hne
        rw [← hij, hri] at hne
        obtain ⟨d', hd', hle⟩ := hS.dual p.2.1 τ ((hR.mem τ).1 hτ).1 hne
        rw [← hp1, hd] at hd'
        injection hd' with hd'
        rw [hd']; exact hle)
      refine ⟨q :: rest, ?_, ?_, ?_, ?_⟩
      · simp only [parts, hidx, hrun, hrest, hlt, if_true]
        rw [hd, hq1]; rfl
      · intro x hx
        rcases List.mem_cons.1 hx with rfl | hx
        · exact hq2
        · exact hfull x hx
      · refine List.Pairwise.cons ?_ hpw
        rintro x hx τ ⟨h1, h2⟩
        have h3 := ((hmem τ).1 ⟨x, hx, h2⟩).1
        have h4 := ((hsols' τ).1 h3).2
        exact ((hq4 τ).1 h1).2 (by rw [h4, hij])
      · intro τ
        constructor
        · rintro ⟨x, hx, hτ⟩
          rcases List.mem_cons.1 hx with rfl | hx
          · obtain ⟨h1, h2⟩ := (hq4 τ).1 hτ
            refine ⟨h1, ?_⟩
            rintro rfl
            exact h2 hij
          · obtain ⟨h1, h2⟩ := (hmem τ).1 ⟨x, hx, hτ⟩
            exact ⟨((hsols' τ).1 h1).1, h2⟩
        · rintro ⟨h1, h2⟩
          by_cases h3 : τ (node.rmap i) = node.cmap j
          · obtain ⟨x, hx, hx'⟩ := (hmem τ).2 ⟨(hsols' τ).2 ⟨h1, by rw [h3, hij]⟩, h2⟩
            exact ⟨x, List.mem_cons_of_mem _ hx, hx'⟩
          · exact ⟨q, List.mem_cons_self, (hq4 τ).2 ⟨h1, h3⟩⟩
    · -- nothing to push: no other entry can be used in this row
      have hlt' : p.1.lt pinf = false := by simpa using hlt
      refine ⟨rest, ?_, hfull, hpw, ?_⟩
      · simp only [parts, hidx, hrun, hrest, hlt']
        rfl
      · intro τ
        rw [hmem]
        constructor
        · rintro ⟨h1, h2⟩
          exact ⟨((hsols' τ).1 h1).1, h2⟩
        · rintro ⟨h1, h2⟩
          refine ⟨(hsols' τ).2 ⟨h1, ?_⟩, h2⟩
          by_contra h3
          rw [hri] at h3
          obtain ⟨d, hd, _⟩ := hS.dual p.2.1 τ ((hR.mem τ).1 h1).1 h3
          rw [← hp1] at hd
          rw [hd] at hlt'
          cases hlt'

end Verif.Murty

import Verif.MurtyF.Node

/-! # Partitioning a solved node in rounded arithmetic -/

namespace Verif.MurtyF

open Verif.Lap Verif.Lap.XR Verif.LapF Verif.Murty

variable {n m : Nat}

/-! ## The two operations on nodes -/

/-- `partition_with` differs from the exact model only in the stored bound. -/
theorem partitionWith_eq (ar : Arith) (s : Node n m) (β : XR) (i : Fin s.r) (j : Fin s.c) :
    partitionWith ar s i j = (Murty.partitionWith { s with bound := β } i j).map
      fun x => { x with bound := ar.add s.bound (s.C i j) } := by
  obtain ⟨r, c, C, u, v, cost, bound, solved, sol, res, rmap, cmap⟩ := s
  simp only at i j
  cases r with
  | zero => exact i.elim0
  | succ r =>
    cases c with
    | zero => exact j.elim0
    | succ c =>
      simp only [partitionWith, Murty.partitionWith]
      rw [dif_pos ⟨i.2, j.2⟩, dif_pos ⟨i.2, j.2⟩]
      rfl

/-- `partition_with` keeps the invariant and fixes the row. -/
theorem partitionWith_spec {ar : Arith} {A : Cost n m} {D : Nat} {R K δ S : ℚ}
    (hE : Env ar A D R K δ S) {node : Node n m} (h : Ok A D K δ node)
    {σ : Fin n → Fin m} (hσ : Sols A node σ) (hsol : ∀ k, node.sol k = some (σ k))
    (i : Fin node.r) (j : Fin node.c) (hij : σ (node.rmap i) = node.cmap j) :
    ∃ (node' : Node n m) (e : Fin node'.r → Fin node.r) (f : Fin node'.c → Fin node.c),
      partitionWith ar node i j = some node' ∧ StrictMono e ∧ StrictMono f ∧
      (∀ x, x ∈ Set.range e ↔ x ≠ i) ∧ (∀ y, y ∈ Set.range f ↔ y ≠ j) ∧
      (∀ a, node'.rmap a = node.rmap (e a)) ∧ (∀ b, node'.cmap b = node.cmap (f b)) ∧
      node'.sol = node.sol ∧ node'.cost = node.cost ∧ Ok A D K δ node' ∧
      ∀ τ, Sols A node' τ ↔ Sols A node τ ∧ τ (node.rmap i) = σ (node.rmap i) := by
  have hsc := (h.env hE).scaled
  obtain ⟨β, β₀, hβ, hβg, hβ1, hβ2, h0⟩ := h
  obtain ⟨x, e, f, h1, h2, h3, h4, h5, h6, h7, h8, h9, h10, h11⟩ :=
    Murty.partitionWith_spec h0 (σ := σ) hσ hsol i j hij
  obtain ⟨x', e', f', g1, g2, g3, g4, g5, g6, g7, g8, g9, g10, g11, g12, g13⟩ :=
    Murty.partitionWith_eq { node with bound := fin β₀ } i j
  have hxx : x' = x := Option.some.inj (g1.symm.trans h1)
  subst hxx
  have hr : node.r = x'.r + 1 := by
    have := g12 (fun _ => 1)
    simp only [Finset.sum_const, Finset.card_univ, Fintype.card_fin, nsmul_eq_mul, mul_one] at this
    have h' : (node.r : ℚ) = 1 + x'.r := this
    have : ((node.r : ℕ) : ℚ) = ((x'.r + 1 : ℕ) : ℚ) := by rw [h']; push_cast; ring
    exact_mod_cast this
  have hsmall : node.r ≤ n := h0.small
  have hrq : (node.r : ℚ) = x'.r + 1 := by rw [hr]; push_cast; rfl
  have hrn : (node.r : ℚ) ≤ n := by exact_mod_cast hsmall
  obtain ⟨q, hq⟩ : IsFin (node.C i j) := by
    obtain ⟨b, k1, k2⟩ := hσ.2.2 i
    rw [hij] at k1
    rw [h0.cinj k1]; exact k2
  have hS := hE.S_nonneg
  have hδ := hE.rounds.nn
  have hK := hE.scaled.nn
  have hSe := hE.hS
  have hm0 : (0 : ℚ) ≤ m := Nat.cast_nonneg m
  have hn0 : (0 : ℚ) ≤ n := Nat.cast_nonneg n
  have hr0 : (0 : ℚ) ≤ node.r := Nat.cast_nonneg _
  have hβR : |β| ≤ n * S := by
    have e : β = (β - β₀) + β₀ := by ring
    have := abs_add_le (β - β₀) β₀
    rw [← e] at this
    have h3 : ((n : ℚ) - node.r) * δ + (n - node.r) * K ≤ (n - node.r) * S := by
      rw [hSe]; have : (0:ℚ) ≤ (n - node.r) * δ := mul_nonneg (by linarith) hδ
      linarith
    have h4 := mul_le_mul_of_nonneg_right (show (n : ℚ) - node.r ≤ n by linarith) hS
    linarith
  have q2 := hsc.le i j q hq
  obtain ⟨y, y1, y2, y3⟩ := hE.rounds.add β q hβg (hsc.int i j q hq)
    (hE.range hβR (by linarith))
    (hE.range (t := 1) (by rw [_root_.one_mul, hSe]; linarith) (by linarith))
  refine ⟨{ x' with bound := ar.add node.bound (node.C i j) }, e, f, ?_, h2, h3, h4, h5, h6, h7, h8,
    h9, ?_, h11⟩
  · rw [partitionWith_eq ar node (fin β₀) i j, h1]; rfl
  · refine ⟨y, β₀ + q, ?_, y3, ?_, ?_, ?_⟩
    · change ar.add node.bound (node.C i j) = _
      rw [hβ, hq, Arith.add_fin_fin, y1]
    · change |y - (β₀ + q)| ≤ (n - x'.r) * δ
      rw [hrq] at hβ1
      rw [abs_le] at hβ1 y2 ⊢
      constructor <;> linarith [hβ1.1, hβ1.2, y2.1, y2.2]
    · change |β₀ + q| ≤ (n - x'.r) * K
      rw [hrq] at hβ2
      exact (abs_add_le _ _).trans (by linarith)
    · have hb : x'.bound = fin (β₀ + q) := by
        rw [g11]
        change (fin β₀).add (node.C i j) = _
        rw [hq]; rfl
      rw [← hb]; exact h10

/-- `partition_without` keeps the invariant and excludes the entry. -/
theorem partitionWithout_spec {ar : Arith} {A : Cost n m} {D : Nat} {R K δ S : ℚ}
    (hE : Env ar A D R K δ S) {node : Node n m} (h : Ok A D K δ node)
    (i : Fin node.r) (j : Fin node.c) (w d : ℚ) (hcost : node.cost = fin w)
    (hwg : OnGrid D w) (hw : |w| ≤ n * S) (hdg : OnGrid D d) (hd : |d| ≤ (8 * m + 12) * S)
    (hlow : ∀ τ, Sols A node τ → τ (node.rmap i) ≠ node.cmap j →
      w + d + δ ≤ total A τ + lowErr n δ) :
    ∃ node', partitionWithout ar node i j (fin d) = some node' ∧ Full ar A D K δ S node' ∧
      node'.solved = false ∧
      ∀ τ, Sols A node' τ ↔ Sols A node τ ∧ τ (node.rmap i) ≠ node.cmap j := by
  have hfin := fun τ hτ => h.sols_fin (τ := τ) hτ
  obtain ⟨β, β₀, hβ, hβg, hβ1, hβ2, h0⟩ := h
  have hm0 : (0 : ℚ) ≤ m := Nat.cast_nonneg m
  have hn0 : (0 : ℚ) ≤ n := Nat.cast_nonneg n
  -- the exact model with a cost that is a lower bound of everything
  have h0' : Murty.Ok A { node with bound := fin β₀, cost := fin (-(n * K)) } :=
    ⟨h0.rinj, h0.cinj, h0.costOk, h0.entry, h0.bnd, h0.bndInj, h0.bcost, h0.small⟩
  obtain ⟨x, h1, h2, h3, h4⟩ := Murty.partitionWithout_spec h0' i j (-(n * K)) 0 rfl (by
    intro τ hτ _
    have := total_le hE.scaled (hfin τ hτ)
    rw [abs_le] at this
    linarith [this.1])
  obtain ⟨y, y1, y2, y3⟩ := hE.rounds.add w d hwg hdg (hE.range hw (by linarith))
    (hE.range hd (by linarith))
  have hx : partitionWithout ar node i j (fin d) =
      some { x with cost := fin y, bound := node.bound } := by
    unfold Murty.partitionWithout at h1
    rw [dif_pos ⟨i.2, j.2⟩] at h1
    rw [← Option.some.inj h1]
    unfold partitionWithout
    rw [dif_pos ⟨i.2, j.2⟩, hcost, Arith.add_fin_fin, y1]
  have hxr : x.r = node.r ∧ x.bound = fin β₀ := by
    unfold Murty.partitionWithout at h1
    rw [dif_pos ⟨i.2, j.2⟩] at h1
    rw [← Option.some.inj h1]
    exact ⟨rfl, rfl⟩
  refine ⟨_, hx, ⟨⟨β, β₀, hβ, hβg, ?_, ?_, ?_⟩, ⟨y, rfl, ?_⟩, ?_⟩, h3, h4⟩
  · change _ ≤ (n - x.r) * δ
    rw [hxr.1]; exact hβ1
  · change _ ≤ (n - x.r) * K
    rw [hxr.1]; exact hβ2
  · have := h2.ok
    refine ⟨this.rinj, this.cinj, this.costOk, this.entry, this.bnd, this.bndInj, ?_, this.small⟩
    obtain ⟨b, hb, hb'⟩ := this.bcost
    exact ⟨b, by rw [← hb, hxr.2], hb'⟩
  · intro τ hτ
    obtain ⟨k1, k2⟩ := (h4 τ).1 hτ
    have := hlow τ k1 k2
    rw [abs_le] at y2
    linarith [y2.2]
  · intro hs
    rw [show x.solved = true from hs] at h3
    cases h3

/-! ## Sorting -/

theorem duals_eq (ar : Arith) (s : Node n m) (ρ : Fin s.r → Fin s.c)
    (h : ∀ a, s.res a = some (ρ a)) (l : List (Fin s.r)) :
    duals ar s l = some (l.map fun a => (dualOf ar s a (ρ a), a, ρ a)) := by
  induction l with
  | nil => rfl
  | cons a l ih => simp only [duals, h a, ih, List.map_cons]

theorem sortByDual_spec (ar : Arith) (s : Node n m) (ρ : Fin s.r → Fin s.c)
    (h : ∀ a, s.res a = some (ρ a)) : ∃ order, sortByDual ar s = some order ∧
      (∀ p ∈ order, p = (dualOf ar s p.2.1 (ρ p.2.1), p.2.1, ρ p.2.1)) ∧
      (order.map fun p => p.2.1).Nodup ∧ ∀ a, ∃ p ∈ order, p.2.1 = a := by
  refine ⟨sortDesc ((List.finRange s.r).map fun a => (dualOf ar s a (ρ a), a, ρ a)), ?_, ?_, ?_, ?_⟩
  · simp only [sortByDual, duals_eq ar s ρ h, Option.map_some]
  · intro p hp
    rw [(sortDesc_perm _).mem_iff] at hp
    obtain ⟨a, _, rfl⟩ := List.mem_map.1 hp
    rfl
  · rw [((sortDesc_perm _).map fun p => p.2.1).nodup_iff, List.map_map]
    have : ((fun p : DualEntry s.r s.c => p.2.1) ∘ fun a => (dualOf ar s a (ρ a), a, ρ a)) = id :=
      rfl
    rw [this, List.map_id]
    exact List.nodup_finRange _
  · intro a
    refine ⟨(dualOf ar s a (ρ a), a, ρ a), ?_, rfl⟩
    rw [(sortDesc_perm _).mem_iff]
    exact List.mem_map.2 ⟨a, List.mem_finRange a, rfl⟩

/-! ## The partition loop -/

/-- The node of the partition loop after binding the entries `before`. -/
structure Rel (A : Cost n m) (D : Nat) (K δ : ℚ) (s : Node n m) (σ : Fin n → Fin m)
    (before : List (DualEntry s.r s.c)) (node : Node n m) (e : Fin node.r → Fin s.r)
    (f : Fin node.c → Fin s.c) : Prop where
  ok : Ok A D K δ node
  sol : node.sol = s.sol
  cost : node.cost = s.cost
  emono : StrictMono e
  fmono : StrictMono f
  erange : ∀ x, x ∈ Set.range e ↔ x ∉ before.map fun p => p.2.1
  frange : ∀ y, y ∈ Set.range f ↔ y ∉ before.map fun p => p.2.2
  rmap : ∀ a, node.rmap a = s.rmap (e a)
  cmap : ∀ b, node.cmap b = s.cmap (f b)
  mem : ∀ τ, Sols A node τ ↔
    Sols A s τ ∧ ∀ p ∈ before, τ (s.rmap p.2.1) = σ (s.rmap p.2.1)

theorem parts_spec {ar : Arith} {A : Cost n m} {D : Nat} {R K δ S : ℚ} (hE : Env ar A D R K δ S)
    {s : Node n m} (hs : Ok A D K δ s) {σ : Fin n → Fin m}
    {ρ : Fin s.r → Fin s.c} (hS : Solved ar A D S δ s σ ρ) (todo : List (DualEntry s.r s.c)) :
    ∀ (before : List (DualEntry s.r s.c)) (node : Node n m) (e : Fin node.r → Fin s.r)
      (f : Fin node.c → Fin s.c), Rel A D K δ s σ before node e f →
      (∀ p ∈ before ++ todo, p = (dualOf ar s p.2.1 (ρ p.2.1), p.2.1, ρ p.2.1)) →
      ((before ++ todo).map fun p => p.2.1).Nodup →
      (∀ a, ∃ p ∈ before ++ todo, p.2.1 = a) →
      ∃ new, parts ar before todo node = some new ∧ (∀ q ∈ new, Full ar A D K δ S q) ∧
        new.Pairwise (Disj A) ∧
        (∀ τ, (∃ q ∈ new, Sols A q τ) ↔ Sols A node τ ∧ τ ≠ σ) := by
  have hρinj : Function.Injective ρ := by
    intro a a' e
    obtain ⟨_, _, _, _, _, _, hs0⟩ := hs
    apply hs0.rinj
    change s.rmap a = s.rmap a'
    apply hS.mem.1
    rw [hS.comm, hS.comm, e]
  induction todo with
  | nil =>
    intro before node e f hR hform hnd hall
    refine ⟨[], rfl, by simp, List.Pairwise.nil, ?_⟩
    intro τ
    simp only [List.not_mem_nil, false_and, exists_false, false_iff, not_and, not_not]
    intro hτ
    obtain ⟨h1, h2⟩ := (hR.mem τ).1 hτ
    funext k
    by_cases hk : k ∈ Set.range s.rmap
    · obtain ⟨a, rfl⟩ := hk
      obtain ⟨p, hp, rfl⟩ := hall a
      rw [List.append_nil] at hp
      exact h2 p hp
    · have := (h1.2.1 k hk).1
      rw [hS.sol k] at this
      exact (Option.some.inj this).symm
  | cons p todo ih =>
    intro before node e f hR hform hnd hall
    have hp := hform p (by simp)
    have hnd1 : (before.map fun p => p.2.1).Nodup := by
      rw [List.map_append] at hnd
      exact hnd.of_append_left
    have hpb : p.2.1 ∉ before.map fun p => p.2.1 := by
      rw [List.map_append, List.map_cons, List.nodup_append] at hnd
      intro h
      exact hnd.2.2 _ h _ List.mem_cons_self rfl
    have hcols : (before.map fun p => p.2.2) = (before.map fun p => p.2.1).map ρ := by
      rw [List.map_map]
      apply List.map_congr_left
      intro q hq
      have := hform q (List.mem_append_left _ hq)
      change q.2.2 = ρ q.2.1
      rw [this]
    have hnd2 : (before.map fun p => p.2.2).Nodup := by
      rw [hcols]; exact hnd1.map hρinj
    have hp2 : p.2.2 = ρ p.2.1 := by rw [hp]
    have hpc : p.2.2 ∉ before.map fun p => p.2.2 := by
      rw [hcols, hp2]
      intro h
      obtain ⟨x, hx, hx'⟩ := List.mem_map.1 h
      rw [hρinj hx'] at hx
      exact hpb hx
    obtain ⟨i, hi⟩ := (hR.erange p.2.1).2 hpb
    obtain ⟨j, hj⟩ := (hR.frange p.2.2).2 hpc
    have hci := rank_eq e hR.emono _ hnd1 hR.erange i
    have hcj := rank_eq f hR.fmono _ hnd2 hR.frange j
    rw [hi, List.countP_map] at hci
    rw [hj, List.countP_map] at hcj
    have hidx : partitionIndex before p = some (i.val, j.val) := by
      unfold partitionIndex
      simp only
      have e1 : (before.countP fun q => q.2.1 < p.2.1) + i.val = p.2.1.val := hci
      have e2 : (before.countP fun q => q.2.2 < p.2.2) + j.val = p.2.2.val := hcj
      rw [if_pos ⟨by omega, by omega⟩]
      congr 2 <;> omega
    have hσnode : Sols A node σ := (hR.mem σ).2 ⟨hS.mem, fun _ _ => rfl⟩
    have hsoln : ∀ k, node.sol k = some (σ k) := by rw [hR.sol]; exact hS.sol
    have hri : node.rmap i = s.rmap p.2.1 := by rw [hR.rmap, hi]
    have hcj' : node.cmap j = s.cmap p.2.2 := by rw [hR.cmap, hj]
    have hij : σ (node.rmap i) = node.cmap j := by rw [hri, hcj', hp2, hS.comm]
    obtain ⟨node', e', f', hrun, he', hf', hre', hrf', hr', hc', hs', hcost', hok', hsols'⟩ :=
      partitionWith_spec hE hR.ok hσnode hsoln i j hij
    have hR' : Rel A D K δ s σ (before ++ [p]) node' (e ∘ e') (f ∘ f') := by
      refine ⟨hok', hs'.trans hR.sol, hcost'.trans hR.cost, hR.emono.comp he', hR.fmono.comp hf',
        ?_, ?_, ?_, ?_, ?_⟩
      · intro x
        rw [List.map_append, List.mem_append, List.map_singleton, List.mem_singleton, not_or,
          ← hR.erange, ← hi]
        constructor
        · rintro ⟨a, rfl⟩
          exact ⟨⟨_, rfl⟩, fun h => (hre' (e' a)).1 ⟨a, rfl⟩ (hR.emono.injective h)⟩
        · rintro ⟨⟨y, rfl⟩, hy⟩
          obtain ⟨a, rfl⟩ := (hre' y).2 (fun h => hy (by rw [h]))
          exact ⟨a, rfl⟩
      · intro x
        rw [List.map_append, List.mem_append, List.map_singleton, List.mem_singleton, not_or,
          ← hR.frange, ← hj]
        constructor
        · rintro ⟨a, rfl⟩
          exact ⟨⟨_, rfl⟩, fun h => (hrf' (f' a)).1 ⟨a, rfl⟩ (hR.fmono.injective h)⟩
        · rintro ⟨⟨y, rfl⟩, hy⟩
          obtain ⟨a, rfl⟩ := (hrf' y).2 (fun h => hy (by rw [h]))
          exact ⟨a, rfl⟩
      · intro a; rw [hr', hR.rmap]; rfl
      · intro b; rw [hc', hR.cmap]; rfl
      · intro τ
        rw [hsols', hR.mem, hri]
        simp only [List.mem_append, List.mem_singleton]
        constructor
        · rintro ⟨⟨h1, h2⟩, h3⟩
          refine ⟨h1, ?_⟩
          rintro q (hq | rfl)
          · exact h2 q hq
          · exact h3
        · rintro ⟨h1, h2⟩
          exact ⟨⟨h1, fun q hq => h2 q (Or.inl hq)⟩, h2 p (Or.inr rfl)⟩
    have happ : before ++ [p] ++ todo = before ++ p :: todo := by simp
    obtain ⟨rest, hrest, hfull, hpw, hmem⟩ := ih (before ++ [p]) node' (e ∘ e') (f ∘ f') hR'
      (by rw [happ]; exact hform) (by rw [happ]; exact hnd) (by rw [happ]; exact hall)
    obtain ⟨w, hw, hwg, hwt⟩ := hS.cost
    have hcostn : node.cost = fin w := hR.cost.trans hw
    have hp1 : p.1 = dualOf ar s p.2.1 (ρ p.2.1) := congrArg Prod.fst hp
    by_cases hlt : p.1.lt pinf = true
    · -- the partition is pushed
      obtain ⟨d, hd, hdg, hdW⟩ : ∃ d, p.1 = fin d ∧ OnGrid D d ∧ |d| ≤ (8 * m + 12) * S := by
        rcases hS.dualC p.2.1 with h | ⟨d, h, h'⟩
        · rw [hp1, h] at hlt; cases hlt
        · exact ⟨d, by rw [hp1, h], h'⟩
      have hwS : |w| ≤ n * S := by
        have h1 := total_le hE.scaled (hs.sols_fin hS.mem)
        have e : w = (w - total A σ) + total A σ := by ring
        have h2 := abs_add_le (w - total A σ) (total A σ)
        rw [← e] at h2
        have h3 : (0 : ℚ) ≤ n * δ := mul_nonneg (Nat.cast_nonneg n) hE.rounds.nn
        rw [hE.hS]; linarith
      obtain ⟨q, hq1, hq2, hq3, hq4⟩ := partitionWithout_spec hE hR.ok i j w d hcostn hwg hwS hdg hdW (by
        intro τ hτ hne
        rw [← hij, hri] at hne
        obtain ⟨d', hd', hle⟩ := hS.dual p.2.1 τ ((hR.mem τ).1 hτ).1 hne
        rw [← hp1, hd] at hd'
        injection hd' with hd'
        rw [hd']
        rw [abs_le] at hwt
        unfold lowErr
        linarith [hwt.2])
      refine ⟨q :: rest, ?_, ?_, ?_, ?_⟩
      · simp only [parts, hidx, hrun, hrest, hlt, if_true]
        rw [hd, hq1]; rfl
      · intro x hx
        rcases List.mem_cons.1 hx with rfl | hx
        · exact hq2
        · exact hfull x hx
      · refine List.Pairwise.cons ?_ hpw
        rintro x hx τ ⟨h1, h2⟩
        have h3 := ((hmem τ).1 ⟨x, hx, h2⟩).1
        have h4 := ((hsols' τ).1 h3).2
        exact ((hq4 τ).1 h1).2 (by rw [h4, hij])
      · intro τ
        constructor
        · rintro ⟨x, hx, hτ⟩
          rcases List.mem_cons.1 hx with rfl | hx
          · obtain ⟨h1, h2⟩ := (hq4 τ).1 hτ
            refine ⟨h1, ?_⟩
            rintro rfl
            exact h2 hij
          · obtain ⟨h1, h2⟩ := (hmem τ).1 ⟨x, hx, hτ⟩
            exact ⟨((hsols' τ).1 h1).1, h2⟩
        · rintro ⟨h1, h2⟩
          by_cases h3 : τ (node.rmap i) = node.cmap j
          · obtain ⟨x, hx, hx'⟩ := (hmem τ).2 ⟨(hsols' τ).2 ⟨h1, by rw [h3, hij]⟩, h2⟩
            exact ⟨x, List.mem_cons_of_mem _ hx, hx'⟩
          · exact ⟨q, List.mem_cons_self, (hq4 τ).2 ⟨h1, h3⟩⟩
    · -- nothing to push: no other entry can be used in this row
      have hlt' : p.1.lt pinf = false := by simpa using hlt
      refine ⟨rest, ?_, hfull, hpw, ?_⟩
      · simp only [parts, hidx, hrun, hrest, hlt']
        rfl
      · intro τ
        rw [hmem]
        constructor
        · rintro ⟨h1, h2⟩
          exact ⟨((hsols' τ).1 h1).1, h2⟩
        · rintro ⟨h1, h2⟩
          refine ⟨(hsols' τ).2 ⟨h1, ?_⟩, h2⟩
          by_contra h3
          rw [hri] at h3
          obtain ⟨d, hd, _⟩ := hS.dual p.2.1 τ ((hR.mem τ).1 h1).1 h3
          rw [← hp1] at hd
          rw [hd] at hlt'
          cases hlt'

end Verif.MurtyF

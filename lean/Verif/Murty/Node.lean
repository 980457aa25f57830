import Verif.Murty.Model
import Verif.Lap.Props
import Mathlib.Algebra.BigOperators.Fin
import Mathlib.Order.Fin.Basic

/-! # The assignments represented by a node of the Murty queue -/

namespace Verif.Murty

open Verif.Lap XR

variable {n m : Nat}

/-- The assignments of the (shifted) matrix `A` that node `s` stands for: bound rows as in `sol`,
the others over the finite entries of the node's matrix. -/
def Sols (A : Cost n m) (s : Node n m) (τ : Fin n → Fin m) : Prop :=
  Function.Injective τ ∧
  (∀ k, k ∉ Set.range s.rmap → s.sol k = some (τ k) ∧ IsFin (A k (τ k))) ∧
  ∀ a, ∃ b, τ (s.rmap a) = s.cmap b ∧ IsFin (s.C a b)

/-- Structural invariant of a node. -/
structure Ok (A : Cost n m) (s : Node n m) : Prop where
  rinj : Function.Injective s.rmap
  cinj : Function.Injective s.cmap
  costOk : CostOk s.C
  entry : ∀ a b, IsFin (s.C a b) → s.C a b = A (s.rmap a) (s.cmap b)
  bnd : ∀ k, k ∉ Set.range s.rmap →
    ∃ l, s.sol k = some l ∧ l ∉ Set.range s.cmap ∧ IsFin (A k l)
  bndInj : ∀ k k', k ∉ Set.range s.rmap → k' ∉ Set.range s.rmap → s.sol k = s.sol k' → k = k'
  bcost : ∃ β, s.bound = fin β ∧
    ∀ τ, Sols A s τ → total A τ = β + ∑ a, (A (s.rmap a) (τ (s.rmap a))).val
  small : s.r ≤ n

/-- A node whose cost is a finite lower bound. -/
def Low (A : Cost n m) (s : Node n m) : Prop :=
  ∃ c, s.cost = fin c ∧ ∀ τ, Sols A s τ → c ≤ total A τ

/-- What holds for a solved node. -/
structure Solved (A : Cost n m) (s : Node n m) (σ : Fin n → Fin m) (ρ : Fin s.r → Fin s.c) :
    Prop where
  mem : Sols A s σ
  sol : ∀ k, s.sol k = some (σ k)
  res : ∀ a, s.res a = some (ρ a)
  comm : ∀ a, σ (s.rmap a) = s.cmap (ρ a)
  cost : s.cost = fin (total A σ)
  best : ∀ τ, Sols A s τ → total A σ ≤ total A τ
  dualC : ∀ a, IsC (dualOf s a (ρ a))
  dual : ∀ a τ, Sols A s τ → τ (s.rmap a) ≠ σ (s.rmap a) →
    ∃ d, dualOf s a (ρ a) = fin d ∧ total A σ + d ≤ total A τ

/-- Invariant of the nodes in the queue. -/
structure Full (A : Cost n m) (s : Node n m) : Prop where
  ok : Ok A s
  low : Low A s
  solved : s.solved = true → ∃ σ ρ, Solved A s σ ρ

/-! ## Sub-assignments -/

/-- An assignment of the node gives a feasible assignment of the node's matrix. -/
theorem Sols.sub {A : Cost n m} {s : Node n m} (h : Ok A s) {τ : Fin n → Fin m}
    (hτ : Sols A s τ) : ∃ τ' : Fin s.r → Fin s.c, Feasible s.C τ' ∧
      ∀ a, τ (s.rmap a) = s.cmap (τ' a) := by
  choose τ' h1 h2 using hτ.2.2
  refine ⟨τ', ⟨?_, h2⟩, h1⟩
  intro a a' e
  apply h.rinj
  apply hτ.1
  rw [h1, h1, e]

/-- A feasible assignment of the node's matrix extends to one of the node. -/
theorem Ok.extend {A : Cost n m} {s : Node n m} (h : Ok A s) {τ' : Fin s.r → Fin s.c}
    (hτ : Feasible s.C τ') : ∃ τ, Sols A s τ ∧ ∀ a, τ (s.rmap a) = s.cmap (τ' a) := by
  classical
  have key : ∀ k, ∃ l, (∀ a, s.rmap a = k → l = s.cmap (τ' a)) ∧
      (k ∉ Set.range s.rmap → s.sol k = some l ∧ l ∉ Set.range s.cmap ∧ IsFin (A k l)) := by
    intro k
    by_cases hk : k ∈ Set.range s.rmap
    · obtain ⟨a, rfl⟩ := hk
      refine ⟨s.cmap (τ' a), ?_, fun hn => absurd ⟨a, rfl⟩ hn⟩
      intro a' e
      rw [h.rinj e]
    · obtain ⟨l, hl⟩ := h.bnd k hk
      exact ⟨l, fun a e => absurd ⟨a, e⟩ hk, fun _ => hl⟩
  choose τ h1 h2 using key
  have hc : ∀ a, τ (s.rmap a) = s.cmap (τ' a) := fun a => h1 _ a rfl
  refine ⟨τ, ⟨?_, fun k hk => ⟨(h2 k hk).1, (h2 k hk).2.2⟩, fun a => ⟨τ' a, hc a, hτ.2 a⟩⟩, hc⟩
  intro k k' e
  by_cases hk : k ∈ Set.range s.rmap <;> by_cases hk' : k' ∈ Set.range s.rmap
  · obtain ⟨a, rfl⟩ := hk
    obtain ⟨a', rfl⟩ := hk'
    rw [hc, hc] at e
    rw [hτ.1 (h.cinj e)]
  · obtain ⟨a, rfl⟩ := hk
    rw [hc] at e
    exact absurd ⟨_, e⟩ (h2 k' hk').2.1
  · obtain ⟨a, rfl⟩ := hk'
    rw [hc] at e
    exact absurd ⟨_, e.symm⟩ (h2 k hk).2.1
  · apply h.bndInj k k' hk hk'
    rw [(h2 k hk).1, (h2 k' hk').1, e]

/-- Total cost of an assignment of the node. -/
theorem Ok.total_eq {A : Cost n m} {s : Node n m} (h : Ok A s) :
    ∃ β, s.bound = fin β ∧ ∀ τ, Sols A s τ → ∀ τ' : Fin s.r → Fin s.c, Feasible s.C τ' →
      (∀ a, τ (s.rmap a) = s.cmap (τ' a)) → total A τ = β + total s.C τ' := by
  obtain ⟨β, h1, h2⟩ := h.bcost
  refine ⟨β, h1, ?_⟩
  intro τ hτ τ' hf hc
  rw [h2 τ hτ]
  unfold total
  congr 1
  apply Finset.sum_congr rfl
  intro a _
  rw [hc a, h.entry a _ (hf.2 a)]

/-! ## The dual of a row -/

/-- The fold of `dualOf`: the minimum of the values of the admitted columns. -/
theorem dualOf_fold (s : Node n m) (i : Fin s.r) (j0 : Fin s.c)
    (hH : ∀ j, j ≠ j0 → IsFin (s.C i j) →
      (∃ q, ((s.C i j).sub (s.u i)).sub (s.v j) = fin q) ∨
      ((s.C i j).sub (s.u i)).sub (s.v j) = pinf ∨
      ((s.C i j).sub (s.u i)).sub (s.v j) = nan)
    (hC : ∀ j, IsC (s.C i j)) (l : List (Fin s.c)) :
    ∀ acc, IsC acc →
      let out := l.foldl (fun acc j =>
        if j = j0 then acc
        else if XR.pinf.le (s.C i j) then acc
        else
          let h := ((s.C i j).sub (s.u i)).sub (s.v j)
          if h.lt acc then h else acc) acc
      IsC out ∧ Le out acc ∧ ∀ j ∈ l, j ≠ j0 → IsFin (s.C i j) → ∀ q,
        ((s.C i j).sub (s.u i)).sub (s.v j) = fin q → Le out (fin q) := by
  induction l with
  | nil => intro acc h; exact ⟨h, Le.refl h, by simp⟩
  | cons j l ih =>
    intro acc hacc
    simp only [List.foldl_cons]
    by_cases hj : j = j0
    · rw [if_pos hj]
      obtain ⟨h1, h2, h3⟩ := ih acc hacc
      refine ⟨h1, h2, ?_⟩
      intro j' hj' hne hf q hq
      rcases List.mem_cons.1 hj' with rfl | hj'
      · exact absurd hj hne
      · exact h3 j' hj' hne hf q hq
    · rw [if_neg hj]
      rcases hC j with hp | hf
      · rw [if_pos (by rw [hp]; rfl)]
        obtain ⟨h1, h2, h3⟩ := ih acc hacc
        refine ⟨h1, h2, ?_⟩
        intro j' hj' hne hf q hq
        rcases List.mem_cons.1 hj' with rfl | hj'
        · rw [hp] at hf; exact absurd hf not_isFin_pinf
        · exact h3 j' hj' hne hf q hq
      · have hle : XR.pinf.le (s.C i j) = false := by
          obtain ⟨c, hc⟩ := hf
          rw [hc]; rfl
        rw [if_neg (by rw [hle]; simp)]
        set h := ((s.C i j).sub (s.u i)).sub (s.v j) with hdef
        have key : IsC (if h.lt acc then h else acc) ∧
            Le (if h.lt acc then h else acc) acc ∧
            ∀ q, h = fin q → Le (if h.lt acc then h else acc) (fin q) := by
          rcases hH j hj hf with ⟨q, hq⟩ | hq | hq <;> rw [← hdef] at hq
          · have hq' : IsC h := Or.inr ⟨q, hq⟩
            by_cases hlt : h.lt acc = true
            · rw [if_pos hlt]
              refine ⟨hq', ?_, fun q hq => ?_⟩
              · rcases Le.total hq' hacc with h' | h'
                · exact h'
                · exact absurd h' ((lt_iff_not_le hq' hacc).1 hlt)
              · rw [← hq]; exact Le.refl hq'
            · rw [if_neg hlt]
              refine ⟨hacc, Le.refl hacc, fun q hq => ?_⟩
              rw [← hq]
              by_contra hn
              exact hlt ((lt_iff_not_le hq' hacc).2 hn)
          · have : h.lt acc = false := by rw [hq]; simp
            rw [this, if_neg (by simp)]
            exact ⟨hacc, Le.refl hacc, fun q h' => by rw [hq] at h'; cases h'⟩
          · have : h.lt acc = false := by rw [hq]; cases acc <;> rfl
            rw [this, if_neg (by simp)]
            exact ⟨hacc, Le.refl hacc, fun q h' => by rw [hq] at h'; cases h'⟩
        obtain ⟨h1, h2, h3⟩ := ih _ key.1
        refine ⟨h1, h2.trans key.2.1, ?_⟩
        intro j' hj' hne hf q hq
        rcases List.mem_cons.1 hj' with rfl | hj'
        · exact h2.trans (key.2.2 q hq)
        · exact h3 j' hj' hne hf q hq

/-- The dual of row `i` with the duals of a solved matrix. -/
theorem dualOf_spec (s : Node n m) (hC : CostOk s.C) {σ : Fin s.r → Fin s.c}
    (hD : Duals s.C σ s.u s.v) (i : Fin s.r) :
    IsC (dualOf s i (σ i)) ∧ ∀ τ, Feasible s.C τ → τ i ≠ σ i →
      ∃ d, dualOf s i (σ i) = fin d ∧ d ≤ slack s.C s.v σ τ i := by
  have hH : ∀ j, j ≠ σ i → IsFin (s.C i j) →
      (∃ q, ((s.C i j).sub (s.u i)).sub (s.v j) = fin q) ∨
      ((s.C i j).sub (s.u i)).sub (s.v j) = pinf ∨
      ((s.C i j).sub (s.u i)).sub (s.v j) = nan := by
    intro j _ hf
    obtain ⟨c, hc⟩ := hf
    rcases hD.uform i with ⟨e, _⟩ | ⟨a, q, c', e, _⟩
    · have := hD.forcedCols i j e ⟨c, hc⟩
      rw [hc, e, this]
      exact Or.inr (Or.inr rfl)
    · rw [hc, e]
      rcases hD.vform j with e' | ⟨q', e', _⟩
      · rw [e']; exact Or.inr (Or.inl rfl)
      · rw [e']; exact Or.inl ⟨_, rfl⟩
  obtain ⟨h1, _, h3⟩ := dualOf_fold s i (σ i) hH (hC i) (List.finRange s.c) pinf (Or.inl rfl)
  refine ⟨h1, ?_⟩
  intro τ hτ hne
  rcases hD.uform i with ⟨e, _⟩ | ⟨a, q, c', e, eq, ec, hsum⟩
  · exact absurd (hD.forced i e τ hτ) hne
  · have hv := hD.unforced i a e τ hτ
    obtain ⟨q', hq', _⟩ := (hD.vform (τ i)).resolve_left hv
    obtain ⟨c, hc⟩ := hτ.2 i
    have hh : ((s.C i (τ i)).sub (s.u i)).sub (s.v (τ i)) = fin (c - a - q') := by
      rw [hc, e, hq']; rfl
    obtain ⟨d, hd, hle⟩ := h3 (τ i) (List.mem_finRange _) hne ⟨c, hc⟩ _ hh _ rfl
    refine ⟨d, hd, ?_⟩
    unfold slack
    rw [hc, ec, eq, hq', val_fin, val_fin, val_fin, val_fin]
    linarith

/-! ## Solving -/

theorem fill_spec {r c : Nat} (C : Cost r c) (res : Fin r → Option (Fin c)) (rmap : Fin r → Fin n)
    (cmap : Fin c → Fin m) (ρ : Fin r → Fin c) (hres : ∀ a, res a = some (ρ a))
    (hinj : Function.Injective rmap) (hfin : ∀ a, IsFin (C a (ρ a))) (l : List (Fin r)) :
    ∀ sol q, l.Nodup → ∃ sol', fill C res rmap cmap l sol (fin q) =
      some (sol', fin (q + (l.map fun a => (C a (ρ a)).val).sum)) ∧
      (∀ a ∈ l, sol' (rmap a) = some (cmap (ρ a))) ∧
      (∀ k, (∀ a ∈ l, rmap a ≠ k) → sol' k = sol k) := by
  induction l with
  | nil => intro sol q _; exact ⟨sol, by simp [fill], by simp, by simp⟩
  | cons a l ih =>
    intro sol q hnd
    rw [List.nodup_cons] at hnd
    obtain ⟨x, hx⟩ := hfin a
    obtain ⟨sol', h1, h2, h3⟩ :=
      ih (Function.update sol (rmap a) (some (cmap (ρ a)))) (q + x) hnd.2
    refine ⟨sol', ?_, ?_, ?_⟩
    · simp only [fill, hres a, hx, add_fin_fin, h1, List.map_cons, List.sum_cons, val_fin]
      rw [_root_.add_assoc]
    · intro a' ha'
      rcases List.mem_cons.1 ha' with rfl | ha'
      · rw [h3 _ (fun a'' h'' e => hnd.1 (by rw [← hinj e]; exact h'')), Function.update_self]
      · exact h2 a' ha'
    · intro k hk
      rw [h3 k (fun a' h' => hk a' (List.mem_cons_of_mem _ h')),
        Function.update_of_ne (fun e => hk a List.mem_cons_self e.symm)]

/-- `Sols` depends on the solution vector only at bound rows. -/
theorem sols_congr {A : Cost n m} {s s' : Node n m} (hr : s'.r = s.r) (hc : s'.c = s.c)
    (h1 : HEq s'.C s.C) (h2 : HEq s'.rmap s.rmap) (h3 : HEq s'.cmap s.cmap)
    (h4 : ∀ k, k ∉ Set.range s.rmap → s'.sol k = s.sol k) (τ : Fin n → Fin m) :
    Sols A s' τ ↔ Sols A s τ := by
  obtain ⟨r, c, C, u, v, cost, bound, solved, sol, res, rmap, cmap⟩ := s
  obtain ⟨r', c', C', u', v', cost', bound', solved', sol', res', rmap', cmap'⟩ := s'
  simp only at hr hc
  subst hr hc
  simp only [heq_eq_eq] at h1 h2 h3
  subst h1 h2 h3
  unfold Sols
  simp only at h4 ⊢
  refine and_congr Iff.rfl (and_congr ?_ Iff.rfl)
  constructor
  · intro h k hk
    rw [← h4 k hk]; exact h k hk
  · intro h k hk
    rw [h4 k hk]; exact h k hk

/-- `solve` on an unsolved node. -/
theorem solve_spec {A : Cost n m} {s : Node n m} (h : Ok A s) (hn : n ≤ 30) :
    ∃ F s' b, (∀ fuel, F ≤ fuel → solve fuel s = some (s', b)) ∧
      (b = false → ∀ τ, ¬ Sols A s τ) ∧
      (b = true → Full A s' ∧ s'.solved = true ∧ ∀ τ, Sols A s' τ ↔ Sols A s τ) := by
  obtain ⟨F, b, out, hrun, hiff, _, hres⟩ := lap_spec h.costOk (h.small.trans hn)
  cases b with
  | false =>
    refine ⟨F, _, false, fun fuel hf => by simp only [solve, hrun fuel hf]; rfl, ?_, by simp⟩
    intro _ τ hτ
    obtain ⟨τ', hf, _⟩ := hτ.sub h
    exact Bool.false_ne_true (hiff.2 ⟨τ', hf⟩)
  | true =>
    obtain ⟨ρ, h1, h2, h3, _, h5, h6⟩ := hres rfl
    obtain ⟨β, hb1, hb2⟩ := h.total_eq
    obtain ⟨sol', hs1, hs2, hs3⟩ := fill_spec s.C out.rowsol s.rmap s.cmap ρ h1 h.rinj h2.2
      (List.finRange s.r) s.sol β (List.nodup_finRange _)
    have hsum : β + ((List.finRange s.r).map fun a => (s.C a (ρ a)).val).sum =
        β + total s.C ρ := by
      unfold total
      rw [Fin.sum_univ_def]
    rw [hsum, ← hb1] at hs1
    set s' : Node n m := { s with u := out.u, v := out.v, res := out.rowsol, solved := true,
                                  sol := sol', cost := fin (β + total s.C ρ) } with hs'
    have hsols : ∀ τ, Sols A s' τ ↔ Sols A s τ := by
      intro τ
      refine sols_congr (s := s) (s' := s') rfl rfl HEq.rfl HEq.rfl HEq.rfl ?_ τ
      intro k hk
      exact hs3 k (fun a _ e => hk ⟨a, e⟩)
    have hsol' : ∀ k, k ∉ Set.range s.rmap → sol' k = s.sol k :=
      fun k hk => hs3 k (fun a _ e => hk ⟨a, e⟩)
    have hok : Ok A s' := by
      refine ⟨h.rinj, h.cinj, h.costOk, h.entry, ?_, ?_, ?_, h.small⟩
      · intro k hk
        obtain ⟨l, hl⟩ := h.bnd k hk
        exact ⟨l, (hsol' k hk).trans hl.1, hl.2⟩
      · intro k k' hk hk' e
        refine h.bndInj k k' hk hk' ?_
        rw [← hsol' k hk, ← hsol' k' hk']; exact e
      · obtain ⟨β', hβ, hβ'⟩ := h.bcost
        exact ⟨β', hβ, fun τ hτ => hβ' τ ((hsols τ).1 hτ)⟩
    obtain ⟨σ, hσ, hσc⟩ := h.extend h2
    have hσt : total A σ = β + total s.C ρ := hb2 σ hσ ρ h2 hσc
    refine ⟨F, s', true, ?_, by simp, ?_⟩
    · intro fuel hf
      simp only [solve, hrun fuel hf, hs1]
      rfl
    · intro _
      have hbest : ∀ τ, Sols A s τ → total A σ ≤ total A τ := by
        intro τ hτ
        obtain ⟨τ', hf, hc⟩ := hτ.sub h
        rw [hσt, hb2 τ hτ τ' hf hc]
        have := h3 τ' hf
        linarith
      have hdual := fun a => dualOf_spec s' h.costOk (σ := ρ) h5 a
      refine ⟨⟨hok, ⟨_, rfl, ?_⟩, ?_⟩, rfl, hsols⟩
      · intro τ hτ
        rw [← hσt]; exact hbest τ ((hsols τ).1 hτ)
      · intro _
        refine ⟨σ, ρ, ⟨(hsols σ).2 hσ, ?_, h1, hσc, ?_, ?_, fun a => (hdual a).1, ?_⟩⟩
        · intro k
          by_cases hk : k ∈ Set.range s.rmap
          · obtain ⟨a, rfl⟩ := hk
            rw [hσc a]
            exact hs2 a (List.mem_finRange _)
          · rw [← (hσ.2.1 k hk).1]
            exact hsol' k hk
        · rw [hσt]
        · intro τ hτ
          exact hbest τ ((hsols τ).1 hτ)
        · intro a τ hτ hne
          have hτ := (hsols τ).1 hτ
          obtain ⟨τ', hf, hc⟩ := hτ.sub h
          have hne' : τ' a ≠ ρ a := by
            intro e
            apply hne
            change τ (s.rmap a) = σ (s.rmap a)
            rw [hc a, hσc a, e]
          obtain ⟨d, hd, hle⟩ := (hdual a).2 τ' hf hne'
          refine ⟨d, hd, ?_⟩
          rw [hσt, hb2 τ hτ τ' hf hc]
          have := h6 τ' hf a
          have hle' : d ≤ slack s.C out.v ρ τ' a := hle
          linarith

end Verif.Murty

import Verif.MurtyF.Model
import Verif.Murty.Parts
import Verif.LapF.Props

/-! # Nodes of the Murty queue in rounded arithmetic -/

namespace Verif.MurtyF

open Verif.Lap Verif.Lap.XR Verif.LapF Verif.Murty

variable {n m : Nat}

/-- What is assumed of the arithmetic and of the (shifted) matrix. -/
structure Env (ar : Arith) (A : Cost n m) (D : Nat) (R K δ S : ℚ) : Prop where
  rounds : Rounds ar D R δ
  ok : CostOk A
  scaled : Scaled A D K
  hS : S = K + 2 * δ
  hR : (10 * m + 2 * n + 20) * S ≤ R

/-- Error of the bounds in the queue. -/
def lowErr (n : Nat) (δ : ℚ) : ℚ := 2 * n * slackBound n δ + (3 * n + 4) * δ

/-- Structural invariant of a node: that of the exact model for a node with the exact bound, and the
stored bound is near. -/
def Ok (A : Cost n m) (D : Nat) (K δ : ℚ) (s : Node n m) : Prop :=
  ∃ β β₀, s.bound = fin β ∧ OnGrid D β ∧ |β - β₀| ≤ (n - s.r) * δ ∧ |β₀| ≤ (n - s.r) * K ∧
    Murty.Ok A { s with bound := fin β₀ }

/-- A finite number within range, or `+inf`. -/
def InR (D : Nat) (W : ℚ) (x : XR) : Prop := x = pinf ∨ ∃ q, x = fin q ∧ OnGrid D q ∧ |q| ≤ W

theorem InR.isC {D : Nat} {W : ℚ} {x : XR} (h : InR D W x) : IsC x :=
  h.imp id fun ⟨q, hq, _⟩ => ⟨q, hq⟩

/-- A node whose cost is nearly a lower bound. -/
def Low (A : Cost n m) (δ : ℚ) (s : Node n m) : Prop :=
  ∃ c, s.cost = fin c ∧ ∀ τ, Sols A s τ → c ≤ total A τ + lowErr n δ

/-- What holds for a solved node. -/
structure Solved (ar : Arith) (A : Cost n m) (D : Nat) (S δ : ℚ) (s : Node n m)
    (σ : Fin n → Fin m) (ρ : Fin s.r → Fin s.c) : Prop where
  mem : Sols A s σ
  sol : ∀ k, s.sol k = some (σ k)
  res : ∀ a, s.res a = some (ρ a)
  comm : ∀ a, σ (s.rmap a) = s.cmap (ρ a)
  cost : ∃ w, s.cost = fin w ∧ OnGrid D w ∧ |w - total A σ| ≤ n * δ
  best : ∀ τ, Sols A s τ → total A σ ≤ total A τ + 2 * n * slackBound n δ
  dualC : ∀ a, InR D ((8 * m + 12) * S) (dualOf ar s a (ρ a))
  dual : ∀ a τ, Sols A s τ → τ (s.rmap a) ≠ σ (s.rmap a) →
    ∃ d, dualOf ar s a (ρ a) = fin d ∧
      total A σ + d ≤ total A τ + (2 * n * (slackBound n δ + δ) + 3 * δ)

/-- Invariant of the nodes in the queue. -/
structure Full (ar : Arith) (A : Cost n m) (D : Nat) (K δ S : ℚ) (s : Node n m) : Prop where
  ok : Ok A D K δ s
  low : Low A δ s
  solved : s.solved = true → ∃ σ ρ, Solved ar A D S δ s σ ρ

/-! ## Sizes -/

theorem slackBound_mono {r : Nat} {δ : ℚ} (hδ : 0 ≤ δ) (h : r ≤ n) :
    slackBound r δ ≤ slackBound n δ := by
  unfold slackBound
  have h1 : ((r : ℚ) + 4) ^ r ≤ ((n : ℚ) + 4) ^ r :=
    pow_le_pow_left₀ (by positivity) (by have : (r : ℚ) ≤ n := by exact_mod_cast h
                                         linarith) _
  have h2 : ((n : ℚ) + 4) ^ r ≤ ((n : ℚ) + 4) ^ n :=
    pow_le_pow_right₀ (by have : (0 : ℚ) ≤ n := Nat.cast_nonneg n
                          linarith) h
  have := h1.trans h2
  exact mul_le_mul_of_nonneg_right (by linarith) hδ

theorem slackBound_nonneg {δ : ℚ} (hδ : 0 ≤ δ) : 0 ≤ slackBound n δ := by
  unfold slackBound; positivity

theorem Env.S_nonneg {ar : Arith} {A : Cost n m} {D : Nat} {R K δ S : ℚ}
    (h : Env ar A D R K δ S) : 0 ≤ S := by
  have := h.scaled.nn
  have := h.rounds.nn
  rw [h.hS]; linarith

/-- Everything up to this size is in the range of the arithmetic. -/
theorem Env.range {ar : Arith} {A : Cost n m} {D : Nat} {R K δ S : ℚ}
    (h : Env ar A D R K δ S) {x t : ℚ} (hx : |x| ≤ t * S) (ht : t ≤ 10 * m + 2 * n + 20) :
    |x| ≤ R :=
  hx.trans ((mul_le_mul_of_nonneg_right ht h.S_nonneg).trans h.hR)

/-- The entries of a node satisfy the assumptions of the solver. -/
theorem Ok.env {ar : Arith} {A : Cost n m} {D : Nat} {R K δ S : ℚ} (hE : Env ar A D R K δ S)
    {s : Node n m} (h : Ok A D K δ s) : LapF.Env ar s.C D R K δ S := by
  obtain ⟨β, β₀, _, _, _, _, h0⟩ := h
  have hc : s.c ≤ m := by
    have := Fintype.card_le_of_injective _ h0.cinj
    simpa using this
  refine ⟨hE.rounds, h0.costOk, ⟨hE.scaled.nn, ?_, ?_⟩, hE.hS, ?_⟩
  · intro i j q hq
    refine hE.scaled.int (s.rmap i) (s.cmap j) q ?_
    rw [← hq]; exact (h0.entry i j ⟨q, hq⟩).symm
  · intro i j q hq
    refine hE.scaled.le (s.rmap i) (s.cmap j) q ?_
    rw [← hq]; exact (h0.entry i j ⟨q, hq⟩).symm
  · have hc' : (s.c : ℚ) ≤ m := by exact_mod_cast hc
    have hn0 : (0 : ℚ) ≤ n := Nat.cast_nonneg n
    exact (mul_le_mul_of_nonneg_right (by linarith) hE.S_nonneg).trans hE.hR

theorem total_le {A : Cost n m} {D : Nat} {K : ℚ} (hs : Scaled A D K) {τ : Fin n → Fin m}
    (hf : ∀ i, IsFin (A i (τ i))) : |total A τ| ≤ n * K := by
  unfold total
  refine (Finset.abs_sum_le_sum_abs _ _).trans ?_
  have := Finset.sum_le_card_nsmul Finset.univ (fun i => |(A i (τ i)).val|) K (by
    intro i _
    obtain ⟨q, hq⟩ := hf i
    rw [hq]; exact hs.le _ _ q hq)
  rw [Finset.card_univ, Fintype.card_fin, nsmul_eq_mul] at this
  exact this

theorem Ok.sols_fin {A : Cost n m} {D : Nat} {K δ : ℚ} {s : Node n m} (h : Ok A D K δ s)
    {τ : Fin n → Fin m} (hτ : Sols A s τ) : ∀ i, IsFin (A i (τ i)) := by
  obtain ⟨β, β₀, _, _, _, _, h0⟩ := h
  intro i
  by_cases hk : i ∈ Set.range s.rmap
  · obtain ⟨a, rfl⟩ := hk
    obtain ⟨b, hb1, hb2⟩ := hτ.2.2 a
    rw [hb1]
    have := h0.entry a b hb2
    change s.C a b = A (s.rmap a) (s.cmap b) at this
    rw [← this]; exact hb2
  · exact (hτ.2.1 i hk).2

/-! ## The duals certify the slack of a row -/

/-- Replacing one row's column costs at least its slack, up to the error of the duals. -/
theorem Result.slack_le {C : Cost n m} {D : Nat} {K δ : ℚ} {sol : Sol n m} {σ : Fin n → Fin m}
    (h : Result C D K δ sol σ) (hδ : 0 ≤ δ) {τ : Fin n → Fin m} (hτ : Feasible C τ) (k : Fin n) :
    total C σ + slack C sol.v σ τ k ≤ total C τ + 2 * n * (slackBound n δ + δ) := by
  have hsb := slackBound_nonneg (n := n) hδ
  set ε := slackBound n δ + δ with hε
  have hε0 : 0 ≤ ε := by linarith
  have e1 := total_slack_eq C sol.v σ τ
  have e2 := prices_le (v := sol.v) h.feas.1 hτ.1 h.vfree
  have hsl : ∀ i, -ε ≤ slack C sol.v σ τ i := by
    intro i
    by_cases hu : sol.u i = pinf
    · unfold slack
      rw [h.forced i hu τ hτ]; linarith
    · obtain ⟨a, r, d, ha, hr, hd, hclose⟩ := (h.uform i).resolve_left (fun e => hu e.1)
      obtain ⟨q, hq, _⟩ := (h.vform (τ i)).resolve_left (h.unforced i hu τ hτ)
      obtain ⟨c, hc⟩ := hτ.2 i
      have := h.below i (τ i) a q c ha hq hc
      unfold slack
      rw [hc, hd, hr, hq, val_fin, val_fin, val_fin, val_fin]
      rw [abs_le] at hclose
      linarith [hclose.1]
  have e3 : slack C sol.v σ τ k - n * ε ≤ ∑ i, slack C sol.v σ τ i := by
    have h1 : ∑ i, (slack C sol.v σ τ i + ε) = ∑ i, slack C sol.v σ τ i + n * ε := by
      rw [Finset.sum_add_distrib]
      simp
    have h2 := Finset.single_le_sum (f := fun i => slack C sol.v σ τ i + ε) (s := Finset.univ)
      (fun i _ => by have := hsl i; linarith) (Finset.mem_univ k)
    linarith
  have e4 : ∑ i, max (sol.v (σ i)).val 0 ≤ n * ε := by
    have := Finset.sum_le_card_nsmul Finset.univ (fun i => max (sol.v (σ i)).val 0) ε (by
      intro i _
      refine max_le ?_ hε0
      rcases h.vform (σ i) with e | ⟨q, e, h', _⟩
      · rw [e]; exact hε0
      · rw [e, val_fin]; linarith)
    rw [Finset.card_univ, Fintype.card_fin, nsmul_eq_mul] at this
    exact this
  linarith

/-! ## The dual of a row -/

/-- The fold of `dualOf`: the minimum of the values of the admitted columns. -/
theorem dualOf_fold {c : Nat} {D : Nat} {W : ℚ} (row h : Fin c → XR) (j0 : Fin c)
    (hH : ∀ j, j ≠ j0 → IsFin (row j) → InR D W (h j) ∨ h j = nan)
    (hC : ∀ j, IsC (row j)) (l : List (Fin c)) :
    ∀ acc, InR D W acc →
      let out := l.foldl (fun acc j =>
        if j = j0 then acc
        else if XR.pinf.le (row j) then acc
        else if (h j).lt acc then h j else acc) acc
      InR D W out ∧ Le out acc ∧ ∀ j ∈ l, j ≠ j0 → IsFin (row j) → ∀ q,
        h j = fin q → Le out (fin q) := by
  induction l with
  | nil => intro acc h; exact ⟨h, Le.refl h.isC, by simp⟩
  | cons j l ih =>
    intro acc hacc
    simp only [List.foldl_cons]
    by_cases hj : j = j0
    · rw [if_pos hj]
      obtain ⟨h1, h2, h3⟩ := ih acc hacc
      refine ⟨h1, h2, ?_⟩
      intro j' hj' hne hf q hq
      rcases List.mem_cons.1 hj' with rfl | hj'
      · exact absurd hj hne
      · exact h3 j' hj' hne hf q hq
    · rw [if_neg hj]
      rcases hC j with hp | hf
      · rw [if_pos (by rw [hp]; rfl)]
        obtain ⟨h1, h2, h3⟩ := ih acc hacc
        refine ⟨h1, h2, ?_⟩
        intro j' hj' hne hf q hq
        rcases List.mem_cons.1 hj' with rfl | hj'
        · rw [hp] at hf; exact absurd hf not_isFin_pinf
        · exact h3 j' hj' hne hf q hq
      · have hle : XR.pinf.le (row j) = false := by
          obtain ⟨c, hc⟩ := hf
          rw [hc]; rfl
        rw [if_neg (by rw [hle]; simp)]
        have key : InR D W (if (h j).lt acc then h j else acc) ∧
            Le (if (h j).lt acc then h j else acc) acc ∧
            ∀ q, h j = fin q → Le (if (h j).lt acc then h j else acc) (fin q) := by
          rcases hH j hj hf with hq | hq
          · by_cases hlt : (h j).lt acc = true
            · rw [if_pos hlt]
              refine ⟨hq, ?_, fun q hq' => ?_⟩
              · rcases Le.total hq.isC hacc.isC with h' | h'
                · exact h'
                · exact absurd h' ((lt_iff_not_le hq.isC hacc.isC).1 hlt)
              · rw [← hq']; exact Le.refl hq.isC
            · rw [if_neg hlt]
              refine ⟨hacc, Le.refl hacc.isC, fun q hq' => ?_⟩
              rw [← hq']
              by_contra hn
              exact hlt ((lt_iff_not_le hq.isC hacc.isC).2 hn)
          · have : (h j).lt acc = false := by rw [hq]; cases acc <;> rfl
            rw [this, if_neg (by simp)]
            exact ⟨hacc, Le.refl hacc.isC, fun q h' => by rw [hq] at h'; cases h'⟩
        obtain ⟨h1, h2, h3⟩ := ih _ key.1
        refine ⟨h1, h2.trans key.2.1, ?_⟩
        intro j' hj' hne hf q hq
        rcases List.mem_cons.1 hj' with rfl | hj'
        · exact h2.trans (key.2.2 q hq)
        · exact h3 j' hj' hne hf q hq

/-- The dual of row `i` with the duals of a solved matrix. -/
theorem dualOf_spec {ar : Arith} {A : Cost n m} {D : Nat} {R K δ S : ℚ}
    (hE : Env ar A D R K δ S) (s : Node n m) (hL : LapF.Env ar s.C D R K δ S) (hc : s.c ≤ m)
    {out : Sol s.r s.c} {σ : Fin s.r → Fin s.c} (hD : Result s.C D K δ out σ)
    (hu : s.u = out.u) (hv : s.v = out.v) (i : Fin s.r) :
    InR D ((8 * m + 12) * S) (dualOf ar s i (σ i)) ∧ ∀ τ, Feasible s.C τ → τ i ≠ σ i →
      ∃ d, dualOf ar s i (σ i) = fin d ∧ d ≤ slack s.C s.v σ τ i + 3 * δ := by
  have hS := hE.S_nonneg
  have hδ := hE.rounds.nn
  have hK := hE.scaled.nn
  have hm0 : (0 : ℚ) ≤ m := Nat.cast_nonneg m
  have hn0 : (0 : ℚ) ≤ n := Nat.cast_nonneg n
  have hc' : (s.c : ℚ) ≤ m := by exact_mod_cast hc
  have hSe := hE.hS
  -- both differences, if they are of finite numbers
  have hsub : ∀ j c a q, s.C i j = fin c → out.u i = fin a → out.v j = fin q →
      ∃ h, ar.sub (ar.sub (s.C i j) (s.u i)) (s.v j) = fin h ∧ |h - (c - a - q)| ≤ 2 * δ ∧
        OnGrid D h ∧ |h| ≤ (8 * m + 12) * S := by
    intro j c a q hC ha hq
    have c1 := hL.scaled.int i j c hC
    have c2 := hL.scaled.le i j c hC
    have cS : |c| ≤ 1 * S := by rw [_root_.one_mul, hSe]; linarith
    obtain ⟨a1, a2⟩ := hD.ugrid i a ha
    have q1 := hD.vgrid j q hq
    have q2 : |q| ≤ (4 * s.c + 4) * (K + 2 * δ) := by
      rcases hD.vform j with e | ⟨q', e, _, h'⟩
      · rw [e] at hq; cases hq
      · rw [e] at hq; injection hq with hq; rw [← hq]; exact h'
    rw [← hSe] at a2 q2
    have a3 : |a| ≤ (4 * m + 5) * S :=
      a2.trans (mul_le_mul_of_nonneg_right (by linarith) hS)
    have q3 : |q| ≤ (4 * m + 4) * S :=
      q2.trans (mul_le_mul_of_nonneg_right (by linarith) hS)
    obtain ⟨x, x1, x2, x3⟩ := hE.rounds.sub c a c1 a1 (hE.range cS (by linarith))
      (hE.range a3 (by linarith))
    have x4 : |x| ≤ (4 * m + 7) * S := by
      have hb : δ ≤ S := by linarith
      have e : x = (x - (c - a)) + c - a := by ring
      calc |x| = |(x - (c - a)) + c - a| := by rw [← e]
        _ ≤ |x - (c - a)| + |c| + |a| := (abs_sub _ _).trans (by linarith [abs_add_le (x - (c - a)) c])
        _ ≤ (4 * m + 7) * S := by linarith
    obtain ⟨y, y1, y2, y3⟩ := hE.rounds.sub x q x3 q1 (hE.range x4 (by linarith))
      (hE.range q3 (by linarith))
    refine ⟨y, ?_, ?_, y3, ?_⟩
    · rw [hu, hv, hC, ha, hq, Arith.sub_fin_fin, x1, Arith.sub_fin_fin, y1]
    · rw [abs_le] at x2 y2 ⊢
      constructor <;> linarith [x2.1, x2.2, y2.1, y2.2]
    · have hb : δ ≤ S := by linarith
      have e : y = (y - (x - q)) + x - q := by ring
      calc |y| = |(y - (x - q)) + x - q| := by rw [← e]
        _ ≤ |y - (x - q)| + |x| + |q| := (abs_sub _ _).trans (by linarith [abs_add_le (y - (x - q)) x])
        _ ≤ (8 * m + 12) * S := by linarith
  have hH : ∀ j, j ≠ σ i → IsFin (s.C i j) →
      InR D ((8 * m + 12) * S) (ar.sub (ar.sub (s.C i j) (s.u i)) (s.v j)) ∨
      ar.sub (ar.sub (s.C i j) (s.u i)) (s.v j) = nan := by
    intro j _ hf
    obtain ⟨c, hc⟩ := hf
    rcases hD.uform i with ⟨e, _⟩ | ⟨a, q, c', e, _⟩
    · have := hD.forcedCols i j e ⟨c, hc⟩
      rw [hc, hu, hv, e, this]
      exact Or.inr rfl
    · rcases hD.vform j with e' | ⟨q', e', _⟩
      · left; left
        obtain ⟨a1, a2⟩ := hD.ugrid i a e
        rw [← hSe] at a2
        have a3 : |a| ≤ (4 * m + 5) * S :=
          a2.trans (mul_le_mul_of_nonneg_right (by linarith) hS)
        have cS : |c| ≤ 1 * S := by
          have := hL.scaled.le i j c hc
          rw [_root_.one_mul, hSe]; linarith
        obtain ⟨x, x1, _⟩ := hE.rounds.sub c a (hL.scaled.int i j c hc) a1
          (hE.range cS (by linarith)) (hE.range a3 (by linarith))
        rw [hc, hu, hv, e, e', Arith.sub_fin_fin, x1]; rfl
      · obtain ⟨h, h1, _, h3, h4⟩ := hsub j c a q' hc e e'
        exact Or.inl (Or.inr ⟨h, h1, h3, h4⟩)
  obtain ⟨h1, _, h3⟩ := dualOf_fold (s.C i)
    (fun j => ar.sub (ar.sub (s.C i j) (s.u i)) (s.v j)) (σ i) hH (hL.ok i) (List.finRange s.c)
    pinf (Or.inl rfl)
  refine ⟨h1, ?_⟩
  intro τ hτ hne
  rcases hD.uform i with ⟨e, _⟩ | ⟨a, q, c', e, eq, ec, hsum⟩
  · exact absurd (hD.forced i e τ hτ) hne
  · have hun : out.u i ≠ pinf := by rw [e]; simp
    obtain ⟨q', hq', _⟩ := (hD.vform (τ i)).resolve_left (hD.unforced i hun τ hτ)
    obtain ⟨c, hc⟩ := hτ.2 i
    obtain ⟨h, g1, g2, _⟩ := hsub (τ i) c a q' hc e hq'
    obtain ⟨d, hd, hle⟩ := h3 (τ i) (List.mem_finRange _) hne ⟨c, hc⟩ h g1 _ rfl
    refine ⟨d, hd, ?_⟩
    unfold slack
    rw [hc, ec, hv, eq, hq', val_fin, val_fin, val_fin, val_fin]
    rw [abs_le] at g2 hsum
    linarith [g2.2, hsum.1]

/-! ## Solving -/

theorem fill_spec {ar : Arith} {A : Cost n m} {D : Nat} {R K δ S : ℚ} (hE : Env ar A D R K δ S)
    {r c : Nat} (C : Cost r c) (hs : Scaled C D K) (res : Fin r → Option (Fin c))
    (rmap : Fin r → Fin n)
    (cmap : Fin c → Fin m) (ρ : Fin r → Fin c) (hres : ∀ a, res a = some (ρ a))
    (hinj : Function.Injective rmap) (hfin : ∀ a, IsFin (C a (ρ a))) (l : List (Fin r)) :
    ∀ sol q q₀ (t : ℕ), l.Nodup → OnGrid D q → |q - q₀| ≤ t * δ → |q₀| ≤ t * K →
      t + l.length ≤ n → ∃ sol' w, fill ar C res rmap cmap l sol (fin q) = some (sol', fin w) ∧
      OnGrid D w ∧
      |w - (q₀ + (l.map fun a => (C a (ρ a)).val).sum)| ≤ (t + l.length : ℕ) * δ ∧
      (∀ a ∈ l, sol' (rmap a) = some (cmap (ρ a))) ∧
      (∀ k, (∀ a ∈ l, rmap a ≠ k) → sol' k = sol k) := by
  have hS := hE.S_nonneg
  have hδ := hE.rounds.nn
  have hK := hE.scaled.nn
  have hSe := hE.hS
  have hm0 : (0 : ℚ) ≤ m := Nat.cast_nonneg m
  have hn0 : (0 : ℚ) ≤ n := Nat.cast_nonneg n
  induction l with
  | nil =>
    intro sol q q₀ t _ hg h1 _ _
    exact ⟨sol, q, by simp [fill], hg, by simpa using h1, by simp, by simp⟩
  | cons a l ih =>
    intro sol q q₀ t hnd hg h1 h2 hlen
    rw [List.nodup_cons] at hnd
    rw [List.length_cons] at hlen
    obtain ⟨x, hx⟩ := hfin a
    have x1 := hs.int _ _ x hx
    have x2 := hs.le _ _ x hx
    have ht : (t : ℚ) ≤ n := by exact_mod_cast (by omega : t ≤ n)
    have hq : |q| ≤ n * S := by
      have e : q = (q - q₀) + q₀ := by ring
      have := abs_add_le (q - q₀) q₀
      rw [← e] at this
      have h3 : (t : ℚ) * δ + t * K ≤ t * S := by
        rw [hSe]; have : (0:ℚ) ≤ t * δ := mul_nonneg (Nat.cast_nonneg t) hδ
        linarith
      have h4 := mul_le_mul_of_nonneg_right ht hS
      linarith
    obtain ⟨y, y1, y2, y3⟩ := hE.rounds.add q x hg x1 (hE.range hq (by linarith))
      (hE.range (t := 1) (by rw [_root_.one_mul, hSe]; linarith) (by linarith))
    obtain ⟨sol', w, g1, g2, g3, g4, g5⟩ :=
      ih (Function.update sol (rmap a) (some (cmap (ρ a)))) y (q₀ + x) (t + 1) hnd.2 y3
        (by
          push_cast
          rw [abs_le] at h1 y2 ⊢
          constructor <;> linarith [h1.1, h1.2, y2.1, y2.2])
        (by
          push_cast
          exact (abs_add_le _ _).trans (by linarith))
        (by omega)
    refine ⟨sol', w, ?_, g2, ?_, ?_, ?_⟩
    · simp only [fill, hres a, hx, Arith.add_fin_fin, y1, g1]
    · rw [List.map_cons, List.sum_cons, hx, val_fin, List.length_cons]
      rw [show t + (l.length + 1) = t + 1 + l.length by omega, ← _root_.add_assoc]
      exact g3
    · intro a' ha'
      rcases List.mem_cons.1 ha' with rfl | ha'
      · rw [g5 _ (fun a'' h'' e => hnd.1 (by rw [← hinj e]; exact h'')), Function.update_self]
      · exact g4 a' ha'
    · intro k hk
      rw [g5 k (fun a' h' => hk a' (List.mem_cons_of_mem _ h')),
        Function.update_of_ne (fun e => hk a List.mem_cons_self e.symm)]

/-- `solve` on an unsolved node. -/
theorem solve_spec {ar : Arith} {A : Cost n m} {D : Nat} {R K δ S : ℚ} (hE : Env ar A D R K δ S)
    {s : Node n m} (h : Ok A D K δ s) (hn : n ≤ 30) :
    ∃ F s' b, (∀ fuel, F ≤ fuel → solve ar fuel s = some (s', b)) ∧
      (b = false → ∀ τ, ¬ Sols A s τ) ∧
      (b = true → Full ar A D K δ S s' ∧ s'.solved = true ∧ ∀ τ, Sols A s' τ ↔ Sols A s τ) := by
  have hL := h.env hE
  obtain ⟨β, β₀, hβ, hβg, hβ1, hβ2, h0⟩ := h
  have hsmall : s.r ≤ n := h0.small
  have hc : s.c ≤ m := by
    have := Fintype.card_le_of_injective _ h0.cinj
    simpa using this
  have hδ := hE.rounds.nn
  have hsb := slackBound_mono hδ hsmall
  have hsb0 := slackBound_nonneg (n := s.r) hδ
  have hrq : (s.r : ℚ) ≤ n := by exact_mod_cast hsmall
  have hr0 : (0 : ℚ) ≤ s.r := Nat.cast_nonneg _
  obtain ⟨F, b, out, hrun, hiff, _, hres⟩ := LapF.lap_spec hL (hsmall.trans hn)
  cases b with
  | false =>
    refine ⟨F, _, false, fun fuel hf => by simp only [solve, hrun fuel hf]; rfl, ?_, by simp⟩
    intro _ τ hτ
    obtain ⟨τ', hf, _⟩ := Sols.sub h0 (show Sols A { s with bound := fin β₀ } τ from hτ)
    exact Bool.false_ne_true (hiff.2 ⟨τ', hf⟩)
  | true =>
    obtain ⟨ρ, hR⟩ := hres rfl
    obtain ⟨β', hb1, hb2⟩ := h0.total_eq
    have hbb : β' = β₀ := XR.fin.inj hb1.symm
    rw [hbb] at hb2
    obtain ⟨sol', w, hs1, hwg, hw, hs2, hs3⟩ := fill_spec hE s.C hL.scaled out.rowsol s.rmap
      s.cmap ρ hR.rows h0.rinj hR.feas.2 (List.finRange s.r) s.sol β β₀ (n - s.r)
      (List.nodup_finRange _) hβg (by rw [Nat.cast_sub hsmall]; exact hβ1)
      (by rw [Nat.cast_sub hsmall]; exact hβ2) (by rw [List.length_finRange]; omega)
    have hsum : β₀ + ((List.finRange s.r).map fun a => (s.C a (ρ a)).val).sum =
        β₀ + total s.C ρ := by
      unfold total
      rw [Fin.sum_univ_def]
    rw [hsum, List.length_finRange, Nat.sub_add_cancel hsmall] at hw
    rw [← hβ] at hs1
    set s' : Node n m := { s with u := out.u, v := out.v, res := out.rowsol, solved := true,
                                  sol := sol', cost := fin w } with hs'
    have hsols : ∀ τ, Sols A s' τ ↔ Sols A s τ := by
      intro τ
      refine sols_congr (s := s) (s' := s') rfl rfl HEq.rfl HEq.rfl HEq.rfl ?_ τ
      intro k hk
      exact hs3 k (fun a _ e => hk ⟨a, e⟩)
    have hsol' : ∀ k, k ∉ Set.range s.rmap → sol' k = s.sol k :=
      fun k hk => hs3 k (fun a _ e => hk ⟨a, e⟩)
    have hok : Ok A D K δ s' := by
      refine ⟨β, β₀, hβ, hβg, hβ1, hβ2, ?_⟩
      refine ⟨h0.rinj, h0.cinj, h0.costOk, h0.entry, ?_, ?_, ?_, h0.small⟩
      · intro k hk
        obtain ⟨l, hl⟩ := h0.bnd k hk
        exact ⟨l, (hsol' k hk).trans hl.1, hl.2⟩
      · intro k k' hk hk' e
        refine h0.bndInj k k' hk hk' ?_
        change s.sol k = s.sol k'
        rw [← hsol' k hk, ← hsol' k' hk']; exact e
      · obtain ⟨β', hβ, hβ'⟩ := h0.bcost
        exact ⟨β', hβ, fun τ hτ => hβ' τ ((hsols τ).1 hτ)⟩
    obtain ⟨σ, hσ, hσc⟩ := h0.extend hR.feas
    have hσ' : Sols A s σ := hσ
    have hσc' : ∀ a, σ (s.rmap a) = s.cmap (ρ a) := hσc
    have hσt : total A σ = β₀ + total s.C ρ := hb2 σ hσ ρ hR.feas hσc
    rw [← hσt] at hw
    refine ⟨F, s', true, ?_, by simp, ?_⟩
    · intro fuel hf
      simp only [solve, hrun fuel hf, hs1]
      rfl
    · intro _
      have hbest : ∀ τ, Sols A s τ → total A σ ≤ total A τ + 2 * n * slackBound n δ := by
        intro τ hτ
        obtain ⟨τ', hf, hc⟩ := Sols.sub h0 (show Sols A { s with bound := fin β₀ } τ from hτ)
        rw [hσt, hb2 τ hτ τ' hf hc]
        have h1 := hR.near τ' hf
        have h2 : 2 * (s.r : ℚ) * slackBound s.r δ ≤ 2 * n * slackBound n δ :=
          mul_le_mul (by linarith) hsb hsb0 (by linarith)
        have h3 : total s.C τ' = total ({ s with bound := fin β₀ } : Node n m).C τ' := rfl
        linarith
      have hdual := fun a => dualOf_spec hE s' hL hc (σ := ρ) hR rfl rfl a
      refine ⟨⟨hok, ⟨w, rfl, ?_⟩, ?_⟩, rfl, hsols⟩
      · intro τ hτ
        have h1 := hbest τ ((hsols τ).1 hτ)
        rw [abs_le] at hw
        have hnδ : 0 ≤ (2 * (n : ℚ) + 4) * δ := mul_nonneg (by linarith) hδ
        unfold lowErr
        linarith [hw.2]
      · intro _
        refine ⟨σ, ρ, ⟨(hsols σ).2 hσ', ?_, hR.rows, hσc', ⟨w, rfl, hwg, hw⟩, ?_,
          fun a => (hdual a).1, ?_⟩⟩
        · intro k
          by_cases hk : k ∈ Set.range s.rmap
          · obtain ⟨a, rfl⟩ := hk
            rw [hσc' a]
            exact hs2 a (List.mem_finRange _)
          · rw [← (hσ'.2.1 k hk).1]
            exact hsol' k hk
        · intro τ hτ
          exact hbest τ ((hsols τ).1 hτ)
        · intro a τ hτ hne
          have hτ := (hsols τ).1 hτ
          obtain ⟨τ', hf, hc⟩ := Sols.sub h0 (show Sols A { s with bound := fin β₀ } τ from hτ)
          have hne' : τ' a ≠ ρ a := by
            intro e
            apply hne
            change τ (s.rmap a) = σ (s.rmap a)
            have hca : τ (s.rmap a) = s.cmap (τ' a) := hc a
            rw [hca, hσc' a, e]
          obtain ⟨d, hd, hle⟩ := (hdual a).2 τ' hf hne'
          refine ⟨d, hd, ?_⟩
          rw [hσt, hb2 τ hτ τ' hf hc]
          have h1 := Result.slack_le hR hδ hf a
          have hle' : d ≤ slack s.C out.v ρ τ' a + 3 * δ := hle
          have h2 : 2 * (s.r : ℚ) * (slackBound s.r δ + δ) ≤ 2 * n * (slackBound n δ + δ) :=
            mul_le_mul (by linarith) (by linarith) (by linarith) (by linarith)
          have h3 : total s.C τ' = total ({ s with bound := fin β₀ } : Node n m).C τ' := rfl
          linarith

end Verif.MurtyF

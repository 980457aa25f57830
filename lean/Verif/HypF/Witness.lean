import Verif.HypF.Props

/-! # C80: examples, and the cases in which the computed probabilities are not probabilities -/

namespace Verif.HypF

open Verif.Lap Verif.LapF Verif.Murty XR

variable {M N : Nat}

/-- Costs of at least -20 satisfy the hypothesis on the totals of C80. -/
theorem low_of_entries {C : Cost M (N + 2 * M)} (hM : M ≤ 30)
    (h : ∀ i j q, C i j = fin q → -20 ≤ q) : ∀ τ, Feasible C τ → -600 ≤ total C τ := by
  intro τ hτ
  have h1 : ∀ i ∈ (Finset.univ : Finset (Fin M)), (-20 : ℚ) ≤ (C i (τ i)).val := by
    intro i _
    obtain ⟨q, hq⟩ := hτ.2 i
    rw [hq]
    exact h _ _ _ hq
  have h2 := Finset.sum_le_sum h1
  have h3 : (M : ℚ) ≤ 30 := by exact_mod_cast hM
  rw [Finset.sum_const, Finset.card_univ, Fintype.card_fin, nsmul_eq_mul] at h2
  unfold total
  linarith

theorem exC_cases (i : Fin 2) (j : Fin (1 + 2 * 2)) :
    Hyp.costMatrix Hyp.exDet Hyp.exMiss Hyp.exFls i j = pinf ∨
    ∃ q ∈ [(1 : ℚ), 2, 1 / 2, 3, 30000],
      Hyp.costMatrix Hyp.exDet Hyp.exMiss Hyp.exFls i j = fin q := by
  revert i j
  decide +kernel

theorem exC_doubles : Doubles (Hyp.costMatrix Hyp.exDet Hyp.exMiss Hyp.exFls) (2 ^ 15) := by
  intro i j
  rcases exC_cases i j with h | ⟨q, hq, h⟩
  · exact Or.inl h
  · refine Or.inr ⟨q, h, ?_⟩
    simp only [List.mem_cons, List.not_mem_nil, or_false] at hq
    rcases hq with rfl | rfl | rfl | rfl | rfl
    · exact ⟨⟨1, 0, by norm_num, by norm_num, by norm_num, by norm_num⟩, by norm_num⟩
    · exact ⟨⟨2, 0, by norm_num, by norm_num, by norm_num, by norm_num⟩, by norm_num⟩
    · exact ⟨⟨1, -1, by norm_num, by norm_num, by norm_num, by norm_num⟩, by norm_num⟩
    · exact ⟨⟨3, 0, by norm_num, by norm_num, by norm_num, by norm_num⟩, by norm_num⟩
    · exact ⟨⟨30000, 0, by norm_num, by norm_num, by norm_num, by norm_num⟩, by norm_num⟩

theorem exC_low : ∀ τ, Feasible (Hyp.costMatrix Hyp.exDet Hyp.exMiss Hyp.exFls) τ →
    -600 ≤ total (Hyp.costMatrix Hyp.exDet Hyp.exMiss Hyp.exFls) τ := by
  refine low_of_entries (by decide) fun i j q h => ?_
  rcases exC_cases i j with h' | ⟨p, hp, h'⟩
  · rw [h] at h'; cases h'
  · rw [h] at h'
    cases h'
    simp only [List.mem_cons, List.not_mem_nil, or_false] at hp
    rcases hp with rfl | rfl | rfl | rfl | rfl <;> norm_num

example := C80_associations exC_doubles Hyp.exFls_ok exC_low (by decide) (by decide) (by decide)
  MurtyF.firstBest_ok expOk_exists.choose_spec (1 / 100) 100 (by norm_num)
example := C80_existence exC_doubles Hyp.exFls_ok exC_low (by decide) (by decide) (by decide)
  MurtyF.firstBest_ok expOk_exists.choose_spec (1 / 100) 100 (by norm_num)
example := C80_birth exC_doubles Hyp.exFls_ok exC_low (by decide) (by decide) (by decide)
  MurtyF.firstBest_ok expOk_exists.choose_spec (1 / 100) 100 (by norm_num)

/-! ## An existence probability above 1 -/

/-- One target that certainly exists (`false_target()` is then 30000, `target.hpp:188`) and eight
reports, all hypotheses equally likely. -/
def nine : Cost 1 (8 + 2 * 1) := Hyp.costMatrix (fun _ _ => fin 0) (fun _ => fin 0) fun _ => fin 30000

/-- Two values of the library function, `cluster.hpp:92`. -/
def ex9 (q : ℚ) : XR := if q = 0 then fin 1 else fin 0

theorem consume_congr {ex ex' : ℚ → XR} {wlim nmax : ℚ}
    (l : List (Option ((Fin M → Option (Fin (N + 2 * M))) × XR)))
    (h : ∀ sol c, some (sol, c) ∈ l → weight ex c = weight ex' c) :
    ∀ a : Acc M N, consume ex wlim nmax l a = consume ex' wlim nmax l a := by
  induction l with
  | nil => intro a; rfl
  | cons x l ih =>
    intro a
    cases x with
    | none => rfl
    | some sc =>
      obtain ⟨sol, c⟩ := sc
      unfold consume
      rw [h sol c List.mem_cons_self]
      cases a.add (weight ex' c) sol with
      | none => rfl
      | some a' =>
        simp only
        rw [ih (fun sol c hc => h sol c (List.mem_cons_of_mem _ hc)) a']

/-- The sum of a row of `R` from left to right, `target.hpp:163`. -/
def seq9 : Order 9 := Order.seq (List.finRange 9)

theorem seq9_ok : seq9.Ok := by
  unfold Order.Ok
  rw [show seq9.leaves = List.finRange 9 by decide]

theorem nine_run : ((MurtyF.init b64 MurtyF.mul64 nine).bind fun S =>
    (MurtyF.draws b64 firstBest 60 60 S).bind fun l =>
      if (l.all fun x => match x with
        | none => true
        | some (_, c) => decide (c = fin 0 ∨ c = fin 30000)) then
      ((consume ex9 (1 / 100) 100 l Acc.zero).map fun a => a.posterior seq9 0) else none) =
    some (fin (1 + 1 / 2 ^ 52)) := by
  decide +kernel

/-- C80 is tight: a posterior existence probability can exceed 1.  Of one target and eight reports,
all equally likely, nine quotients `1/9` are added up from left to right. -/
theorem C80_existence_refuted : ∃ (ex : ℚ → XR) (F : Nat) (a : Acc 1 8), ExpOk ex ∧
    (∀ fuel, F ≤ fuel → hypotheses firstBest fuel ex (1 / 100) 100 nine = some a) ∧
    a.posterior seq9 0 = fin (1 + 1 / 2 ^ 52) := by
  obtain ⟨ex0, h0⟩ := expOk_exists
  refine ⟨fun q => if q = 0 then fin 1 else if q = 30000 then fin 0 else ex0 q, 60, ?_⟩
  have hrun := nine_run
  cases hS : MurtyF.init b64 MurtyF.mul64 nine with
  | none => rw [hS] at hrun; cases hrun
  | some S =>
  rw [hS, Option.bind_some] at hrun
  cases hl : MurtyF.draws b64 firstBest 60 60 S with
  | none => rw [hl] at hrun; cases hrun
  | some l =>
  rw [hl, Option.bind_some] at hrun
  split at hrun
  · rename_i hall
    obtain ⟨a, ha, hpost⟩ := Option.map_eq_some_iff.1 hrun
    refine ⟨a, ?_, ?_, hpost⟩
    · intro q hq
      by_cases h1 : q = 0
      · refine ⟨1, if_pos h1, RTreeF.isDouble_one, by norm_num, ?_⟩
        rw [h1, Rat.cast_zero, neg_zero, Real.exp_zero, Rat.cast_one, sub_self, abs_zero]
        positivity
      · by_cases h2 : q = 30000
        · refine ⟨0, (if_neg h1).trans (if_pos h2), RTreeF.isDouble_zero, le_refl _, ?_⟩
          have h3 : Real.exp (-((30000 : ℚ) : ℝ)) ≤ 1 / 2 ^ 1074 := by
            have h4 : (2 : ℝ) ^ 1074 ≤ Real.exp ((1074 : Nat) * 1) := by
              rw [Real.exp_nat_mul]
              exact pow_le_pow_left₀ (by norm_num) (by linarith [Real.add_one_le_exp (1 : ℝ)]) _
            rw [Real.exp_neg, inv_eq_one_div]
            refine one_div_le_one_div_of_le (by positivity) (h4.trans (Real.exp_le_exp.2 ?_))
            push_cast
            norm_num
          rw [h2, Rat.cast_zero, zero_sub, abs_neg, abs_of_pos (Real.exp_pos _)]
          have h5 := (Real.exp_pos (-((30000 : ℚ) : ℝ))).le
          generalize (1 : ℝ) / 2 ^ 1074 = τ at *
          generalize Real.exp (-((30000 : ℚ) : ℝ)) = x at *
          have : 0 ≤ x / 2 ^ 52 := by positivity
          linarith
        · obtain ⟨w, w1, w2⟩ := h0 q hq
          exact ⟨w, (if_neg h1).trans ((if_neg h2).trans w1), w2⟩
    · intro fuel hf
      unfold hypotheses
      rw [hS]
      refine loop_mono firstBest hf _ _ _ 60 fuel hf S Acc.zero a ?_
      rw [loop_eq firstBest 60 _ _ _ 60 S Acc.zero l hl, ← ha]
      refine consume_congr l (fun sol c hc => ?_) _
      have := List.all_eq_true.1 hall _ hc
      simp only [decide_eq_true_eq] at this
      rcases this with rfl | rfl
      · rfl
      · have h1 : ¬ (30000 : ℚ) = 0 := by norm_num
        have h2 : (if (30000 : ℚ) = 0 then fin 1 else if (30000 : ℚ) = 30000 then fin 0
            else ex0 30000) = fin 0 := (if_neg h1).trans (if_pos rfl)
        exact h2.trans (if_neg h1 : (if (30000 : ℚ) = 0 then fin 1 else fin 0) = fin 0).symm
  · cases hrun

example : ∃ (F : Nat) (a : Acc 1 8) (r : ℚ) (ex : ℚ → XR),
    (∀ fuel, F ≤ fuel → hypotheses firstBest fuel ex (1 / 100) 100 nine = some a) ∧
    a.posterior seq9 0 = fin r ∧ 1 < r := by
  obtain ⟨ex, F, a, _, h1, h2⟩ := C80_existence_refuted
  exact ⟨F, a, _, ex, h1, h2, by norm_num⟩

/-! ## Overflow of a weight -/

/-- Not negative: zero, positive or `+inf`. -/
def NN (x : XR) : Prop := x = pinf ∨ ∃ q : ℚ, x = fin q ∧ 0 ≤ q

/-- What is assumed of `exp` (`cluster.hpp:92`) beyond the range of `ExpOk`: results are not
negative, and from `exp(710)` on they are `+inf` (the largest `double` is below `exp(709.79)`). -/
def ExpOver (ex : ℚ → XR) : Prop := (∀ q, NN (ex q)) ∧ ∀ q, q ≤ -710 → ex q = pinf

theorem round64_nn {x : ℚ} (h : 0 ≤ x) : NN (round64 x) := by
  have hup : (0:ℚ) < 2 ^ ulpExp x := zpow_pos (by norm_num) _
  have h0 : 0 ≤ (rne (x / 2 ^ ulpExp x) : ℚ) * 2 ^ ulpExp x := by
    refine mul_nonneg ?_ hup.le
    have : 0 ≤ rne (x / 2 ^ ulpExp x) := by
      have hf : 0 ≤ ⌊x / 2 ^ ulpExp x⌋ := Int.floor_nonneg.2 (div_nonneg h hup.le)
      unfold rne
      split_ifs <;> omega
    exact_mod_cast this
  unfold round64
  by_cases h1 : (2 : ℚ) ^ 1024 ≤ rne (x / 2 ^ ulpExp x) * 2 ^ ulpExp x
  · rw [if_pos h1]; exact Or.inl rfl
  · rw [if_neg h1]
    by_cases h2 : (rne (x / 2 ^ ulpExp x) : ℚ) * 2 ^ ulpExp x ≤ -2 ^ 1024
    · have : (0:ℚ) < 2 ^ 1024 := pow_pos (by norm_num) _
      generalize (2 : ℚ) ^ 1024 = B at *
      exact absurd (h0.trans h2) (by linarith)
    · rw [if_neg h2]
      exact Or.inr ⟨_, rfl, h0⟩

theorem add_nn {x y : XR} (hx : NN x) (hy : NN y) : NN (b64.add x y) := by
  rcases hx with rfl | ⟨p, rfl, hp⟩ <;> rcases hy with rfl | ⟨q, rfl, hq⟩
  · exact Or.inl rfl
  · exact Or.inl rfl
  · exact Or.inl rfl
  · exact round64_nn (add_nonneg hp hq)

theorem foldl_nn (W : List XR) (hW : ∀ w ∈ W, NN w) : ∀ s, NN s → NN (W.foldl b64.add s) := by
  induction W with
  | nil => intro s hs; exact hs
  | cons w W ih =>
    intro s hs
    exact ih (fun x hx => hW x (List.mem_cons_of_mem _ hx)) _ (add_nn hs (hW w List.mem_cons_self))

theorem fsX_nn (W : List XR) (hW : ∀ w ∈ W, NN w) : NN (fsX W) :=
  foldl_nn W hW _ (Or.inr ⟨0, rfl, le_refl _⟩)

theorem foldl_pinf (W : List XR) (hW : ∀ w ∈ W, NN w) : ∀ s, NN s → pinf ∈ s :: W →
    W.foldl b64.add s = pinf := by
  induction W with
  | nil =>
    intro s _ h
    exact (List.mem_singleton.1 h).symm
  | cons w W ih =>
    intro s hs h
    have hw := hW w List.mem_cons_self
    refine ih (fun x hx => hW x (List.mem_cons_of_mem _ hx)) _ (add_nn hs hw) ?_
    rcases List.mem_cons.1 h with h | h
    · rw [← h]
      rcases hw with rfl | ⟨q, rfl, _⟩ <;> exact List.mem_cons_self
    · rcases List.mem_cons.1 h with h | h
      · rw [← h]
        rcases hs with rfl | ⟨q, rfl, _⟩ <;> exact List.mem_cons_self
      · exact List.mem_cons_of_mem _ h

theorem fsX_pinf (W : List XR) (hW : ∀ w ∈ W, NN w) (h : pinf ∈ W) : fsX W = pinf :=
  foldl_pinf W hW _ (Or.inr ⟨0, rfl, le_refl _⟩) (List.mem_cons_of_mem _ h)

theorem div_pinf {x : XR} (h : NN x) : div64 x pinf = fin 0 ∨ div64 x pinf = nan := by
  rcases h with rfl | ⟨q, rfl, _⟩
  · exact Or.inr rfl
  · exact Or.inl rfl

theorem sum_zero_nan {k : Nat} (t : Order k) {f : Fin k → XR} (h : ∀ i, f i = fin 0 ∨ f i = nan) :
    t.sum f = fin 0 ∨ t.sum f = nan := by
  induction t with
  | leaf i => exact h i
  | node l r h1 h2 =>
    unfold Order.sum
    rcases h1 with h1 | h1 <;> rcases h2 with h2 | h2 <;> rw [h1, h2]
    · left; decide +kernel
    · right; rfl
    · right; rfl
    · right; rfl

theorem sum_nan {k : Nat} (t : Order k) {f : Fin k → XR} (h : ∀ i, f i = fin 0 ∨ f i = nan)
    {i : Fin k} (hi : i ∈ t.leaves) (hn : f i = nan) : t.sum f = nan := by
  induction t with
  | leaf i' =>
    rw [List.mem_singleton.1 hi] at hn
    exact hn
  | node l r h1 h2 =>
    unfold Order.sum
    rcases List.mem_append.1 hi with hi | hi
    · rw [h1 hi]; rfl
    · rw [h2 hi]
      rcases sum_zero_nan l h with e | e <;> rw [e] <;> rfl

/-- C80: if some hypothesis is so likely that its weight overflows (a total cost of -710 or less,
which takes a sharp sensor and a small clutter intensity), every target of the cluster loses its
existence probability: all become 0.  A report used by the best hypothesis gets the birth weight
NaN.  (Costs with few significant bits, so that the best hypothesis is drawn first whatever the
ties; any order of the sums.) -/
theorem C80_overflow {C : Cost M (N + 2 * M)} {K : ℚ} {b : Nat} (hK : 0 ≤ K) (hb : b ≤ 1074)
    (hC : ∀ i j, C i j = pinf ∨ ∃ z : ℤ, C i j = fin (z / 2 ^ b) ∧ |(z : ℚ)| / 2 ^ b ≤ K)
    (hr : (20 * ((N + 2 * M : Nat) : ℚ) + 4 * M + 40) * K * 2 ^ b ≤ 2 ^ 52) (hM0 : 0 < M)
    (hM : M ≤ 30) {pick : List (Node M (N + 2 * M)) → Nat} (hp : PickOk pick) {ex : ℚ → XR}
    (he : ExpOver ex) (wlim nmax : ℚ) {τ : Fin M → Fin (N + 2 * M)} (hτ : Feasible C τ)
    (hover : total C τ ≤ -710) :
    ∃ (F : Nat) (a : Acc M N), (∀ fuel, F ≤ fuel → hypotheses pick fuel ex wlim nmax C = some a) ∧
      (∀ t : Order (N + 1), ∀ i, a.posterior t i = fin 0) ∧
      ((∀ ρ, Feasible C ρ → ρ ≠ τ → total C τ < total C ρ) → ∀ t : Order M, t.Ok →
        ∀ (i : Fin M) (j : Fin N), (τ i).val = j.val → a.rB t j = nan) := by
  obtain ⟨F, P, a, g1, g2, g3, g4, g5, g6, g7, g8, g9⟩ :=
    hypotheses_exact hK hb hC hr hM0 hM hp ex wlim nmax
  have hNN : ∀ Q : List ((Fin M → Fin (N + 2 * M)) × ℚ), ∀ w ∈ Q.map (fun p => ex p.2), NN w := by
    intro Q w hw
    obtain ⟨p, _, rfl⟩ := List.mem_map.1 hw
    exact he.1 _
  have hne : P ≠ [] := by
    rcases g9 with ⟨h, _⟩ | h
    · exact h
    · intro h0
      have := h τ hτ
      rw [h0] at this; simp at this
  obtain ⟨p0, P', rfl⟩ := List.exists_cons_of_ne_nil hne
  have hbest : total C p0.1 ≤ total C τ := by
    by_cases hmem : τ ∈ (p0 :: P').map Prod.fst
    · obtain ⟨p, hp, hpτ⟩ := List.mem_map.1 hmem
      rcases List.mem_cons.1 hp with rfl | hp
      · rw [hpτ]
      · rw [← hpτ]
        exact (List.pairwise_cons.1 g6).1 p hp
    · exact g7 p0 List.mem_cons_self τ hτ hmem
  have hw0 : ex p0.2 = pinf := he.2 _ (by rw [g5 p0 List.mem_cons_self]; linarith)
  have hsum : a.wsum = pinf := by
    rw [g2.wsum]
    exact fsX_pinf _ (hNN _) (by rw [← hw0]; exact List.mem_map_of_mem List.mem_cons_self)
  have hnorm : ∀ i j, a.norm i j = fin 0 ∨ a.norm i j = nan := by
    intro i j
    unfold Acc.norm
    rw [hsum, g2.R]
    exact div_pinf (fsX_nn _ (hNN _))
  refine ⟨F, a, g1, ?_, ?_⟩
  · intro t i
    obtain ⟨v, v1, v2⟩ := rlim64
    have hv : ¬ v ≤ 0 := by
      intro h
      have := (abs_le.1 v2).1
      norm_num at this
      linarith
    unfold Acc.posterior targetCorrect Acc.rowSum
    rw [v1]
    rcases sum_zero_nan t (hnorm i) with h | h <;> rw [h]
    · simp only [XR.le, XR.lt, XR.feq, Bool.or_eq_true, decide_eq_true_eq, ← le_iff_lt_or_eq]
      rw [if_neg hv]
    · rfl
  · intro huniq t ht i j hij
    have hp0 : p0.1 = τ := by
      by_contra hne
      exact absurd (huniq _ (g4 p0 List.mem_cons_self) hne) (not_lt.2 hbest)
    have hR : a.norm i j.castSucc = nan := by
      unfold Acc.norm
      rw [hsum, g2.R, fsX_pinf _ (hNN _) ?_]
      · rfl
      · rw [← hw0]
        refine List.mem_map_of_mem (f := fun p : (Fin M → Fin (N + 2 * M)) × ℚ => ex p.2)
          (List.mem_filter.2 ⟨List.mem_cons_self, ?_⟩)
        rw [decide_eq_true_eq, hp0, Hyp.target_eq]
        left
        rw [Fin.val_castSucc]
        exact ⟨by omega, hij⟩
    unfold Acc.rB
    rw [sum_nan t (fun i => hnorm i j.castSucc) (ht.mem_iff.2 (List.mem_finRange i)) hR]
    rfl

/-- Thirty targets, each with its own report (cost -27: a likelihood `exp(27)` times the clutter
intensity); a missed detection costs 7, a false target 30. -/
def sharp : Cost 30 (30 + 2 * 30) := Hyp.costMatrix (fun i j => if i = j then fin (-27) else pinf)
  (fun _ => fin 7) fun _ => fin 30

/-- Every target gives its own report. -/
def sharpBest : Fin 30 → Fin (30 + 2 * 30) := fun i => ⟨i.val, by omega⟩

theorem sharp_cases (i : Fin 30) (j : Fin (30 + 2 * 30)) :
    (j.val = i.val ∧ sharp i j = fin (-27)) ∨ (j.val < 30 ∧ j.val ≠ i.val ∧ sharp i j = pinf) ∨
    (30 ≤ j.val ∧ j.val = 30 + i.val ∧ sharp i j = fin 7) ∨
    (30 ≤ j.val ∧ j.val ≠ 30 + i.val ∧ ∃ q ∈ [(30 : ℚ), 30000], sharp i j = fin q) := by
  unfold sharp Hyp.costMatrix
  by_cases h1 : j.val < 30
  · rw [dif_pos h1]
    by_cases h2 : j.val = i.val
    · exact Or.inl ⟨h2, if_pos (Fin.ext h2.symm)⟩
    · exact Or.inr (Or.inl ⟨h1, h2, if_neg fun h => h2 (congrArg Fin.val h).symm⟩)
  · rw [dif_neg h1]
    by_cases h2 : j.val = 30 + i.val
    · rw [if_pos h2]
      exact Or.inr (Or.inr (Or.inl ⟨by omega, h2, rfl⟩))
    · rw [if_neg h2]
      refine Or.inr (Or.inr (Or.inr ⟨by omega, h2, ?_⟩))
      by_cases h3 : j.val = 30 + 30 + i.val
      · rw [if_pos h3]; exact ⟨30, by simp, rfl⟩
      · rw [if_neg h3]; exact ⟨30000, by simp, rfl⟩

theorem sharpBest_val (i : Fin 30) : sharp i (sharpBest i) = fin (-27) := by
  rcases sharp_cases i (sharpBest i) with h | h | h | h
  · exact h.2
  · exact absurd rfl h.2.1
  · have := h.1; have := i.2; unfold sharpBest at *; simp only at *; omega
  · have := h.1; have := i.2; unfold sharpBest at *; simp only at *; omega

theorem sharpBest_feasible : Feasible sharp sharpBest :=
  ⟨fun i j h => Fin.ext (by simpa [sharpBest] using h), fun i => ⟨_, sharpBest_val i⟩⟩

theorem sharpBest_total : total sharp sharpBest = -810 := by
  unfold total
  rw [Finset.sum_congr rfl fun i _ => by rw [sharpBest_val i]]
  rw [Finset.sum_const, Finset.card_univ, Fintype.card_fin]
  norm_num [XR.val]

theorem sharp_ints (i : Fin 30) (j : Fin (30 + 2 * 30)) : sharp i j = pinf ∨
    ∃ z : ℤ, sharp i j = fin (z / 2 ^ 0) ∧ |(z : ℚ)| / 2 ^ 0 ≤ 30000 := by
  rcases sharp_cases i j with h | h | h | h
  · exact Or.inr ⟨-27, by rw [h.2]; norm_num, by norm_num⟩
  · exact Or.inl h.2.2
  · exact Or.inr ⟨7, by rw [h.2.2]; norm_num, by norm_num⟩
  · obtain ⟨q, hq, h⟩ := h.2.2
    simp only [List.mem_cons, List.not_mem_nil, or_false] at hq
    rcases hq with rfl | rfl
    · exact Or.inr ⟨30, by rw [h]; norm_num, by norm_num⟩
    · exact Or.inr ⟨30000, by rw [h]; norm_num, by norm_num⟩

/-- Another column than its own for target `i` costs at least 34 more. -/
theorem sharp_other {ρ : Fin 30 → Fin (30 + 2 * 30)} (hρ : Feasible sharp ρ) {i : Fin 30} {g : ℚ}
    (hg : -27 + g ≤ (sharp i (ρ i)).val) : total sharp sharpBest + g ≤ total sharp ρ := by
  have hge : ∀ k, (-27 : ℚ) ≤ (sharp k (ρ k)).val := by
    intro k
    obtain ⟨q, hq⟩ := hρ.2 k
    rcases sharp_cases k (ρ k) with h | h | h | h
    · rw [h.2]; exact le_refl _
    · rw [h.2.2] at hq; cases hq
    · rw [h.2.2]; norm_num [XR.val]
    · obtain ⟨q, hq, h⟩ := h.2.2
      rw [h]
      simp only [List.mem_cons, List.not_mem_nil, or_false] at hq
      rcases hq with rfl | rfl <;> norm_num [XR.val]
  rw [sharpBest_total]
  unfold total
  rw [← Finset.add_sum_erase _ _ (Finset.mem_univ i)]
  have h2 := Finset.sum_le_sum fun k (_ : k ∈ Finset.univ.erase i) => hge k
  rw [Finset.sum_const, Finset.card_erase_of_mem (Finset.mem_univ _), Finset.card_univ,
    Fintype.card_fin, nsmul_eq_mul] at h2
  have h3 : (((30 - 1 : Nat) : ℚ)) * -27 = -783 := by norm_num
  rw [h3] at h2
  linarith

theorem sharp_unique {ρ : Fin 30 → Fin (30 + 2 * 30)} (hρ : Feasible sharp ρ)
    (hne : ρ ≠ sharpBest) : total sharp sharpBest + 34 ≤ total sharp ρ := by
  obtain ⟨i, hi⟩ := Function.ne_iff.1 hne
  refine sharp_other hρ (i := i) ?_
  obtain ⟨q, hq⟩ := hρ.2 i
  rcases sharp_cases i (ρ i) with h | h | h | h
  · exact absurd (Fin.ext h.1) hi
  · rw [h.2.2] at hq; cases hq
  · rw [h.2.2]; norm_num [XR.val]
  · obtain ⟨q, hq, h⟩ := h.2.2
    rw [h]
    simp only [List.mem_cons, List.not_mem_nil, or_false] at hq
    rcases hq with rfl | rfl <;> norm_num [XR.val]

theorem mass_split (C : Cost M (N + 2 * M)) (L : List (Fin M → Fin (N + 2 * M)))
    (Q : (Fin M → Fin (N + 2 * M)) → Bool) :
    Hyp.mass C L (fun _ => true) = Hyp.mass C L Q + Hyp.mass C L fun σ => !Q σ := by
  unfold Hyp.mass
  induction L with
  | nil => simp
  | cons σ L ih =>
    rw [List.filter_true] at ih ⊢
    by_cases h : Q σ = true
    · simp only [List.filter_cons, h, if_true, List.map_cons, List.sum_cons, Bool.not_true,
        Bool.false_eq_true, if_false]
      linarith
    · simp only [List.filter_cons, h, if_false, List.map_cons, List.sum_cons, Bool.not_eq_true,
        Bool.not_false, if_true]
      simp only [Bool.not_eq_true] at h
      simp only [h, Bool.not_false, if_true, List.map_cons, List.sum_cons, Bool.false_eq_true,
        if_false]
      linarith

theorem expOver_exists : ∃ ex, ExpOk ex ∧ ExpOver ex := by
  obtain ⟨ex, h⟩ := expOk_exists
  refine ⟨fun q => if -650 ≤ q then ex q else pinf, ?_, ?_, ?_⟩
  · intro q hq
    obtain ⟨w, w1, w2⟩ := h q hq
    exact ⟨w, (if_pos hq).trans w1, w2⟩
  · intro q
    by_cases hq : -650 ≤ q
    · obtain ⟨w, w1, _, w2, _⟩ := h q hq
      exact Or.inr ⟨w, (if_pos hq).trans w1, w2⟩
    · exact Or.inl (if_neg hq)
  · intro q hq
    exact if_neg (by linarith)

example := fun ex (h : ExpOver ex) => C80_overflow (K := 30000) (b := 0) (by norm_num) (by norm_num)
  sharp_ints (by norm_num) (by norm_num) (by norm_num) MurtyF.firstBest_ok h (1 / 100) 100
  sharpBest_feasible (by rw [sharpBest_total]; norm_num)

/-- C80: for a cluster of thirty targets that have all been seen by a sharp sensor, the posterior
existence probabilities in exact arithmetic are above 0.999, and the computed ones are 0 - the
tracker drops all thirty - and the birth weights of all reports are NaN. -/
theorem C80_overflow_refuted {ex : ℚ → XR} (he : ExpOver ex)
    {pick : List (Node 30 (30 + 2 * 30)) → Nat} (hp : PickOk pick) :
    (∃ (F : Nat) (a : Hyp.Acc 30 30),
      (∀ fuel, F ≤ fuel → Hyp.hypotheses pick fuel Hyp.ew (1 / 100) 100 sharp = some a) ∧
      ∀ i, 999 / 1000 ≤ a.posterior i) ∧
    ∃ (F : Nat) (a : Acc 30 30),
      (∀ fuel, F ≤ fuel → hypotheses pick fuel ex (1 / 100) 100 sharp = some a) ∧
      (∀ (t : Order 31) i, a.posterior t i = fin 0) ∧
      ∀ t : Order 30, t.Ok → ∀ j, a.rB t j = nan := by
  constructor
  · obtain ⟨F, L, a, g1, g2, g3, g4, g5⟩ := Hyp.C21_posterior (det := fun i j : Fin 30 =>
        if i = j then fin (-27) else pinf) (miss := fun _ => fin 7) (fls := fun _ => fin 30)
      (fun i j => by by_cases h : i = j <;> simp [h, XR.IsC, XR.IsFin]) (fun i => Or.inr ⟨_, rfl⟩)
      (fun i => ⟨_, rfl⟩) (by norm_num) (by norm_num) hp (1 / 100) 100
    obtain ⟨F', L', a', w, b1, b2, b3, b4, b5, b6, _⟩ := Hyp.C23_budget (det := fun i j : Fin 30 =>
        if i = j then fin (-27) else pinf) (miss := fun _ => fin 7) (fls := fun _ => fin 30)
      (fun i j => by by_cases h : i = j <;> simp [h, XR.IsC, XR.IsFin]) (fun i => Or.inr ⟨_, rfl⟩)
      (fun i => ⟨_, rfl⟩) (by norm_num) (by norm_num) hp (1 / 100) 100
    have haa : a = a' := by
      have h1 := g1 (max F F') (le_max_left _ _)
      rw [b1 (max F F') (le_max_right _ _)] at h1
      exact (Option.some.inj h1).symm
    have hlen : L.length ≤ 100 := by
      rw [← g3, haa]
      refine b6.trans (max_le (by norm_num) ?_)
      exact Nat.ceil_le.2 (by norm_num)
    have hfe : ∀ σ ∈ L, Feasible sharp σ := fun σ hσ => ⟨g4.inj σ hσ, g4.fin σ hσ⟩
    have hbest : sharpBest ∈ L := by
      by_contra hno
      obtain ⟨σ, L'', rfl⟩ := List.exists_cons_of_ne_nil g2
      have h1 := g4.best σ List.mem_cons_self sharpBest sharpBest_feasible hno
      have h2 := sharp_unique (hfe σ List.mem_cons_self) fun h => hno (h ▸ List.mem_cons_self)
      have h1' : total sharp σ ≤ total sharp sharpBest := h1
      linarith
    refine ⟨F, a, g1, fun i => ?_⟩
    obtain ⟨e, e1, _, _, e4, _⟩ := g5 i
    suffices h : 999 / 1000 ≤ e by
      rw [e4, if_pos (by linarith)]
      exact h
    have hsplit := mass_split sharp L fun σ => (σ i).val < 30 || (σ i).val == 30 + i.val
    have hA : Hyp.ew (-810) ≤ Hyp.mass sharp L
        fun σ => (σ i).val < 30 || (σ i).val == 30 + i.val := by
      refine List.single_le_sum ?_ _ (List.mem_map.2 ⟨sharpBest, List.mem_filter.2 ⟨hbest, ?_⟩, ?_⟩)
      · intro x hx
        obtain ⟨σ, _, rfl⟩ := List.mem_map.1 hx
        exact (Hyp.ew_pos _).le
      · have : (sharpBest i).val < 30 := i.2
        simp [this]
      · rw [sharpBest_total]
    have hB : Hyp.mass sharp L (fun σ => !((σ i).val < 30 || (σ i).val == 30 + i.val)) ≤
        L.length * Hyp.ew (-753) := by
      refine (List.sum_le_card_nsmul _ (Hyp.ew (-753)) ?_).trans ?_
      · intro x hx
        obtain ⟨σ, hσ, rfl⟩ := List.mem_map.1 hx
        obtain ⟨h1, h2⟩ := List.mem_filter.1 hσ
        refine Hyp.ew_le ?_
        have := sharp_other (hfe σ h1) (i := i) (g := 57) ?_
        · rw [sharpBest_total] at this
          linarith
        · simp only [Bool.not_eq_true', Bool.or_eq_false_iff, decide_eq_false_iff_not,
            beq_eq_false_iff_ne] at h2
          rcases sharp_cases i (σ i) with h | h | h | h
          · exact absurd (h.1 ▸ i.2) h2.1
          · exact absurd h.1 h2.1
          · exact absurd h.2.1 h2.2
          · obtain ⟨q, hq, h⟩ := h.2.2
            rw [h]
            simp only [List.mem_cons, List.not_mem_nil, or_false] at hq
            rcases hq with rfl | rfl <;> norm_num [XR.val]
      · rw [nsmul_eq_mul, List.length_map]
        refine mul_le_mul_of_nonneg_right ?_ (Hyp.ew_pos _).le
        exact_mod_cast List.length_filter_le _ _
    have hratio : Hyp.ew (-753) ≤ Hyp.ew (-810) / 2 ^ 57 := by
      have h1 : (2 : ℝ) ^ 57 ≤ Real.exp ((57 : Nat) * 1) := by
        rw [Real.exp_nat_mul]
        exact pow_le_pow_left₀ (by norm_num) (by linarith [Real.add_one_le_exp (1 : ℝ)]) _
      have h2 : Hyp.ew (-810) = Hyp.ew (-753) * Real.exp ((57 : Nat) * 1) := by
        unfold Hyp.ew
        rw [← Real.exp_add]
        congr 1
        push_cast
        norm_num
      rw [h2, le_div_iff₀ (by norm_num)]
      exact mul_le_mul_of_nonneg_left h1 (Hyp.ew_pos _).le
    have hlen' : (L.length : ℝ) ≤ 100 := by exact_mod_cast hlen
    have hpos := Hyp.ew_pos (-810)
    have hB' : (L.length : ℝ) * Hyp.ew (-753) ≤ 100 * (Hyp.ew (-810) / 2 ^ 57) :=
      mul_le_mul hlen' hratio (Hyp.ew_pos _).le (by norm_num)
    have hB0 := Hyp.mass_nonneg sharp L
      (fun σ => !((σ i).val < 30 || (σ i).val == 30 + i.val))
    rw [e1]
    refine le_trans ?_ (le_of_eq (congrArg (_ / ·) hsplit.symm))
    change 999 / 1000 ≤ Hyp.mass sharp L _ / _
    generalize Hyp.mass sharp L (fun σ => !((σ i).val < 30 || (σ i).val == 30 + i.val)) = B at *
    generalize Hyp.mass sharp L (fun σ => (σ i).val < 30 || (σ i).val == 30 + i.val) = A at *
    generalize Hyp.ew (-810) = W at *
    rw [le_div_iff₀ (by linarith)]
    norm_num at hB'
    linarith
  · obtain ⟨F, a, g1, g2, g3⟩ := C80_overflow (K := 30000) (b := 0) (by norm_num) (by norm_num)
      sharp_ints (by norm_num) (by norm_num) (by norm_num) hp he (1 / 100) 100
      sharpBest_feasible (by rw [sharpBest_total]; norm_num)
    refine ⟨F, a, g1, g2, fun t ht j => g3 (fun ρ hρ hne => ?_) t ht j j rfl⟩
    linarith [sharp_unique hρ hne]

example := C80_overflow_refuted expOver_exists.choose_spec.2 MurtyF.firstBest_ok

end Verif.HypF

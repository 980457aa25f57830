import Verif.HypF.Cluster

/-! # Property C80: existence and birth probabilities in `double` arithmetic -/

namespace Verif.HypF

open Verif.Lap Verif.LapF Verif.Murty XR
open Verif.RTreeF (round64_mono isDouble_one)

variable {M N : Nat}

theorem budget {ex : ℚ → XR} {wlim nmax : ℚ} {P : List ((Fin M → Fin (N + 2 * M)) × ℚ)}
    (h : ∀ q, q + 1 < P.length →
      StopAt wlim nmax ((P.take (q + 1)).map fun p => ex p.2) = false) :
    P.length ≤ max 1 ⌈nmax⌉₊ := by
  rcases Nat.lt_or_ge P.length 2 with h2 | h2
  · exact le_trans (by omega) (le_max_left _ _)
  · have := h (P.length - 2) (by omega)
    unfold StopAt at this
    rw [Bool.or_eq_false_iff, decide_eq_false_iff_not, not_le, List.length_map, List.length_take,
      min_eq_left (by omega)] at this
    have h3 : ((P.length - 2 + 1 : Nat) : ℚ) < nmax := this.2
    have h4 := Nat.lt_ceil.2 h3
    exact le_trans (by omega) (le_max_right _ _)

/-- Error of the order of the hypotheses, see C79. -/
def orderErr (M N : Nat) : ℚ := (16 * M * (M + 4) ^ M + 6 * M + 6) *
  ((30 * ((N + 2 * M : Nat) : ℚ) + 6 * M + 60) * 2 ^ 15 / 2 ^ 52)

/-- The hypotheses `L` of a cluster have been drawn: different ones, at least one and at most
`nhyp_max`, none dearer than one left out by more than the error of C79.  With their computed costs
`c` (near the exact ones) and weights `ex c`, the loop has stopped at the first hypothesis whose
computed relative weight is below `w_lim`, or whose number is `nhyp_max`, or when there was none
left. -/
structure Drawn (C : Cost M (N + 2 * M)) (ex : ℚ → XR) (wlim nmax : ℚ)
    (L : List (Fin M → Fin (N + 2 * M))) (a : Acc M N) : Prop where
  ne : L ≠ []
  n : a.n = L.length
  budget : a.n ≤ max 1 ⌈nmax⌉₊
  nodup : L.Nodup
  feasible : ∀ σ ∈ L, Feasible C σ
  sorted : L.Pairwise fun σ τ => total C σ ≤ total C τ + orderErr M N
  best : ∀ σ ∈ L, ∀ τ, Feasible C τ → τ ∉ L → total C σ ≤ total C τ + orderErr M N
  stop : ∃ c : List ℚ, c.length = L.length ∧
    (∀ (p : Nat) σ x, L[p]? = some σ → c[p]? = some x → |x - total C σ| ≤ costErr M N) ∧
    a.wsum = (c.map ex).foldl b64.add (fin 0) ∧
    (∀ q, q + 1 < L.length → StopAt wlim nmax ((c.take (q + 1)).map ex) = false) ∧
    (StopAt wlim nmax (c.map ex) = true ∨ ∀ τ, Feasible C τ → τ ∈ L)

/-- What holds of every cluster within range; the parts are C80. -/
theorem cluster64 {det : Fin M → Fin N → XR} {miss fls : Fin M → XR}
    (hC : Doubles (Hyp.costMatrix det miss fls) (2 ^ 15)) (hf : ∀ i, IsFin (fls i))
    (hlow : ∀ τ, Feasible (Hyp.costMatrix det miss fls) τ →
      -600 ≤ total (Hyp.costMatrix det miss fls) τ)
    (hM0 : 0 < M) (hM : M ≤ 30) (hN : N + 2 * M ≤ 2 ^ 16)
    {pick : List (Node M (N + 2 * M)) → Nat} (hp : PickOk pick) {ex : ℚ → XR} (he : ExpOk ex)
    (wlim nmax : ℚ) (hn : nmax ≤ 2 ^ 20) :
    ∃ (F : Nat) (L : List (Fin M → Fin (N + 2 * M))) (a : Acc M N),
      (∀ fuel, F ≤ fuel →
        hypotheses pick fuel ex wlim nmax (Hyp.costMatrix det miss fls) = some a) ∧
      Drawn (Hyp.costMatrix det miss fls) ex wlim nmax L a ∧
      ((∃ σ ∈ L, total (Hyp.costMatrix det miss fls) σ ≤ 600) →
        (∀ i j, ∃ x, a.norm i j = fin x ∧ 0 ≤ x ∧ x ≤ 1 ∧
          |(x : ℝ) - Hyp.mass (Hyp.costMatrix det miss fls) L
            (fun σ => decide (Hyp.target i (σ i) = some j)) /
            Hyp.mass (Hyp.costMatrix det miss fls) L (fun _ => true)| ≤
            8 * costErr M N + (7 * L.length + 14) / 2 ^ 52) ∧
        (∀ t : Order (N + 1), t.Ok → ∀ i : Fin M, ∃ s, a.rowSum t i = fin s ∧ 0 ≤ s ∧
          s ≤ 1 + 3 * (2 * L.length + 1 + (N + 1)) / 2 ^ 52 ∧
          |(s : ℝ) - Hyp.mass (Hyp.costMatrix det miss fls) L
            (fun σ => (σ i).val < N || (σ i).val == N + i.val) /
            Hyp.mass (Hyp.costMatrix det miss fls) L (fun _ => true)| ≤
            8 * costErr M N + (7 * L.length + 3 * (N + 1) + 11) / 2 ^ 52) ∧
        (∀ t : Order M, t.Ok → ∀ j : Fin N, ∃ s, (t.sum fun i => a.norm i j.castSucc) = fin s ∧
          IsDouble s ∧ 0 ≤ s ∧ s ≤ 1 + 3 * (2 * L.length + 1 + M) / 2 ^ 52 ∧
          |(s : ℝ) - Hyp.mass (Hyp.costMatrix det miss fls) L
            (fun σ => decide (∃ i, (σ i).val = j.val)) /
            Hyp.mass (Hyp.costMatrix det miss fls) L (fun _ => true)| ≤
            8 * costErr M N + (7 * L.length + 3 * M + 11) / 2 ^ 52)) := by
  have hm40 : ((N + 2 * M : Nat) : ℚ) ≤ 2 ^ 40 := by
    have : ((N + 2 * M : Nat) : ℚ) ≤ 2 ^ 16 := by exact_mod_cast hN
    exact this.trans (by norm_num)
  have hr : (30 * ((N + 2 * M : Nat) : ℚ) + 6 * M + 60) * 2 ^ 15 ≤ 2 ^ 1022 := by
    have h1 : ((N + 2 * M : Nat) : ℚ) ≤ 2 ^ 16 := by exact_mod_cast hN
    have h2 : (M : ℚ) ≤ 30 := by exact_mod_cast hM
    have h3 : (30 * ((N + 2 * M : Nat) : ℚ) + 6 * M + 60) * 2 ^ 15 ≤ 2 ^ 40 := by
      calc _ ≤ ((30 * 2 ^ 16 + 6 * 30 + 60) * 2 ^ 15 : ℚ) :=
            mul_le_mul_of_nonneg_right (by linarith) (by norm_num)
        _ ≤ 2 ^ 40 := by norm_num
    exact h3.trans (pow_le_pow_right₀ (by norm_num) (by norm_num))
  obtain ⟨F, P, a, g1, g2, g3, g4, g5, g6, g7, g8, g9⟩ :=
    hypotheses_spec hC (by norm_num) hM0 hM hm40 hr hp ex wlim nmax
  set C := Hyp.costMatrix det miss fls with hCdef
  have hbud := budget g8
  have hlen : (P.map Prod.fst).length = P.length := List.length_map _
  have hne : P ≠ [] := by
    rcases g9 with ⟨h, _⟩ | h
    · exact h
    · obtain ⟨τ, hτ⟩ := Hyp.costMatrix_feasible (det := det) (miss := miss) hf
      intro h0
      have := h τ hτ
      rw [h0] at this; simp at this
  have hfeas : ∀ σ ∈ P.map Prod.fst, Feasible C σ := by
    intro σ hσ
    obtain ⟨p, hp, rfl⟩ := List.mem_map.1 hσ
    exact g4 p hp
  have herr : (2 * (M : ℚ) * slackBound M (MurtyF.unit M (N + 2 * M) (2 ^ 15)) +
      (6 * M + 6) * MurtyF.unit M (N + 2 * M) (2 ^ 15)) = orderErr M N := by
    unfold slackBound MurtyF.unit orderErr; ring
  rw [herr] at g6 g7
  refine ⟨F, P.map Prod.fst, a, g1, ⟨by simpa using hne, by rw [hlen, g2.n], by rw [g2.n]; exact hbud,
    g3, hfeas, List.pairwise_map.2 g6, ?_, P.map Prod.snd, by simp, ?_, ?_, ?_, ?_⟩, ?_⟩
  · intro σ hσ
    obtain ⟨p, hp, rfl⟩ := List.mem_map.1 hσ
    exact g7 p hp
  · intro p σ x h1 h2
    rw [List.getElem?_map, Option.map_eq_some_iff] at h1 h2
    obtain ⟨u, hu, rfl⟩ := h1
    obtain ⟨v, hv, rfl⟩ := h2
    rw [hu] at hv
    cases hv
    exact g5 u (List.mem_of_getElem? hu)
  · rw [g2.wsum, List.map_map]; rfl
  · intro q hq
    rw [hlen] at hq
    rw [← List.map_take, List.map_map]
    exact g8 q hq
  · rw [List.map_map]
    exact g9.imp (fun h => h.2) id
  rintro ⟨σ, hσ, hle⟩
  obtain ⟨p, hpP, rfl⟩ := List.mem_map.1 hσ
  have hceil : ⌈nmax⌉₊ ≤ 2 ^ 20 := Nat.ceil_le.2 (by exact_mod_cast hn)
  have hL21 : P.length ≤ 2 ^ 21 := by
    refine hbud.trans (max_le (by norm_num) (hceil.trans (by norm_num)))
  have hκ : ∀ p ∈ P, |p.2 - total C p.1| ≤ costErr M N := g5
  have hlowP : ∀ p ∈ P, -600 ≤ total C p.1 := fun p hp => hlow p.1 (g4 p hp)
  have hrow := fun i : Fin M => drawn_ratio (k := N + 1) he (costErr_nonneg M N) (costErr_le hM hN)
    hκ hlowP ⟨p, hpP, hle⟩ hL21
    (by omega : N + 1 ≤ 2 ^ 17) (fun j σ => decide (Hyp.target i (σ i) = some j))
    (fun σ => (σ i).val < N || (σ i).val == N + i.val) (by
      intro q _
      simp only [Hyp.target_eq, decide_eq_true_eq, Bool.or_eq_true, beq_iff_eq]
      constructor
      · rintro (h | h)
        · exact ⟨⟨(q.1 i).val, by omega⟩, Or.inl ⟨h, rfl⟩⟩
        · exact ⟨⟨N, by omega⟩, Or.inr ⟨rfl, h⟩⟩
      · rintro ⟨j, ⟨h1, h2⟩ | ⟨_, h2⟩⟩
        · exact Or.inl (by omega)
        · exact Or.inr h2) (by
      intro q _ x y hx hy
      rw [decide_eq_true_eq] at hx hy
      rw [hx] at hy
      exact Option.some.inj hy)
  have hcol := fun j : Fin N => drawn_ratio (k := M) he (costErr_nonneg M N) (costErr_le hM hN)
    hκ hlowP ⟨p, hpP, hle⟩ hL21
    (by omega : M ≤ 2 ^ 17) (fun i σ => decide (Hyp.target i (σ i) = some j.castSucc))
    (fun σ => decide (∃ i, (σ i).val = j.val)) (by
      intro q _
      simp only [Hyp.target_eq, decide_eq_true_eq, Fin.val_castSucc]
      have := j.2
      constructor
      · rintro ⟨i, hi⟩
        exact ⟨i, Or.inl ⟨this, hi⟩⟩
      · rintro ⟨i, ⟨_, h2⟩ | ⟨h1, _⟩⟩
        · exact ⟨i, h2⟩
        · omega) (by
      intro q hq x y hx hy
      simp only [Hyp.target_eq, decide_eq_true_eq, Fin.val_castSucc] at hx hy
      have := j.2
      refine (g4 q hq).1 (Fin.ext ?_)
      omega)
  have hnorm : ∀ i j, a.norm i j = div64 (fsX ((P.filter fun p =>
      decide (Hyp.target i (p.1 i) = some j)).map fun p => ex p.2))
      (fsX (P.map fun p => ex p.2)) := by
    intro i j
    unfold Acc.norm
    rw [g2.R, g2.wsum]
  refine ⟨?_, ?_, ?_⟩
  · intro i j
    rw [hnorm]
    obtain ⟨x, x1, x2, x3⟩ := (hrow i).1 j
    obtain ⟨s, s1, _, _, _, s5⟩ := (drawn_ratio (k := 1) he (costErr_nonneg M N) (costErr_le hM hN)
      hκ hlowP ⟨p, hpP, hle⟩ hL21 (by norm_num) (fun _ σ => decide (Hyp.target i (σ i) = some j))
      (fun σ => decide (Hyp.target i (σ i) = some j)) (fun q _ => ⟨fun h => ⟨0, h⟩, fun ⟨_, h⟩ => h⟩)
      (fun _ _ x y _ _ => Subsingleton.elim x y)).2 (.leaf 0) (List.Perm.refl _)
    have hx : fin x = fin s := x1.symm.trans s1
    cases hx
    refine ⟨x, x1, x2, x3, ?_⟩
    rw [hlen]
    refine s5.trans (le_of_eq ?_)
    push_cast
    ring
  · intro t ht i
    obtain ⟨s, s1, _, s3, s4, s5⟩ := (hrow i).2 t ht
    refine ⟨s, ?_, s3, ?_, ?_⟩
    · unfold Acc.rowSum
      rw [show a.norm i = _ from funext (hnorm i)]
      exact s1
    · rw [hlen]; push_cast at s4; exact s4
    · rw [hlen]; push_cast at s5; exact s5
  · intro t ht j
    obtain ⟨s, s1, s2, s3, s4, s5⟩ := (hcol j).2 t ht
    refine ⟨s, ?_, s2, s3, ?_, ?_⟩
    · rw [show (fun i => a.norm i j.castSucc) = _ from funext fun i => hnorm i j.castSucc]
      exact s1
    · rw [hlen]; exact s4
    · rw [hlen]; exact s5

/-! ## C80 -/

/-- C80: the matrix of association probabilities.  Whatever the rounding, the entries lie in [0,1]; each is
the normalised weight of the drawn hypotheses with that association up to the given error. -/
theorem C80_associations {det : Fin M → Fin N → XR} {miss fls : Fin M → XR}
    (hC : Doubles (Hyp.costMatrix det miss fls) (2 ^ 15)) (hf : ∀ i, IsFin (fls i))
    (hlow : ∀ τ, Feasible (Hyp.costMatrix det miss fls) τ →
      -600 ≤ total (Hyp.costMatrix det miss fls) τ)
    (hM0 : 0 < M) (hM : M ≤ 30) (hN : N + 2 * M ≤ 2 ^ 16)
    {pick : List (Node M (N + 2 * M)) → Nat} (hp : PickOk pick) {ex : ℚ → XR} (he : ExpOk ex)
    (wlim nmax : ℚ) (hn : nmax ≤ 2 ^ 20) :
    ∃ (F : Nat) (L : List (Fin M → Fin (N + 2 * M))) (a : Acc M N),
      (∀ fuel, F ≤ fuel →
        hypotheses pick fuel ex wlim nmax (Hyp.costMatrix det miss fls) = some a) ∧
      Drawn (Hyp.costMatrix det miss fls) ex wlim nmax L a ∧
      ((∃ σ ∈ L, total (Hyp.costMatrix det miss fls) σ ≤ 600) →
        ∀ i j, ∃ x, a.norm i j = fin x ∧ 0 ≤ x ∧ x ≤ 1 ∧
          |(x : ℝ) - Hyp.mass (Hyp.costMatrix det miss fls) L
            (fun σ => decide (Hyp.target i (σ i) = some j)) /
            Hyp.mass (Hyp.costMatrix det miss fls) L (fun _ => true)| ≤
            8 * costErr M N + (7 * L.length + 14) / 2 ^ 52) := by
  obtain ⟨F, L, a, g1, g2, g7⟩ :=
    cluster64 hC hf hlow hM0 hM hN hp he wlim nmax hn
  exact ⟨F, L, a, g1, g2, fun h => (g7 h).1⟩

theorem rlim64 : ∃ v : ℚ, round64 (1 / 1000000) = fin v ∧ |v - 1 / 1000000| ≤ 1 / 2 ^ 60 := by
  refine ⟨4722366482869645 / 2 ^ 72, by decide +kernel, by rw [abs_le]; constructor <;> norm_num⟩

/-- C80: the posterior existence probability.  With `L` the hypotheses that were drawn and `e` the
normalised weight of those in which target `i` exists (C21), the computed probability is not
negative, exceeds 1 by no more than rounding errors, and is `e` up to the given error - or 0 if `e`
is, up to that error, below `1e-6`. -/
theorem C80_existence {det : Fin M → Fin N → XR} {miss fls : Fin M → XR}
    (hC : Doubles (Hyp.costMatrix det miss fls) (2 ^ 15)) (hf : ∀ i, IsFin (fls i))
    (hlow : ∀ τ, Feasible (Hyp.costMatrix det miss fls) τ →
      -600 ≤ total (Hyp.costMatrix det miss fls) τ)
    (hM0 : 0 < M) (hM : M ≤ 30) (hN : N + 2 * M ≤ 2 ^ 16)
    {pick : List (Node M (N + 2 * M)) → Nat} (hp : PickOk pick) {ex : ℚ → XR} (he : ExpOk ex)
    (wlim nmax : ℚ) (hn : nmax ≤ 2 ^ 20) :
    ∃ (F : Nat) (L : List (Fin M → Fin (N + 2 * M))) (a : Acc M N),
      (∀ fuel, F ≤ fuel →
        hypotheses pick fuel ex wlim nmax (Hyp.costMatrix det miss fls) = some a) ∧
      Drawn (Hyp.costMatrix det miss fls) ex wlim nmax L a ∧
      ((∃ σ ∈ L, total (Hyp.costMatrix det miss fls) σ ≤ 600) →
        ∀ t : Order (N + 1), t.Ok → ∀ i : Fin M, ∃ (r : ℚ) (e δ : ℝ),
          a.posterior t i = fin r ∧ 0 ≤ r ∧ r ≤ 1 + (6 * L.length + 3 * N + 6) / 2 ^ 52 ∧
          e = Hyp.mass (Hyp.costMatrix det miss fls) L
              (fun σ => (σ i).val < N || (σ i).val == N + i.val) /
            Hyp.mass (Hyp.costMatrix det miss fls) L (fun _ => true) ∧
          δ = 8 * costErr M N + (7 * L.length + 3 * N + 14) / 2 ^ 52 ∧
          (|(r : ℝ) - e| ≤ δ ∨ (r = 0 ∧ e ≤ 1 / 1000000 + 1 / 2 ^ 60 + δ))) := by
  obtain ⟨F, L, a, g1, g2, g7⟩ :=
    cluster64 hC hf hlow hM0 hM hN hp he wlim nmax hn
  refine ⟨F, L, a, g1, g2, fun h t ht i => ?_⟩
  obtain ⟨s, s1, s2, s3, s4⟩ := (g7 h).2.1 t ht i
  obtain ⟨v, v1, v2⟩ := rlim64
  have e1 : (1 + 3 * (2 * L.length + 1 + (N + 1)) / 2 ^ 52 : ℚ) =
      1 + (6 * L.length + 3 * N + 6) / 2 ^ 52 := by ring
  have e2 : (8 * costErr M N + (7 * L.length + 3 * (N + 1) + 11) / 2 ^ 52 : ℝ) =
      8 * costErr M N + (7 * L.length + 3 * N + 14) / 2 ^ 52 := by ring
  rw [e1] at s3
  rw [e2] at s4
  have hpost : a.posterior t i = if v ≤ s then fin s else fin 0 := by
    unfold Acc.posterior targetCorrect
    rw [s1, v1]
    simp only [XR.le, XR.lt, XR.feq, Bool.or_eq_true, decide_eq_true_eq, le_iff_lt_or_eq]
  by_cases hv : v ≤ s
  · exact ⟨s, _, _, by rw [hpost, if_pos hv], s2, s3, rfl, rfl, Or.inl s4⟩
  · refine ⟨0, _, _, by rw [hpost, if_neg hv], le_refl _, by positivity, rfl, rfl,
      Or.inr ⟨rfl, ?_⟩⟩
    have h1 : (s : ℝ) ≤ v := by exact_mod_cast (not_le.1 hv).le
    have h2 : (v : ℝ) ≤ 1 / 1000000 + 1 / 2 ^ 60 := by
      have : v ≤ 1 / 1000000 + 1 / 2 ^ 60 := by linarith [(abs_le.1 v2).2]
      have := (Rat.cast_le (K := ℝ)).2 this
      push_cast at this
      exact this
    have h3 := (abs_le.1 s4).1
    linarith

/-- C80: the weight `rB` of a birth from a report.  It does not exceed 1, falls below 0 by no more
than rounding errors, and is one minus the normalised weight of the drawn hypotheses that use the
report (C22) up to the given error. -/
theorem C80_birth {det : Fin M → Fin N → XR} {miss fls : Fin M → XR}
    (hC : Doubles (Hyp.costMatrix det miss fls) (2 ^ 15)) (hf : ∀ i, IsFin (fls i))
    (hlow : ∀ τ, Feasible (Hyp.costMatrix det miss fls) τ →
      -600 ≤ total (Hyp.costMatrix det miss fls) τ)
    (hM0 : 0 < M) (hM : M ≤ 30) (hN : N + 2 * M ≤ 2 ^ 16)
    {pick : List (Node M (N + 2 * M)) → Nat} (hp : PickOk pick) {ex : ℚ → XR} (he : ExpOk ex)
    (wlim nmax : ℚ) (hn : nmax ≤ 2 ^ 20) :
    ∃ (F : Nat) (L : List (Fin M → Fin (N + 2 * M))) (a : Acc M N),
      (∀ fuel, F ≤ fuel →
        hypotheses pick fuel ex wlim nmax (Hyp.costMatrix det miss fls) = some a) ∧
      Drawn (Hyp.costMatrix det miss fls) ex wlim nmax L a ∧
      ((∃ σ ∈ L, total (Hyp.costMatrix det miss fls) σ ≤ 600) →
        ∀ t : Order M, t.Ok → ∀ j : Fin N, ∃ b : ℚ, a.rB t j = fin b ∧ b ≤ 1 ∧
          -((6 * L.length + 3 * M + 4) / 2 ^ 52) ≤ b ∧
          |(b : ℝ) - (1 - Hyp.mass (Hyp.costMatrix det miss fls) L
              (fun σ => decide (∃ i, (σ i).val = j.val)) /
            Hyp.mass (Hyp.costMatrix det miss fls) L (fun _ => true))| ≤
            8 * costErr M N + (7 * L.length + 3 * M + 12) / 2 ^ 52) := by
  obtain ⟨F, L, a, g1, g2, g7⟩ :=
    cluster64 hC hf hlow hM0 hM hN hp he wlim nmax hn
  refine ⟨F, L, a, g1, g2, fun h t ht j => ?_⟩
  obtain ⟨s, s1, s2, s3, s4, s5⟩ := (g7 h).2.2 t ht j
  have hLen : L.length ≤ 2 ^ 20 := by
    have hceil : ⌈nmax⌉₊ ≤ 2 ^ 20 := Nat.ceil_le.2 (by exact_mod_cast hn)
    rw [← g2.n]
    exact g2.budget.trans (max_le (by norm_num) hceil)
  have hη : (3 * (2 * L.length + 1 + M) / 2 ^ 52 : ℚ) ≤ 1 := by
    have h1 : (L.length : ℚ) ≤ 2 ^ 20 := by exact_mod_cast hLen
    have h2 : (M : ℚ) ≤ 30 := by exact_mod_cast hM
    rw [div_le_one (by norm_num)]
    linarith
  have habs : |1 - s| ≤ 1 := by rw [abs_le]; constructor <;> linarith
  obtain ⟨b, b1, b2, _⟩ := round64_spec (isDouble_one.onGrid.sub s2.onGrid) (X := 1) habs
    (one_le_pow₀ (by norm_num))
  have hb1 : b ≤ 1 := round64_mono b1 (show round64 1 = fin 1 by decide +kernel) (by linarith)
  rw [abs_le] at b2
  refine ⟨b, ?_, hb1, ?_, ?_⟩
  · unfold Acc.rB
    rw [s1]
    exact b1
  · have e1 : (6 * L.length + 3 * M + 4 : ℚ) / 2 ^ 52 =
        3 * (2 * L.length + 1 + M) / 2 ^ 52 + 1 / 2 ^ 52 := by ring
    rw [e1]
    linarith [b2.1]
  · have e2 : (7 * L.length + 3 * M + 12 : ℝ) / 2 ^ 52 =
        (7 * L.length + 3 * M + 11) / 2 ^ 52 + 1 / 2 ^ 52 := by ring
    have h1 := (Rat.cast_le (K := ℝ)).2 b2.1
    have h2 := (Rat.cast_le (K := ℝ)).2 b2.2
    push_cast at h1 h2
    rw [e2]
    rw [abs_le] at s5 ⊢
    constructor <;> linarith [s5.1, s5.2]

end Verif.HypF

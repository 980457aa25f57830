import Verif.HypF.Witness
import Verif.Hyp.Bayes

/-! # Property C120: the posterior of a cluster in `double` arithmetic

C65 compares the exact computation with the posterior of the LMB filter, C80 compares the computation in `double`
arithmetic with the exact normalised weight of the hypotheses that were drawn.  Here both are put together: how far is
the number the program computes from the posterior? -/

namespace Verif.HypF

open Verif.Lap Verif.LapF Verif.Murty XR

variable {M N : Nat}

theorem fsX_single {w : ℚ} (h : IsDouble w) (hb : |w| < 2 ^ 1023) : fsX [fin w] = fin w := by
  show round64 (0 + w) = fin w
  rw [zero_add, round64_double h hb]

theorem mass_single {C : Cost M (N + 2 * M)} {L : List (Fin M → Fin (N + 2 * M))} (hn : L.Nodup)
    {ℓ : Fin M → Fin (N + 2 * M)} (h : ℓ ∈ L) :
    Hyp.mass C L (fun σ => decide (σ = ℓ)) = Hyp.ew (total C ℓ) := by
  unfold Hyp.mass
  have : L.filter (fun σ => decide (σ = ℓ)) = [ℓ] := by
    have h1 := List.filter_eq (l := L) ℓ
    rw [List.count_eq_one_of_mem hn h] at h1
    exact h1
  rw [this]
  simp

/-- What has not been drawn: the part of the weight that one hypothesis left out can have. -/
theorem left_out {C : Cost M (N + 2 * M)} {ex : ℚ → XR} (he : ExpOk ex) {wlim nmax : ℚ}
    {L : List (Fin M → Fin (N + 2 * M))} {a : Acc M N} (hD : Drawn C ex wlim nmax L a)
    (hlow : ∀ τ, Feasible C τ → -600 ≤ total C τ) (hhigh : ∃ σ ∈ L, total C σ ≤ 600) (hM : M ≤ 30)
    (hN : N + 2 * M ≤ 2 ^ 16) (hn : nmax ≤ 2 ^ 20) :
    ∃ ρ : ℝ, 0 ≤ ρ ∧
      (∀ τ, Feasible C τ → τ ∉ L → Hyp.ew (total C τ) ≤ ρ * Hyp.mass C L fun _ => true) ∧
      ρ ≤ Real.exp (orderErr M N) / a.n ∧
      ((a.n : ℚ) < nmax →
        ρ ≤ Real.exp (orderErr M N) * (max 0 (wlim : ℝ) + 8 * costErr M N + (7 * a.n + 14) / 2 ^ 52)) ∧
      (wlim ≤ 0 → ((N + 2 * M : Nat) : ℚ) ^ M < nmax → ρ = 0) := by
  have hpos := Hyp.mass_pos C hD.ne
  have hlen : 0 < L.length := List.length_pos_iff.2 hD.ne
  have hn0 : (0 : ℝ) < a.n := by rw [hD.n]; exact_mod_cast hlen
  set E := Real.exp (orderErr M N) with hE
  have hE0 : 0 < E := Real.exp_pos _
  have hew : ∀ σ ∈ L, ∀ τ, Feasible C τ → τ ∉ L → Hyp.ew (total C τ) ≤ E * Hyp.ew (total C σ) := by
    intro σ hσ τ h1 h2
    have := hD.best σ hσ τ h1 h2
    rw [hE]
    unfold Hyp.ew
    rw [← Real.exp_add]
    apply Real.exp_le_exp.2
    have : (total C σ : ℝ) ≤ total C τ + orderErr M N := by exact_mod_cast this
    linarith
  have hmassL : (Hyp.mass C L fun _ => true) = (L.map fun σ => Hyp.ew (total C σ)).sum := by
    unfold Hyp.mass; simp
  have hρ1 : ∀ τ, Feasible C τ → τ ∉ L → Hyp.ew (total C τ) ≤ E / a.n * Hyp.mass C L fun _ => true := by
    intro τ h1 h2
    have h3 := List.card_nsmul_le_sum (L.map fun σ => E * Hyp.ew (total C σ)) (Hyp.ew (total C τ)) (by
      intro x hx
      obtain ⟨σ, hσ, rfl⟩ := List.mem_map.1 hx
      exact hew σ hσ τ h1 h2)
    rw [List.length_map, List.sum_map_mul_left, ← hmassL, nsmul_eq_mul, ← hD.n] at h3
    rw [div_mul_eq_mul_div, le_div_iff₀ hn0, mul_comm]
    exact h3
  by_cases hall : ∀ τ, Feasible C τ → τ ∈ L
  · have := costErr_nonneg M N
    refine ⟨0, le_refl _, fun τ h1 h2 => absurd (hall τ h1) h2, by positivity, fun _ => ?_, fun _ _ => rfl⟩
    have h1 : (0 : ℝ) ≤ costErr M N := by exact_mod_cast this
    have h2 : (0 : ℝ) ≤ max 0 (wlim : ℝ) := le_max_left _ _
    positivity
  -- the loop has stopped
  obtain ⟨c, c1, c2, -, -, c5⟩ := hD.stop
  have hstop := c5.resolve_right hall
  unfold StopAt at hstop
  rw [Bool.or_eq_true, decide_eq_true_eq, List.length_map, c1, ← hD.n] at hstop
  -- the weight of the last one
  have hlast : (a.n : ℚ) < nmax → ∃ ℓ ∈ L, 0 < wlim ∧
      Hyp.ew (total C ℓ) / (Hyp.mass C L fun _ => true) ≤ max 0 (wlim : ℝ) + 8 * costErr M N + (7 * a.n + 14) / 2 ^ 52 := by
    intro hlt
    have hs := hstop.resolve_right (not_le.2 hlt)
    set P := L.zip c with hP
    have hfst : P.map Prod.fst = L := List.map_fst_zip (by omega)
    have hsnd : P.map Prod.snd = c := List.map_snd_zip (by omega)
    have hPlen : P.length = L.length := by rw [hP, List.length_zip, c1, min_self]
    have hPne : P ≠ [] := by rw [← List.length_pos_iff, hPlen]; exact hlen
    have hκ : ∀ p ∈ P, |p.2 - total C p.1| ≤ costErr M N := by
      intro p hp
      obtain ⟨q, hq, rfl⟩ := List.mem_iff_getElem.1 hp
      have hqL : q < L.length := by omega
      have hqc : q < c.length := by omega
      have e : P[q] = (L[q], c[q]) := List.getElem_zip
      rw [e]
      exact c2 q _ _ (List.getElem?_eq_getElem hqL) (List.getElem?_eq_getElem hqc)
    have hmem : ∀ p ∈ P, p.1 ∈ L := fun p hp => by rw [← hfst]; exact List.mem_map_of_mem hp
    have hlowP : ∀ p ∈ P, -600 ≤ total C p.1 := fun p hp => hlow _ (hD.feasible _ (hmem p hp))
    have hhighP : ∃ p ∈ P, total C p.1 ≤ 600 := by
      obtain ⟨σ, hσ, h⟩ := hhigh
      rw [← hfst] at hσ
      obtain ⟨p, hp, rfl⟩ := List.mem_map.1 hσ
      exact ⟨p, hp, h⟩
    have hLen : P.length ≤ 2 ^ 21 := by
      have hceil : ⌈nmax⌉₊ ≤ 2 ^ 20 := Nat.ceil_le.2 (by exact_mod_cast hn)
      rw [hPlen, ← hD.n]
      exact hD.budget.trans (max_le (by norm_num) (hceil.trans (by norm_num)))
    obtain ⟨R, p0, hR⟩ : ∃ R p0, P = R ++ [p0] := ⟨_, _, (List.dropLast_append_getLast hPne).symm⟩
    have hp0 : p0 ∈ P := by rw [hR]; simp
    have hnd : (P.map Prod.fst).Nodup := by rw [hfst]; exact hD.nodup
    have hfilter : P.filter (fun p => decide (p.1 = p0.1)) = [p0] := by
      rw [hR, List.map_append, List.nodup_append] at hnd
      rw [hR, List.filter_append, List.filter_cons_of_pos (by simp), List.filter_nil,
        List.filter_eq_nil_iff.2, List.nil_append]
      intro p hp h
      rw [decide_eq_true_eq] at h
      exact hnd.2.2 p.1 (List.mem_map_of_mem hp) p0.1 (by simp) h
    obtain ⟨w, w1, w2, w3, w4, -⟩ := weight_err he (costErr_le hM hN) (hκ p0 hp0) (hlowP p0 hp0)
    obtain ⟨s, s1, _, s3, _, s5⟩ := (drawn_ratio (k := 1) he (costErr_nonneg M N) (costErr_le hM hN)
      hκ hlowP hhighP hLen (by norm_num) (fun _ σ => decide (σ = p0.1)) (fun σ => decide (σ = p0.1))
      (fun q _ => ⟨fun h => ⟨0, h⟩, fun ⟨_, h⟩ => h⟩)
      (fun _ _ x y _ _ => Subsingleton.elim x y)).2 (.leaf 0) (List.Perm.refl _)
    replace s1 : div64 (fsX ((P.filter fun p => decide (p.1 = p0.1)).map fun p => ex p.2))
      (fsX (P.map fun p => ex p.2)) = fin s := s1
    have hb : |w| < 2 ^ 1023 := by
      rw [abs_of_nonneg w3]
      exact w4.trans_lt (pow_lt_pow_right₀ (by norm_num) (by norm_num))
    rw [hfilter, List.map_cons, List.map_nil, w1, fsX_single w2 hb] at s1
    have hgl : (c.map ex).getLastD (fin 0) = fin w := by
      rw [← hsnd, hR, List.map_map, List.map_append, List.map_cons, List.map_nil, List.getLastD_concat]
      exact w1
    rw [hgl, ← hsnd, List.map_map] at hs
    rw [show fsX (P.map (ex ∘ Prod.snd)) = fsX (P.map fun p => ex p.2) from rfl, s1] at hs
    have hsw : s < wlim := by simpa [XR.lt] using hs
    refine ⟨p0.1, hmem p0 hp0, s3.trans_lt hsw, ?_⟩
    rw [hfst, mass_single hD.nodup (hmem p0 hp0), hPlen, ← hD.n] at s5
    have h1 : (s : ℝ) ≤ max 0 (wlim : ℝ) := le_max_of_le_right (by exact_mod_cast hsw.le)
    have h2 := (abs_le.1 s5).1
    have e2 : (8 * costErr M N + (7 * a.n + 3 * (1 : ℕ) + 11) / 2 ^ 52 : ℝ) =
      8 * costErr M N + (7 * a.n + 14) / 2 ^ 52 := by push_cast; ring
    rw [e2] at h2
    linarith
  have hzero : wlim ≤ 0 → ((N + 2 * M : Nat) : ℚ) ^ M < nmax → False := by
    intro h1 h2
    have hcard : L.length ≤ (N + 2 * M) ^ M := by
      have := hD.nodup.length_le_card
      rwa [Fintype.card_fun, Fintype.card_fin, Fintype.card_fin] at this
    obtain ⟨_, _, h, _⟩ := hlast (lt_of_le_of_lt (by rw [hD.n]; exact_mod_cast hcard) h2)
    linarith
  by_cases hlt : (a.n : ℚ) < nmax
  · obtain ⟨ℓ, hℓ, -, hb⟩ := hlast hlt
    refine ⟨min (E / a.n) (E * (Hyp.ew (total C ℓ) / Hyp.mass C L fun _ => true)),
      le_min (by positivity) (mul_nonneg hE0.le (div_nonneg (Hyp.ew_pos _).le hpos.le)), ?_,
      min_le_left _ _, fun _ => ?_, fun h1 h2 => (hzero h1 h2).elim⟩
    · intro τ h1 h2
      rcases min_choice (E / a.n) (E * (Hyp.ew (total C ℓ) / Hyp.mass C L fun _ => true)) with h | h <;> rw [h]
      · exact hρ1 τ h1 h2
      · rw [mul_assoc, div_mul_cancel₀ _ hpos.ne']
        exact hew ℓ hℓ τ h1 h2
    · exact (min_le_right _ _).trans (mul_le_mul_of_nonneg_left hb hE0.le)
  · exact ⟨E / a.n, by positivity, hρ1, le_refl _, fun h => absurd h hlt, fun h1 h2 => (hzero h1 h2).elim⟩

/-- **C120.**  The probabilities a cluster computes in `double` arithmetic against the posterior by Bayes' rule, all
joint events enumerated, for the costs it is given: the probability of each association, the existence probability of
each target (or 0, if it is below `1e-6`), and the weight of a birth from each report.  The error is that of the
arithmetic, `spur` (the price of writing 30000 for infinity), and the weight `T` of what was not drawn: at most about
`1/n` of the total per event after `n` hypotheses, about `w_lim` per event if the limit on their number was not
reached, and nothing at all if neither limit applies. -/
theorem C120_posterior {det : Fin M → Fin N → XR} {miss fls : Fin M → XR} {B : ℚ}
    (hC : Doubles (Hyp.costMatrix det miss fls) (2 ^ 15)) (hf : ∀ i, IsFin (fls i))
    (hB : ∀ i, ∃ q, (fls i = fin q ∨ miss i = fin q) ∧ q ≤ B)
    (hlow : ∀ τ, Feasible (Hyp.costMatrix det miss fls) τ →
      -600 ≤ total (Hyp.costMatrix det miss fls) τ)
    (hhigh : ∃ τ, Feasible (Hyp.costMatrix det miss fls) τ ∧
      total (Hyp.costMatrix det miss fls) τ + orderErr M N ≤ 600)
    (hM0 : 0 < M) (hM : M ≤ 30) (hN : N + 2 * M ≤ 2 ^ 16)
    {pick : List (Node M (N + 2 * M)) → Nat} (hp : PickOk pick) {ex : ℚ → XR} (he : ExpOk ex)
    (wlim nmax : ℚ) (hn : nmax ≤ 2 ^ 20) :
    ∃ (F : Nat) (a : Acc M N) (T : ℝ),
      (∀ fuel, F ≤ fuel →
        hypotheses pick fuel ex wlim nmax (Hyp.costMatrix det miss fls) = some a) ∧
      0 < a.n ∧ a.n ≤ max 1 ⌈nmax⌉₊ ∧
      (∀ i j, ∃ x : ℚ, a.norm i j = fin x ∧
        |(x : ℝ) - Hyp.bayes (Hyp.weights det miss fls) fun e => e i = Hyp.fateOf j| ≤
          8 * costErr M N + (7 * a.n + 14) / 2 ^ 52 + Hyp.spur M B + T) ∧
      (∀ t : Order (N + 1), t.Ok → ∀ i, ∃ s r : ℚ, a.posterior t i = fin r ∧
        (r = s ∨ (r = 0 ∧ s < 1 / 1000000 + 1 / 2 ^ 60)) ∧
        |(s : ℝ) - Hyp.bayes (Hyp.weights det miss fls) fun e => e i ≠ .absent| ≤
          8 * costErr M N + (7 * a.n + 3 * N + 14) / 2 ^ 52 + Hyp.spur M B + T) ∧
      (∀ t : Order M, t.Ok → ∀ j, ∃ b : ℚ, a.rB t j = fin b ∧
        |(b : ℝ) - Hyp.bayes (Hyp.weights det miss fls) fun e => ∀ i, e i ≠ .report j| ≤
          8 * costErr M N + (7 * a.n + 3 * M + 12) / 2 ^ 52 + Hyp.spur M B + T) ∧
      T ≤ ((N + 2 : Nat) : ℝ) ^ M * (Real.exp (orderErr M N) / a.n) ∧
      ((a.n : ℚ) < nmax → T ≤ ((N + 2 : Nat) : ℝ) ^ M * (Real.exp (orderErr M N) *
        (max 0 (wlim : ℝ) + 8 * costErr M N + (7 * a.n + 14) / 2 ^ 52))) ∧
      (wlim ≤ 0 → ((N + 2 * M : Nat) : ℚ) ^ M < nmax → T = 0) := by
  have hA : ∀ i, ∃ g, Hyp.Anchor (Hyp.weights det miss fls i) B g := by
    intro i
    obtain ⟨q, h, hq⟩ := hB i
    have he : Real.exp (-(B : ℝ)) ≤ Real.exp (-(q : ℝ)) :=
      Real.exp_le_exp.2 (neg_le_neg (by exact_mod_cast hq))
    rcases h with h | h
    · exact ⟨.absent, Or.inl rfl, by simpa only [Hyp.weights, h, Hyp.costWeight] using he⟩
    · exact ⟨.missed, Or.inr rfl, by simpa only [Hyp.weights, h, Hyp.costWeight] using he⟩
  obtain ⟨F, L, a, g1, hD, g7⟩ := cluster64 hC hf hlow hM0 hM hN hp he wlim nmax hn
  have hh : ∃ σ ∈ L, total (Hyp.costMatrix det miss fls) σ ≤ 600 := by
    obtain ⟨τ, h1, h2⟩ := hhigh
    have h0 : 0 ≤ orderErr M N := by unfold orderErr; positivity
    by_cases h : τ ∈ L
    · exact ⟨τ, h, by linarith⟩
    · obtain ⟨σ, hσ⟩ := List.exists_mem_of_ne_nil L hD.ne
      exact ⟨σ, hσ, (hD.best σ hσ τ h1 h).trans h2⟩
  obtain ⟨ρ, hρ0, hρu, hρn, hρw, hρz⟩ := left_out he hD hlow hh hM hN hn
  obtain ⟨k1, k2, k3⟩ := g7 hh
  have hclose := Hyp.close hA hD.nodup hD.feasible hD.ne hρ0 hρu
  set C := Hyp.costMatrix det miss fls with hCd
  set W := Hyp.weights det miss fls with hW
  have hpos := Hyp.mass_pos C hD.ne
  have hE : 0 ≤ ((N + 2 : Nat) : ℝ) ^ M := by positivity
  have hsplit : ∀ {x y z u v : ℝ}, |x - y| ≤ u → |y - z| ≤ v → |x - z| ≤ u + v := by
    intro x y z u v h1 h2
    have := abs_sub_le x y z
    linarith
  refine ⟨F, a, ((N + 2 : Nat) : ℝ) ^ M * ρ, g1, by rw [hD.n]; exact List.length_pos_iff.2 hD.ne, hD.budget,
    ?_, ?_, ?_, mul_le_mul_of_nonneg_left hρn hE, fun h => mul_le_mul_of_nonneg_left (hρw h) hE,
    fun h1 h2 => by rw [hρz h1 h2, mul_zero]⟩
  · intro i j
    obtain ⟨x, x1, -, -, x4⟩ := k1 i j
    refine ⟨x, x1, ?_⟩
    rw [add_assoc, hD.n]
    refine hsplit x4 (hclose _ _ ?_)
    intro e
    have hj := j.2
    have hi := i.2
    simp only [decide_eq_true_eq, Hyp.target_eq, Hyp.asg, Hyp.fateOf]
    cases he : e i with
    | report k =>
      have := k.2
      simp only [Hyp.col]
      split
      · simp only [Hyp.Fate.report.injEq, Fin.ext_iff]; omega
      · simp only [reduceCtorEq, iff_false]; omega
    | missed =>
      simp only [Hyp.col]
      split
      · simp only [reduceCtorEq, iff_false]; omega
      · exact iff_of_true (Or.inr ⟨by omega, trivial⟩) rfl
    | absent =>
      simp only [Hyp.col]
      split
      · simp only [reduceCtorEq, iff_false]; omega
      · simp only [reduceCtorEq, iff_false]; omega
  · intro t ht i
    obtain ⟨s, s1, s2, s3, s4⟩ := k2 t ht i
    obtain ⟨v, v1, v2⟩ := rlim64
    have hpost : a.posterior t i = if v ≤ s then fin s else fin 0 := by
      unfold Acc.posterior targetCorrect
      rw [s1, v1]
      simp only [XR.le, XR.lt, XR.feq, Bool.or_eq_true, decide_eq_true_eq, le_iff_lt_or_eq]
    refine ⟨s, if v ≤ s then s else 0, by rw [hpost]; split <;> rfl, ?_, ?_⟩
    · split
      · exact Or.inl rfl
      · exact Or.inr ⟨rfl, by linarith [(abs_le.1 v2).2]⟩
    have e2 : (8 * costErr M N + (7 * L.length + 3 * (N + 1) + 11) / 2 ^ 52 : ℝ) =
        8 * costErr M N + (7 * a.n + 3 * N + 14) / 2 ^ 52 := by rw [hD.n]; ring
    rw [e2] at s4
    rw [add_assoc]
    refine hsplit s4 (hclose _ _ ?_)
    intro e
    have hi := i.2
    rw [Bool.or_eq_true, decide_eq_true_iff, beq_iff_eq]
    change (Hyp.col i (e i)).val < N ∨ (Hyp.col i (e i)).val = N + i.val ↔ _
    cases he : e i with
    | report k => have := k.2; simp [Hyp.col]
    | missed => simp [Hyp.col]
    | absent => simp [Hyp.col]; omega
  · intro t ht j
    obtain ⟨s, s1, s2, s3, s4, s5⟩ := k3 t ht j
    have hLen : L.length ≤ 2 ^ 20 := by
      have hceil : ⌈nmax⌉₊ ≤ 2 ^ 20 := Nat.ceil_le.2 (by exact_mod_cast hn)
      rw [← hD.n]
      exact hD.budget.trans (max_le (by norm_num) hceil)
    have hη : (3 * (2 * L.length + 1 + M) / 2 ^ 52 : ℚ) ≤ 1 := by
      have h1 : (L.length : ℚ) ≤ 2 ^ 20 := by exact_mod_cast hLen
      have h2 : (M : ℚ) ≤ 30 := by exact_mod_cast hM
      rw [div_le_one (by norm_num)]
      linarith
    have habs : |1 - s| ≤ 1 := by rw [abs_le]; constructor <;> linarith
    obtain ⟨b, b1, b2, _⟩ := round64_spec (Verif.RTreeF.isDouble_one.onGrid.sub s2.onGrid) (X := 1) habs
      (one_le_pow₀ (by norm_num))
    refine ⟨b, by unfold Acc.rB; rw [s1]; exact b1, ?_⟩
    have hcomp : 1 - Hyp.mass C L (fun σ => decide (∃ i, (σ i).val = j.val)) / Hyp.mass C L (fun _ => true) =
        Hyp.mass C L (fun σ => decide (∀ i, (σ i).val ≠ j.val)) / Hyp.mass C L (fun _ => true) := by
      have h1 := Hyp.sum_mass (ι := Bool) C L (fun b σ =>
        if b then decide (∃ i, (σ i).val = j.val) else decide (∀ i, (σ i).val ≠ j.val))
        (fun _ => true) (by
          intro σ _
          by_cases h : ∃ i, (σ i).val = j.val
          · exact ⟨fun _ => ⟨true, by simp [h]⟩, fun _ => rfl⟩
          · exact ⟨fun _ => ⟨false, by simpa using h⟩, fun _ => rfl⟩) (by
          intro σ _ x y hx hy
          cases x <;> cases y <;> simp at hx hy ⊢
          · obtain ⟨i, hi⟩ := hy; exact hx i hi
          · obtain ⟨i, hi⟩ := hx; exact hy i hi)
      simp only [Fintype.sum_bool, if_true, Bool.false_eq_true, if_false] at h1
      rw [eq_div_iff hpos.ne', sub_mul, div_mul_cancel₀ _ hpos.ne']
      linarith
    have hb : |(b : ℝ) - Hyp.mass C L (fun σ => decide (∀ i, (σ i).val ≠ j.val)) / Hyp.mass C L (fun _ => true)| ≤
        8 * costErr M N + (7 * a.n + 3 * M + 12) / 2 ^ 52 := by
      rw [← hcomp]
      have e2 : (7 * a.n + 3 * M + 12 : ℝ) / 2 ^ 52 =
          (7 * L.length + 3 * M + 11) / 2 ^ 52 + 1 / 2 ^ 52 := by rw [hD.n]; ring
      rw [abs_le] at b2
      have h1 := (Rat.cast_le (K := ℝ)).2 b2.1
      have h2 := (Rat.cast_le (K := ℝ)).2 b2.2
      push_cast at h1 h2
      rw [e2]
      rw [abs_le] at s5 ⊢
      constructor <;> linarith [s5.1, s5.2]
    rw [add_assoc]
    refine hsplit hb (hclose _ _ ?_)
    intro e
    have hj := j.2
    rw [decide_eq_true_iff]
    refine forall_congr' fun i => ?_
    change (Hyp.col i (e i)).val ≠ j.val ↔ _
    cases he : e i with
    | report k => simp [Hyp.col, Fin.ext_iff]
    | missed => simp [Hyp.col]; omega
    | absent => simp [Hyp.col]; omega

/-- Two targets and a report, ten thousand hypotheses allowed: everything is drawn, and the existence probabilities
are those of the posterior up to rounding and the price of 30000. -/
example : ∃ (F : Nat) (a : Acc 2 1),
    (∀ fuel, F ≤ fuel → hypotheses firstBest fuel expOk_exists.choose 0 10000
      (Hyp.costMatrix Hyp.exDet Hyp.exMiss Hyp.exFls) = some a) ∧
    ∀ t : Order 2, t.Ok → ∀ i, ∃ s r : ℚ, a.posterior t i = fin r ∧
      (r = s ∨ (r = 0 ∧ s < 1 / 1000000 + 1 / 2 ^ 60)) ∧
      |(s : ℝ) - Hyp.bayes (Hyp.weights Hyp.exDet Hyp.exMiss Hyp.exFls) fun e => e i ≠ .absent| ≤
        8 * costErr 2 1 + (7 * a.n + 17) / 2 ^ 52 + Hyp.spur 2 3 := by
  obtain ⟨F, a, T, h1, _, _, _, h2, _, _, _, h3⟩ := C120_posterior (B := 3) exC_doubles Hyp.exFls_ok
    (by intro i; unfold Hyp.exFls; split
        · exact ⟨_, Or.inl rfl, by norm_num⟩
        · exact ⟨_, Or.inl rfl, by norm_num⟩) exC_low
    ⟨fun i => ⟨1 + 2 + i.val, by omega⟩, ⟨fun i j h => by ext; simpa using h, by
      intro i
      rcases exC_cases i ⟨1 + 2 + i.val, by omega⟩ with h | ⟨q, _, h⟩
      · exfalso; revert i; decide +kernel
      · exact ⟨q, h⟩⟩, by decide +kernel⟩ (by decide) (by decide) (by decide)
    MurtyF.firstBest_ok expOk_exists.choose_spec 0 10000 (by norm_num)
  refine ⟨F, a, h1, fun t ht i => ?_⟩
  obtain ⟨s, r, g1, g2, g3⟩ := h2 t ht i
  rw [h3 le_rfl (by norm_num), add_zero] at g3
  refine ⟨s, r, g1, g2, g3.trans (le_of_eq ?_)⟩
  norm_num
  ring

end Verif.HypF

import Verif.HypF.Props

/-!
# C103 in `double` arithmetic: existence probabilities of exactly 1

A hypothesis whose weight is below half a unit in the last place of the sum is lost.  So a detection
can make an existence probability exactly 1, and then no scan without a report lowers it.
-/

namespace Verif.HypF

open Verif.Lap Verif.LapF Verif.Murty XR

/-- The doubles above a positive double are at a relative distance of at least `2⁻⁵³`. -/
theorem double_gap {a r : ℚ} (ha : IsDouble a) (hr : IsDouble r) (a0 : 0 < a) (h : a < r) :
    a / 2 ^ 53 < r - a := by
  obtain ⟨z, e, rfl, hz, _, _⟩ := ha
  obtain ⟨y, f, rfl, hy, _, _⟩ := hr
  have pe : (0 : ℚ) < 2 ^ e := zpow_pos (by norm_num) _
  have pf : (0 : ℚ) < 2 ^ f := zpow_pos (by norm_num) _
  rw [abs_lt] at hz hy
  rcases le_total e f with hef | hef
  · -- both are multiples of `2 ^ e`
    obtain ⟨d, rfl⟩ := Int.exists_add_of_le hef
    have e1 : (2 : ℚ) ^ (e + (d : ℤ)) = 2 ^ d * 2 ^ e := by
      rw [zpow_add₀ (by norm_num), zpow_natCast, mul_comm]
    rw [e1] at h ⊢
    have h1 : (z : ℚ) < y * 2 ^ d := by
      rw [← mul_assoc] at h
      exact lt_of_mul_lt_mul_right h pe.le
    have h2 : (z : ℚ) + 1 ≤ y * 2 ^ d := by
      have : z < y * 2 ^ d := by exact_mod_cast h1
      have : z + 1 ≤ y * 2 ^ d := this
      exact_mod_cast this
    have h3 : (z : ℚ) < 2 ^ 53 := by exact_mod_cast hz.2
    have h4 : (z : ℚ) * 2 ^ e / 2 ^ 53 < 2 ^ e := by
      rw [div_lt_iff₀ (by norm_num)]
      nlinarith
    have h5 := mul_le_mul_of_nonneg_right h2 pe.le
    linarith
  · obtain ⟨d, rfl⟩ := Int.exists_add_of_le hef
    have e1 : (2 : ℚ) ^ (f + (d : ℤ)) = 2 ^ d * 2 ^ f := by
      rw [zpow_add₀ (by norm_num), zpow_natCast, mul_comm]
    rw [e1] at h a0 ⊢
    have h1 : (z : ℚ) * 2 ^ d < y := by
      rw [← mul_assoc] at h
      exact lt_of_mul_lt_mul_right h pf.le
    have h2 : (z : ℚ) * 2 ^ d + 1 ≤ y := by
      have : z * 2 ^ d < y := by exact_mod_cast h1
      have : z * 2 ^ d + 1 ≤ y := this
      exact_mod_cast this
    have h3 : (y : ℚ) < 2 ^ 53 := by exact_mod_cast hy.2
    have h4 : (z : ℚ) * (2 ^ d * 2 ^ f) / 2 ^ 53 < 2 ^ f := by
      rw [div_lt_iff₀ (by norm_num)]
      nlinarith
    have h5 := mul_le_mul_of_nonneg_right h2 pf.le
    linarith

/-- A weight below `2⁻⁵⁵` of the sum is lost. -/
theorem absorb {a b : ℚ} (ha : IsDouble a) (a0 : 0 < a) (ha1 : a ≤ 2 ^ 999) (b0 : 0 ≤ b)
    (hb : b ≤ a / 2 ^ 55) : round64 (a + b) = fin a := by
  have hle : a + b ≤ 2 ^ 1000 := by
    have : a / 2 ^ 55 ≤ a := div_le_self a0.le (by norm_num)
    have h2 : (2 : ℚ) ^ 1000 = 2 * 2 ^ 999 := by rw [← pow_succ']
    rw [h2]
    clear h2
    generalize (2 : ℚ) ^ 999 = B at *
    linarith
  obtain ⟨r, hr, hd, _, _⟩ := round64_rel (by linarith : 0 ≤ a + b) hle
  have hn := round64_nearest hr ha
  rw [show |a - (a + b)| = b by rw [sub_add_cancel_left, abs_neg, abs_of_nonneg b0], abs_le] at hn
  rcases lt_trichotomy a r with h | h | h
  · have h1 := double_gap ha hd a0 h
    have h2 : a / 2 ^ 53 = 4 * (a / 2 ^ 55) := by ring
    have h3 : 0 < a / 2 ^ 55 := div_pos a0 (by norm_num)
    linarith [hn.2]
  · rw [hr, h]
  · linarith [hn.1]

/-- A sum from left to right of one weight and others that are much smaller. -/
theorem fsX_absorb {w : ℚ} (hd : IsDouble w) (w0 : 0 < w) (w1 : w ≤ 2 ^ 999) (l : List XR)
    (hl : ∀ x ∈ l, ∃ b, x = fin b ∧ 0 ≤ b ∧ b ≤ w / 2 ^ 55) : fsX (fin w :: l) = fin w := by
  have h0 : b64.add (fin 0) (fin w) = fin w := by
    show round64 (0 + w) = _
    rw [zero_add]
    have := absorb hd w0 w1 (le_refl 0) (by positivity)
    rwa [add_zero] at this
  unfold fsX
  rw [List.foldl_cons, h0]
  induction l with
  | nil => rfl
  | cons x l ih =>
    obtain ⟨b, rfl, b0, b1⟩ := hl _ List.mem_cons_self
    rw [List.foldl_cons, show b64.add (fin w) (fin b) = fin w from absorb hd w0 w1 b0 b1]
    exact ih fun y hy => hl y (List.mem_cons_of_mem _ hy)

theorem div64_self {w : ℚ} (w0 : 0 < w) : div64 (fin w) (fin w) = fin 1 := by
  show (if w = 0 then _ else round64 (w / w)) = _
  rw [if_neg w0.ne', div_self w0.ne']
  exact round64_double RTreeF.isDouble_one (by rw [abs_one]; exact one_lt_pow₀ (by norm_num) (by norm_num))

/-- A cost of at most 590 has a weight of at least `2⁻⁹²¹`; one of at least -600 of at most `2⁹⁹⁹`. -/
theorem weight_lower {ex : ℚ → XR} (he : ExpOk ex) {q : ℚ} (h1 : -600 ≤ q) (h2 : q ≤ 590) :
    ∃ w, ex q = fin w ∧ IsDouble w ∧ (1 : ℚ) / 2 ^ 921 ≤ w ∧ w ≤ 2 ^ 999 ∧
      Real.exp (-(q : ℝ)) / 2 ≤ w := by
  obtain ⟨w, e1, e2, e3, e4⟩ := he q (by linarith)
  have hq : (q : ℝ) ≤ 590 := by exact_mod_cast h2
  have hq1 : (-600 : ℝ) ≤ q := by exact_mod_cast h1
  have l1 : (1 : ℝ) / 2 ^ 920 ≤ Real.exp (-(q : ℝ)) := by
    have h3 := exp_mul_le 46
    have h4 : Real.exp (q : ℝ) ≤ 2 ^ 920 := by
      refine (Real.exp_le_exp.2 ?_).trans h3
      push_cast; linarith
    rw [Real.exp_neg, ← one_div]
    exact one_div_le_one_div_of_le (Real.exp_pos _) h4
  have l2 : Real.exp (-(q : ℝ)) ≤ 2 ^ 940 := by
    refine (Real.exp_le_exp.2 ?_).trans (exp_mul_le 47)
    push_cast; linarith
  have l3 : (1 : ℝ) / 2 ^ 1074 ≤ Real.exp (-(q : ℝ)) / 4 := by
    refine le_trans ?_ (div_le_div_of_nonneg_right l1 (by norm_num))
    rw [div_div, ← show (2 : ℝ) ^ 920 * 4 = 2 ^ 920 * 4 from rfl]
    refine one_div_le_one_div_of_le (by positivity) ?_
    have : (2 : ℝ) ^ 1074 = 2 ^ 920 * 2 ^ 154 := by rw [← pow_add]
    rw [this]
    exact mul_le_mul_of_nonneg_left (by norm_num) (by positivity)
  have l4 : Real.exp (-(q : ℝ)) / 2 ^ 52 ≤ Real.exp (-(q : ℝ)) / 4 :=
    div_le_div_of_nonneg_left (Real.exp_pos _).le (by norm_num) (by norm_num)
  rw [abs_le] at e4
  have l5 : Real.exp (-(q : ℝ)) / 2 ≤ w := by linarith [e4.1]
  refine ⟨w, e1, e2, ?_, ?_, l5⟩
  · have h : (1 : ℝ) / 2 ^ 921 ≤ w := by
      refine le_trans ?_ l5
      have : (1 : ℝ) / 2 ^ 921 = 1 / 2 ^ 920 / 2 := by rw [pow_succ, div_div]
      rw [this]
      exact div_le_div_of_nonneg_right l1 (by norm_num)
    refine (Rat.cast_le (K := ℝ)).1 ?_
    push_cast
    exact h
  · have h : (w : ℝ) ≤ 2 ^ 999 := by
      have h5 : (2 : ℝ) ^ 999 = 2 ^ 940 * 2 ^ 59 := by rw [← pow_add]
      have h6 : (2 : ℝ) * 2 ^ 940 ≤ 2 ^ 999 := by
        rw [h5, mul_comm]
        exact mul_le_mul_of_nonneg_left (by norm_num) (by positivity)
      have h7 := Real.exp_pos (-(q : ℝ))
      have h8 := e4.2
      clear e4 h5
      generalize (2 : ℝ) ^ 999 = B at *
      generalize (2 : ℝ) ^ 940 = B' at *
      generalize (1 : ℝ) / 2 ^ 1074 = τ at *
      linarith
    refine (Rat.cast_le (K := ℝ)).1 ?_
    push_cast
    exact h

/-- A cost that is higher by 43 has a weight below `2⁻⁵⁵`. -/
theorem weight_tiny {ex : ℚ → XR} (he : ExpOk ex) {q q' : ℚ} (h1 : -600 ≤ q) (h2 : q ≤ 590)
    (h3 : q + 43 ≤ q') {w : ℚ} (hw : (1 : ℚ) / 2 ^ 921 ≤ w)
    (hw' : Real.exp (-(q : ℝ)) / 2 ≤ w) :
    ∃ b, ex q' = fin b ∧ IsDouble b ∧ 0 ≤ b ∧ b ≤ w / 2 ^ 55 := by
  obtain ⟨b, e1, e2, e3, e4⟩ := he q' (by linarith)
  refine ⟨b, e1, e2, e3, ?_⟩
  have hq : (q : ℝ) + 43 ≤ q' := by exact_mod_cast h3
  have l1 : Real.exp (-(q' : ℝ)) ≤ Real.exp (-(q : ℝ)) / 2 ^ 60 := by
    have h5 : (2 : ℝ) ^ 60 ≤ Real.exp 43 := by
      have h6 : Real.exp (43 : ℝ) = Real.exp 1 ^ 43 := by rw [← Real.exp_nat_mul]; norm_num
      rw [h6]
      refine le_trans ?_ (pow_le_pow_left₀ (by norm_num) Real.exp_one_gt_d9.le 43)
      norm_num
    rw [le_div_iff₀ (by positivity)]
    calc Real.exp (-(q' : ℝ)) * 2 ^ 60 ≤ Real.exp (-(q' : ℝ)) * Real.exp 43 :=
          mul_le_mul_of_nonneg_left h5 (Real.exp_pos _).le
      _ = Real.exp (-(q' : ℝ) + 43) := (Real.exp_add _ _).symm
      _ ≤ _ := Real.exp_le_exp.2 (by linarith)
  have l2 : Real.exp (-(q' : ℝ)) / 2 ^ 52 ≤ Real.exp (-(q' : ℝ)) :=
    div_le_self (Real.exp_pos _).le (by norm_num)
  have hwr : (1 : ℝ) / 2 ^ 921 ≤ w := by
    have := (Rat.cast_le (K := ℝ)).2 hw
    push_cast at this
    exact this
  have l3 : (1 : ℝ) / 2 ^ 1074 ≤ w / 2 ^ 60 := by
    refine le_trans ?_ (div_le_div_of_nonneg_right hwr (by positivity))
    rw [div_div, ← pow_add]
    exact one_div_le_one_div_of_le (by positivity) (pow_le_pow_right₀ (by norm_num) (by norm_num))
  have h : (b : ℝ) ≤ w / 2 ^ 55 := by
    rw [abs_le] at e4
    have l4 : Real.exp (-(q : ℝ)) / 2 ^ 60 ≤ 2 * (w / 2 ^ 60) := by
      rw [← mul_div_assoc]
      exact div_le_div_of_nonneg_right (by linarith) (by positivity)
    have l5 : (w : ℝ) / 2 ^ 55 = 32 * (w / 2 ^ 60) := by ring
    have l6 : (0 : ℝ) < w / 2 ^ 60 := div_pos (lt_of_lt_of_le (by positivity) hwr) (by positivity)
    linarith [e4.2]
  exact_mod_cast h

/-- The unit of error of costs up to `2²⁰` in a cluster of one target and at most one report. -/
theorem unit_small {m : Nat} (hm : m ≤ 3) : 0 ≤ MurtyF.unit 1 m (2 ^ 20) ∧
    MurtyF.unit 1 m (2 ^ 20) ≤ 1 / 2 ^ 20 := by
  unfold MurtyF.unit
  have h : (m : ℚ) ≤ 3 := by exact_mod_cast hm
  have h0 : (0 : ℚ) ≤ m := Nat.cast_nonneg m
  constructor
  · positivity
  · rw [div_le_div_iff₀ (by norm_num) (by norm_num)]
    norm_num
    linarith

theorem target_inj {N : Nat} {j j' : Fin (N + 2 * 1)} {c : Fin (N + 1)}
    (h : Hyp.target (M := 1) 0 j = some c) (h' : Hyp.target (M := 1) 0 j' = some c) : j = j' := by
  unfold Hyp.target at h h'
  ext
  split_ifs at h h' <;> simp_all <;> (first | omega | skip) <;> simp_all [Fin.ext_iff] <;> omega

/-- A cluster of one target in which one hypothesis is much more likely than all others: it is drawn
first, and the others are lost in the sum of the weights. -/
theorem dominant {N : Nat} (hN : N ≤ 1) {C : Cost 1 (N + 2 * 1)} (hC : Doubles C (2 ^ 20))
    {j0 : Fin (N + 2 * 1)} {q0 : ℚ} (h0 : C 0 j0 = fin q0) (l0 : -599 ≤ q0) (u0 : q0 ≤ 589)
    (hj : ∀ j, j ≠ j0 → ∀ q, C 0 j = fin q → q0 + 45 ≤ q)
    {pick : List (Node 1 (N + 2 * 1)) → Nat} (hp : PickOk pick) {ex : ℚ → XR} (he : ExpOk ex)
    (wlim nmax : ℚ) :
    ∃ (F : Nat) (a : Acc 1 N) (w : ℚ), (∀ fuel, F ≤ fuel →
        hypotheses pick fuel ex wlim nmax C = some a) ∧ 0 < w ∧ a.wsum = fin w ∧
      ∀ c, (Hyp.target 0 j0 = some c → a.R 0 c = fin w) ∧
        (Hyp.target 0 j0 ≠ some c → ∃ b, a.R 0 c = fin b ∧ 0 ≤ b ∧ b ≤ w / 2 ^ 55) := by
  have hm3 : N + 2 * 1 ≤ 3 := by omega
  obtain ⟨F, P, a, g1, g2, g3, g4, g5, g6, g7, g8, g9⟩ := hypotheses_spec hC (by norm_num) (by norm_num)
    (by norm_num) (by
      have : ((N + 2 * 1 : Nat) : ℚ) ≤ 3 := by exact_mod_cast hm3
      linarith) (by
      have h1 : ((N + 2 * 1 : Nat) : ℚ) ≤ 3 := by exact_mod_cast hm3
      have h2 : (30 * ((N + 2 * 1 : Nat) : ℚ) + 6 * ((1 : Nat) : ℚ) + 60) * 2 ^ 20 ≤ 2 ^ 30 := by
        norm_num at h1 ⊢; linarith
      exact h2.trans (pow_le_pow_right₀ (by norm_num) (by norm_num))) hp ex wlim nmax
  obtain ⟨v0, v1⟩ := unit_small hm3
  set U := MurtyF.unit 1 (N + 2 * 1) (2 ^ 20) with hU
  have hs : 2 * ((1 : Nat) : ℚ) * slackBound 1 U + (6 * ((1 : Nat) : ℚ) + 6) * U ≤ 1 := by
    unfold slackBound
    norm_num at v1 ⊢
    linarith
  have hc : (2 * ((1 : Nat) : ℚ) + 2) * U ≤ 1 := by
    norm_num at v1 ⊢
    linarith
  have htot : ∀ σ : Fin 1 → Fin (N + 2 * 1), total C σ = (C 0 (σ 0)).val := by
    intro σ
    simp [total]
  have f0 : Feasible C fun _ => j0 :=
    ⟨fun i j _ => Subsingleton.elim i j, fun i => by rw [Subsingleton.elim i 0]; exact ⟨q0, h0⟩⟩
  have t0 : total C (fun _ => j0) = q0 := by rw [htot, h0]; rfl
  have tbig : ∀ σ, Feasible C σ → σ ≠ (fun _ => j0) → q0 + 45 ≤ total C σ := by
    intro σ hσ hne
    obtain ⟨q, hq⟩ := hσ.2 0
    rw [htot, hq]
    refine hj (σ 0) (fun h => hne ?_) q hq
    funext i
    rw [Subsingleton.elim i 0]; exact h
  have hin : (fun _ => j0) ∈ P.map Prod.fst := by
    by_contra hnot
    have hP : P ≠ [] := by
      rcases g9 with h | h
      · exact h.1
      · exact absurd (h _ f0) hnot
    obtain ⟨p, hpP⟩ := List.exists_mem_of_ne_nil _ hP
    have h1 := g7 p hpP _ f0 hnot
    have h2 := tbig p.1 (g4 p hpP) fun h => hnot (List.mem_map.2 ⟨p, hpP, h⟩)
    rw [t0] at h1
    linarith
  obtain ⟨p0, hp0, hp0'⟩ := List.mem_map.1 hin
  obtain ⟨A, B, rfl⟩ := List.append_of_mem hp0
  have hdist : ∀ p ∈ A ++ B, p.1 ≠ fun _ => j0 := by
    intro p hpm h
    rw [List.map_append, List.map_cons, hp0', List.nodup_append] at g3
    obtain ⟨_, n2, n3⟩ := g3
    rw [List.nodup_cons] at n2
    rcases List.mem_append.1 hpm with hA | hB
    · exact n3 _ (List.mem_map.2 ⟨p, hA, h⟩) _ List.mem_cons_self rfl
    · exact n2.1 (List.mem_map.2 ⟨p, hB, h⟩)
  have hA : A = [] := by
    rw [List.eq_nil_iff_forall_not_mem]
    intro p hpA
    have h1 := (List.pairwise_append.1 g6).2.2 p hpA p0 List.mem_cons_self
    have h2 := tbig p.1 (g4 p (by simp [hpA])) (hdist p (by simp [hpA]))
    rw [hp0', t0] at h1
    linarith
  subst hA
  rw [List.nil_append] at *
  have c0 := g5 p0 List.mem_cons_self
  rw [hp0', t0] at c0
  have c0' := abs_le.1 (c0.trans hc)
  obtain ⟨w, w1, w2, w3, w4, w5⟩ := weight_lower he (q := p0.2) (by linarith [c0'.1])
    (by linarith [c0'.2])
  have w0 : 0 < w := lt_of_lt_of_le (by positivity) w3
  have hB : ∀ p ∈ B, ∃ b, ex p.2 = fin b ∧ IsDouble b ∧ 0 ≤ b ∧ b ≤ w / 2 ^ 55 := by
    intro p hpB
    have h1 := tbig p.1 (g4 p (by simp [hpB])) (hdist p hpB)
    have h2 := abs_le.1 ((g5 p (by simp [hpB])).trans hc)
    exact weight_tiny he (by linarith [c0'.1]) (by linarith [c0'.2])
      (by linarith [c0'.2, h2.1]) w3 w5
  refine ⟨F, a, w, g1, w0, ?_, fun c => ⟨fun h => ?_, fun h => ?_⟩⟩
  · rw [g2.wsum, List.map_cons, w1]
    refine fsX_absorb w2 w0 w4 _ fun x hx => ?_
    obtain ⟨p, hpB, rfl⟩ := List.mem_map.1 hx
    obtain ⟨b, b1, _, b2⟩ := hB p hpB
    exact ⟨b, b1, b2⟩
  · rw [g2.R, List.filter_cons_of_pos (by simp [hp0', h]), List.map_cons, w1]
    refine fsX_absorb w2 w0 w4 _ fun x hx => ?_
    obtain ⟨p, hpB, rfl⟩ := List.mem_map.1 hx
    obtain ⟨b, b1, _, b2⟩ := hB p (List.mem_of_mem_filter hpB)
    exact ⟨b, b1, b2⟩
  · rw [g2.R, List.filter_cons_of_neg (by simp [hp0', h])]
    have hnd : ((B.filter fun p => decide (Hyp.target 0 (p.1 0) = some c)).map Prod.fst).Nodup := by
      rw [List.map_cons, List.nodup_cons] at g3
      exact g3.2.sublist (List.filter_sublist.map _)
    cases hf : B.filter fun p => decide (Hyp.target 0 (p.1 0) = some c) with
    | nil => exact ⟨0, rfl, le_refl _, by positivity⟩
    | cons p l =>
      have hl : l = [] := by
        rw [List.eq_nil_iff_forall_not_mem]
        intro p' hp'
        have m1 : p ∈ B.filter fun p => decide (Hyp.target 0 (p.1 0) = some c) := by rw [hf]; simp
        have m2 : p' ∈ B.filter fun p => decide (Hyp.target 0 (p.1 0) = some c) := by rw [hf]; simp [hp']
        have e1 := (List.mem_filter.1 m1).2
        have e2 := (List.mem_filter.1 m2).2
        simp only [decide_eq_true_eq] at e1 e2
        have e3 := target_inj e1 e2
        rw [hf, List.map_cons, List.nodup_cons] at hnd
        refine hnd.1 (List.mem_map.2 ⟨p', hp', ?_⟩)
        funext i
        rw [Subsingleton.elim i 0]; exact e3.symm
      subst hl
      obtain ⟨b, b1, b2, b3, b4⟩ := hB p (List.mem_of_mem_filter (by rw [hf]; simp))
      refine ⟨b, ?_, b3, b4⟩
      rw [List.map_cons, b1]
      show round64 (0 + b) = _
      rw [zero_add]
      refine round64_double b2 ?_
      rw [abs_of_nonneg b3]
      have h5 : w / 2 ^ 55 ≤ w := div_le_self w0.le (by norm_num)
      exact lt_of_le_of_lt (b4.trans (h5.trans w4)) (pow_lt_pow_right₀ (by norm_num) (by norm_num))

theorem leaves_pos {k : Nat} (t : Order k) : 0 < t.leaves.length := by
  induction t with
  | leaf i => simp [Order.leaves]
  | node l r h1 h2 => simp only [Order.leaves, List.length_append]; omega

theorem leaf_of_one {k : Nat} {t : Order k} (h : t.leaves.length = 1) : ∃ i, t = .leaf i := by
  cases t with
  | leaf i => exact ⟨i, rfl⟩
  | node l r =>
    have h1 := leaves_pos l
    have h2 := leaves_pos r
    simp only [Order.leaves, List.length_append] at h
    omega

theorem order_one {t : Order (0 + 1)} (ht : t.Ok) : t = .leaf 0 := by
  obtain ⟨i, rfl⟩ := leaf_of_one (t := t) (by rw [ht.length_eq]; rfl)
  have h : ∀ i : Fin (0 + 1), i = 0 := by decide
  rw [h i]

theorem order_two {t : Order (1 + 1)} (ht : t.Ok) :
    t = .node (.leaf 0) (.leaf 1) ∨ t = .node (.leaf 1) (.leaf 0) := by
  cases t with
  | leaf i => exact absurd ht.length_eq (by simp [Order.leaves])
  | node l r =>
    have h := ht.length_eq
    simp only [Order.leaves, List.length_append, List.length_finRange] at h
    have h1 := leaves_pos l
    have h2 := leaves_pos r
    obtain ⟨i, rfl⟩ := leaf_of_one (t := l) (by omega)
    obtain ⟨j, rfl⟩ := leaf_of_one (t := r) (by omega)
    have hn : [i, j].Nodup := ht.nodup_iff.2 (List.nodup_finRange _)
    have hij : i ≠ j := by simpa using hn
    match i, j with
    | 0, 1 => exact Or.inl rfl
    | 1, 0 => exact Or.inr rfl
    | 0, 0 => exact absurd rfl hij
    | 1, 1 => exact absurd rfl hij

theorem one_correct : targetCorrect (fin 1) (round64 (1 / 1000000)) = fin 1 := by decide +kernel

/-- **C103 refuted for a target that is sure** Once an existence probability is 1 (or more) the cost of
"not there" is 30000 (`target.hpp:183-189`, `constants.hpp`), and in `double` arithmetic a scan that looks at
the target without a report near it leaves it at exactly 1, whatever the probability to detect it, as
long as that is not 1.  So such a target does not fade, however long it is watched and not seen. -/
theorem C103_sure_refuted {qm : ℚ} (hd : IsDouble qm) (l0 : -599 ≤ qm) (u0 : qm ≤ 589)
    {pick : List (Node 1 (0 + 2 * 1)) → Nat} (hp : PickOk pick) {ex : ℚ → XR} (he : ExpOk ex)
    (wlim nmax : ℚ) {t : Order (0 + 1)} (ht : t.Ok) :
    ∃ (F : Nat) (a : Acc 1 0), (∀ fuel, F ≤ fuel → hypotheses pick fuel ex wlim nmax
        (Hyp.costMatrix (fun _ j => j.elim0) (fun _ => fin qm) fun _ => fin 30000) = some a) ∧
      a.posterior t 0 = fin 1 := by
  obtain ⟨F, a, w, h1, h2, h3, h4⟩ := dominant (N := 0) (by norm_num)
    (C := Hyp.costMatrix (fun _ j => j.elim0) (fun _ => fin qm) fun _ => fin 30000) (by
      intro i j
      right
      have hj : ∀ j : Fin (0 + 2 * 1), j = 0 ∨ j = 1 := by decide
      rcases hj j with rfl | rfl
      · refine ⟨qm, by rw [Subsingleton.elim i 0]; rfl, hd, ?_⟩
        rw [abs_le]
        constructor <;> norm_num <;> linarith
      · refine ⟨30000, by rw [Subsingleton.elim i 0]; rfl, ⟨30000, 0, by norm_num, by norm_num,
          by norm_num, by norm_num⟩, by norm_num⟩)
    (j0 := 0) (q0 := qm) rfl l0 u0 (by
      intro j hj q hq
      have hj' : ∀ j : Fin (0 + 2 * 1), j ≠ 0 → j = 1 := by decide
      rw [hj' j hj] at hq
      have : (fin 30000 : XR) = fin q := hq
      cases this
      linarith) hp he wlim nmax
  refine ⟨F, a, h1, ?_⟩
  rw [order_one ht]
  unfold Acc.posterior Acc.rowSum Order.sum Acc.norm
  rw [h3, (h4 0).1 (by decide), div64_self h2]
  exact one_correct

/-- **C103, how a target becomes sure** A report that is much more likely to be of the target than the
target is to be absent or missed (a likelihood ratio of `e⁴⁵`, about `2⁶⁵`, to `1 - r`) makes the existence probability
exactly 1 in `double` arithmetic. -/
theorem C103_saturates {qd qf : ℚ} {miss : XR} (hd : IsDouble qd) (l0 : -599 ≤ qd) (u0 : qd ≤ 589)
    (hf : IsDouble qf) (hf1 : qd + 45 ≤ qf) (hf2 : qf ≤ 2 ^ 20)
    (hm : miss = pinf ∨ ∃ q, miss = fin q ∧ IsDouble q ∧ qd + 45 ≤ q ∧ q ≤ 2 ^ 20)
    {pick : List (Node 1 (1 + 2 * 1)) → Nat} (hp : PickOk pick) {ex : ℚ → XR} (he : ExpOk ex)
    (wlim nmax : ℚ) {t : Order (1 + 1)} (ht : t.Ok) :
    ∃ (F : Nat) (a : Acc 1 1), (∀ fuel, F ≤ fuel → hypotheses pick fuel ex wlim nmax
        (Hyp.costMatrix (fun _ _ => fin qd) (fun _ => miss) fun _ => fin qf) = some a) ∧
      a.posterior t 0 = fin 1 := by
  have hj : ∀ j : Fin (1 + 2 * 1), j = 0 ∨ j = 1 ∨ j = 2 := by decide
  obtain ⟨F, a, w, h1, h2, h3, h4⟩ := dominant (N := 1) (by norm_num)
    (C := Hyp.costMatrix (fun _ _ => fin qd) (fun _ => miss) fun _ => fin qf) (by
      intro i j
      rw [Subsingleton.elim i 0]
      rcases hj j with rfl | rfl | rfl
      · refine Or.inr ⟨qd, rfl, hd, ?_⟩
        rw [abs_le]
        constructor <;> norm_num <;> linarith
      · rcases hm with rfl | ⟨q, rfl, q1, q2, q3⟩
        · exact Or.inl rfl
        · refine Or.inr ⟨q, rfl, q1, ?_⟩
          rw [abs_le]
          constructor <;> norm_num at * <;> linarith
      · refine Or.inr ⟨qf, rfl, hf, ?_⟩
        rw [abs_le]
        constructor <;> norm_num at * <;> linarith)
    (j0 := 0) (q0 := qd) rfl l0 u0 (by
      intro j hne q hq
      rcases hj j with rfl | rfl | rfl
      · exact absurd rfl hne
      · have e : miss = fin q := hq
        rcases hm with rfl | ⟨q', rfl, q1, q2, q3⟩
        · cases e
        · cases e; exact q2
      · have e : (fin qf : XR) = fin q := hq
        cases e
        exact hf1) hp he wlim nmax
  refine ⟨F, a, h1, ?_⟩
  have n0 : a.norm 0 0 = fin 1 := by
    unfold Acc.norm
    rw [h3, (h4 0).1 (by decide), div64_self h2]
  obtain ⟨b, b1, b2, b3⟩ := (h4 1).2 (by decide)
  obtain ⟨r, r1, r2, r3, r4⟩ := round64_rel (x := b / w) (by positivity) (by
    have : b / w ≤ 1 := by
      rw [div_le_one h2]
      exact b3.trans (div_le_self h2.le (by norm_num))
    exact this.trans (one_le_pow₀ (by norm_num)))
  have n1 : a.norm 0 1 = fin r := by
    unfold Acc.norm
    rw [h3, b1]
    show (if w = 0 then _ else round64 (b / w)) = _
    rw [if_neg h2.ne', r1]
  have hr : r ≤ 1 / 2 ^ 55 := by
    have h5 : b / w ≤ 1 / 2 ^ 55 := by
      rw [div_le_iff₀ h2]
      linarith
    refine RTreeF.round64_mono r1 (round64_double (d := 1 / 2 ^ 55)
      ⟨1, -55, by norm_num [zpow_neg], by norm_num, by norm_num, by norm_num⟩ (by
        rw [abs_of_pos (by positivity)]
        exact lt_of_le_of_lt (by norm_num : (1 : ℚ) / 2 ^ 55 ≤ 1)
          (one_lt_pow₀ (by norm_num) (by norm_num)))) h5
  have h1' : b64.add (fin 1) (fin r) = fin 1 :=
    absorb RTreeF.isDouble_one one_pos (one_le_pow₀ (by norm_num)) r3 hr
  have h2' : b64.add (fin r) (fin 1) = fin 1 := by
    show round64 (r + 1) = _
    rw [add_comm]
    exact h1'
  have hs : a.rowSum t 0 = fin 1 := by
    unfold Acc.rowSum
    rcases order_two ht with rfl | rfl
    · simp only [Order.sum, n0, n1, h1']
    · simp only [Order.sum, n0, n1, h2']
  unfold Acc.posterior
  rw [hs]
  exact one_correct

/-- Detection probability 0.9: the cost of a miss is about 2.3. -/
example : ∃ (F : Nat) (a : Acc 1 0), (∀ fuel, F ≤ fuel → hypotheses firstBest fuel
      expOk_exists.choose (1 / 100) 100
      (Hyp.costMatrix (fun _ j => j.elim0) (fun _ => fin (2357 / 1024)) fun _ => fin 30000) = some a) ∧
    a.posterior (.leaf 0) 0 = fin 1 :=
  C103_sure_refuted ⟨2357, -10, by norm_num [zpow_neg], by norm_num, by norm_num, by norm_num⟩
    (by norm_num) (by norm_num) MurtyF.firstBest_ok expOk_exists.choose_spec (1 / 100) 100
    (t := .leaf 0) (List.Perm.refl _)

/-- A target with `1 - r = e⁻²⁵`, a detection probability of 1 and a report with a likelihood ratio of
`e²⁰`. -/
example : ∃ (F : Nat) (a : Acc 1 1), (∀ fuel, F ≤ fuel → hypotheses firstBest fuel
      expOk_exists.choose (1 / 100) 100
      (Hyp.costMatrix (fun _ _ => fin (-20)) (fun _ => pinf) fun _ => fin 25) = some a) ∧
    a.posterior (.node (.leaf 0) (.leaf 1)) 0 = fin 1 :=
  C103_saturates ⟨-20, 0, by norm_num, by norm_num, by norm_num, by norm_num⟩ (by norm_num)
    (by norm_num) ⟨25, 0, by norm_num, by norm_num, by norm_num, by norm_num⟩ (by norm_num)
    (by norm_num) (Or.inl rfl) MurtyF.firstBest_ok expOk_exists.choose_spec (1 / 100) 100
    (List.Perm.refl _)

end Verif.HypF

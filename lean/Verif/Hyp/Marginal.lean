import Verif.Hyp.Bayes

/-! # Averages over the joint events of a cluster -/

namespace Verif.Hyp

open Verif.Lap Verif.Murty

variable {M N : Nat}

/-- Sum of `φ` over the joint events, by weight. -/
noncomputable def expct (W : Fin M → Fate N → ℝ) (φ : (Fin M → Fate N) → ℝ) : ℝ :=
  ∑ e : Fin M → Fate N, if Valid e then joint W e * φ e else 0

/-- Average of `φ` over the joint events. -/
noncomputable def avg (W : Fin M → Fate N → ℝ) (φ : (Fin M → Fate N) → ℝ) : ℝ :=
  expct W φ / evidence W fun _ => True

theorem evidence_eq_expct (W : Fin M → Fate N → ℝ) (Q : (Fin M → Fate N) → Prop)
    [DecidablePred Q] : evidence W Q = expct W fun e => if Q e then 1 else 0 := by
  classical
  unfold evidence expct
  refine Finset.sum_congr rfl fun e _ => ?_
  by_cases h1 : Valid e <;> by_cases h2 : Q e <;> simp [h1, h2]

theorem evidence_true (W : Fin M → Fate N → ℝ) :
    evidence W (fun _ => True) = expct W fun _ => 1 := by
  rw [evidence_eq_expct]
  simp

theorem expct_le {W : Fin M → Fate N → ℝ} (hW : ∀ i f, 0 ≤ W i f) {φ ψ : (Fin M → Fate N) → ℝ}
    (h : ∀ e, φ e ≤ ψ e) : expct W φ ≤ expct W ψ := by
  refine Finset.sum_le_sum fun e _ => ?_
  split
  · exact mul_le_mul_of_nonneg_left (h e) (joint_nonneg hW e)
  · exact le_refl _

theorem expct_nonneg {W : Fin M → Fate N → ℝ} (hW : ∀ i f, 0 ≤ W i f) {φ : (Fin M → Fate N) → ℝ}
    (h : ∀ e, 0 ≤ φ e) : 0 ≤ expct W φ := by
  refine Finset.sum_nonneg fun e _ => ?_
  split
  · exact mul_nonneg (joint_nonneg hW e) (h e)
  · exact le_refl _

theorem bayes_eq_avg (W : Fin M → Fate N → ℝ) (Q : (Fin M → Fate N) → Prop) [DecidablePred Q] :
    bayes W Q = avg W fun e => if Q e then 1 else 0 := by
  unfold bayes avg
  rw [evidence_eq_expct]

theorem avg_eq_sum (W : Fin M → Fate N → ℝ) (φ : (Fin M → Fate N) → ℝ) :
    avg W φ = ∑ e, φ e * bayes W fun e' => e' = e := by
  classical
  unfold avg bayes expct
  rw [Finset.sum_div]
  refine Finset.sum_congr rfl fun e _ => ?_
  have : (evidence W fun e' => e' = e) = if Valid e then joint W e else 0 := by
    unfold evidence
    rw [Finset.sum_eq_single e]
    · simp
    · intro b _ hb
      simp [hb]
    · simp
  rw [this]
  split <;> ring

theorem avg_range {W : Fin M → Fate N → ℝ} (hW : ∀ i f, 0 ≤ W i f) {φ : (Fin M → Fate N) → ℝ}
    (h0 : ∀ e, 0 ≤ φ e) (h1 : ∀ e, φ e ≤ 1) : 0 ≤ avg W φ ∧ avg W φ ≤ 1 := by
  have hE := evidence_nonneg hW fun _ => True
  refine ⟨div_nonneg (expct_nonneg hW h0) hE, ?_⟩
  apply div_le_one_of_le₀ _ hE
  rw [evidence_true]
  exact expct_le hW h1

/-- The average changes by at most the change of `φ`. -/
theorem avg_diff {W : Fin M → Fate N → ℝ} (hW : ∀ i f, 0 ≤ W i f) {φ ψ : (Fin M → Fate N) → ℝ}
    {τ : ℝ} (hτ : 0 ≤ τ) (h : ∀ e, |φ e - ψ e| ≤ τ) : |avg W φ - avg W ψ| ≤ τ := by
  have hE := evidence_nonneg hW fun _ => True
  have e1 : expct W φ - expct W ψ = expct W fun e => φ e - ψ e := by
    unfold expct
    rw [← Finset.sum_sub_distrib]
    refine Finset.sum_congr rfl fun e _ => ?_
    split <;> ring
  have e2 : |expct W fun e => φ e - ψ e| ≤ τ * evidence W fun _ => True := by
    rw [evidence_true]
    unfold expct
    rw [Finset.mul_sum]
    refine (Finset.abs_sum_le_sum_abs _ _).trans (Finset.sum_le_sum fun e _ => ?_)
    split
    · rw [abs_mul, abs_of_nonneg (joint_nonneg hW e), mul_one, mul_comm]
      exact mul_le_mul_of_nonneg_right (h e) (joint_nonneg hW e)
    · simp
  unfold avg
  rw [← sub_div, abs_div, abs_of_nonneg hE, e1]
  exact div_le_of_le_mul₀ hE hτ e2

/-- Weights within a factor of each other give averages within a factor of each other. -/
theorem avg_ratio {W V : Fin M → Fate N → ℝ} {k : ℝ} (hV : ∀ i f, 0 ≤ V i f) (hk : 1 ≤ k)
    (h : ∀ Q, bayes W Q ≤ k * bayes V Q ∧ bayes V Q ≤ k * bayes W Q)
    {φ : (Fin M → Fate N) → ℝ} (h0 : ∀ e, 0 ≤ φ e) (h1 : ∀ e, φ e ≤ 1) :
    |avg W φ - avg V φ| ≤ k - 1 := by
  have key : ∀ {A B : Fin M → Fate N → ℝ}, (∀ Q, bayes A Q ≤ k * bayes B Q) →
      avg A φ ≤ k * avg B φ := by
    intro A B hAB
    rw [avg_eq_sum, avg_eq_sum, Finset.mul_sum]
    refine Finset.sum_le_sum fun e _ => ?_
    have := mul_le_mul_of_nonneg_left (hAB fun e' => e' = e) (h0 e)
    linarith
  have a1 := key fun Q => (h Q).1
  have a2 := key fun Q => (h Q).2
  obtain ⟨b1, b2⟩ := avg_range hV h0 h1
  rw [abs_le]
  have : (k - 1) * avg V φ ≤ k - 1 := mul_le_of_le_one_right (by linarith) b2
  constructor
  · by_contra hc
    have hc : avg W φ < avg V φ - (k - 1) := by linarith
    nlinarith
  · linarith

/-! ## The events of one target -/

theorem fateOf_cases (f : Fate N) : f = .absent ∨ ∃ j : Fin (N + 1), f = fateOf j := by
  cases f with
  | report j => exact Or.inr ⟨j.castSucc, by simp [fateOf]⟩
  | missed => exact Or.inr ⟨Fin.last N, by simp [fateOf]⟩
  | absent => exact Or.inl rfl

theorem fateOf_inj {j k : Fin (N + 1)} (h : fateOf j = fateOf k) : j = k := by
  unfold fateOf at h
  split at h <;> split at h
  · simp only [Fate.report.injEq, Fin.mk.injEq] at h; exact Fin.ext h
  · cases h
  · cases h
  · exact Fin.ext (by omega)

theorem fateOf_ne (j : Fin (N + 1)) : fateOf j ≠ (.absent : Fate N) := by
  unfold fateOf
  split <;> simp

/-- A function of the fate of target `i` that is 0 if the target is absent. -/
def ofFate (i : Fin M) (g : Fate N → ℝ) (e : Fin M → Fate N) : ℝ :=
  if e i = .absent then 0 else g (e i)

theorem avg_ofFate (W : Fin M → Fate N → ℝ) (i : Fin M) (g : Fate N → ℝ) :
    avg W (ofFate i g) = ∑ j, g (fateOf j) * bayes W fun e => e i = fateOf j := by
  classical
  have h : expct W (ofFate i g) = ∑ j, g (fateOf j) * evidence W fun e => e i = fateOf j := by
    simp only [evidence_eq_expct]
    unfold expct
    simp only [Finset.mul_sum]
    rw [Finset.sum_comm]
    refine Finset.sum_congr rfl fun e _ => ?_
    by_cases hv : Valid e
    · simp only [if_pos hv]
      unfold ofFate
      rcases fateOf_cases (e i) with he | ⟨j, he⟩
      · rw [if_pos he, mul_zero]
        symm
        apply Finset.sum_eq_zero
        intro j _
        rw [if_neg (by rw [he]; exact (fateOf_ne j).symm)]
        simp
      · rw [if_neg (by rw [he]; exact fateOf_ne j), Finset.sum_eq_single j]
        · rw [if_pos he, he]; ring
        · intro k _ hk
          rw [if_neg]
          · simp
          · rw [he]
            exact fun h => hk (fateOf_inj h).symm
        · simp
    · simp [hv]
  unfold avg bayes
  rw [h, Finset.sum_div]
  refine Finset.sum_congr rfl fun j _ => ?_
  rw [mul_div_assoc]

/-- Weights in which the row of target `i` is replaced. -/
def setRow (W : Fin M → Fate N → ℝ) (i : Fin M) (m : Fate N → ℝ) : Fin M → Fate N → ℝ :=
  fun k f => if k = i then m f else W k f

theorem evidence_setRow (W : Fin M → Fate N → ℝ) (i : Fin M) (m g : Fate N → ℝ)
    (h : ∀ f, f ≠ .absent → m f = g f * W i f) :
    evidence (setRow W i m) (fun e => e i ≠ .absent) = expct W (ofFate i g) := by
  classical
  unfold evidence expct
  refine Finset.sum_congr rfl fun e _ => ?_
  by_cases hv : Valid e
  · by_cases he : e i = .absent
    · simp [he, ofFate]
    · simp only [hv, he, ne_eq, not_false_eq_true, and_self, if_true, ofFate, if_false]
      unfold joint
      rw [← Finset.mul_prod_erase _ _ (Finset.mem_univ i), ← Finset.mul_prod_erase _ (fun k => W k (e k))
        (Finset.mem_univ i)]
      have e1 : ∏ x ∈ Finset.univ.erase i, setRow W i m x (e x) =
          ∏ x ∈ Finset.univ.erase i, W x (e x) := by
        refine Finset.prod_congr rfl fun k hk => ?_
        unfold setRow
        rw [if_neg (Finset.ne_of_mem_erase hk)]
      rw [e1]
      unfold setRow
      rw [if_pos rfl, h _ he]
      ring
  · simp [hv]

/-! ## Leaving out reports with a small likelihood -/

/-- Weights in which some fates are left out, at most `K` of each target; each of them weighs at
most `c i` of the weight of another fate `g i` of the target that takes no report. -/
structure Cut (W V : Fin M → Fate N → ℝ) (K : Nat) (c : Fin M → ℝ) (g : Fin M → Fate N) : Prop where
  nonneg : ∀ i f, 0 ≤ V i f
  keep : ∀ i f, V i f = W i f ∨ (V i f = 0 ∧ 0 ≤ W i f ∧ W i f ≤ c i * W i (g i))
  few : ∀ i, ∃ T : Finset (Fate N), T.card ≤ K ∧ ∀ f, V i f ≠ W i f → f ∈ T
  free : ∀ i, (g i).Free
  pos : ∀ i, 0 < W i (g i)
  kept : ∀ i, V i (g i) = W i (g i)
  c_nonneg : ∀ i, 0 ≤ c i

theorem Cut.le {W V : Fin M → Fate N → ℝ} {K : Nat} {c : Fin M → ℝ} {g : Fin M → Fate N}
    (h : Cut W V K c g) (i f) : V i f ≤ W i f := by
  rcases h.keep i f with e | ⟨e, h1, _⟩
  · exact e.le
  · rw [e]; exact h1

theorem Cut.total {W V : Fin M → Fate N → ℝ} {K : Nat} {c : Fin M → ℝ} {g : Fin M → Fate N}
    (h : Cut W V K c g) :
    evidence W (fun _ => True) ≤ evidence V (fun _ => True) * ∏ i, (1 + K * c i) := by
  classical
  let ρ : Fin M → Fate N → Fate N := fun i f => if V i f = W i f then f else g i
  unfold evidence
  simp only [and_true]
  rw [Finset.sum_mul, ← Finset.sum_fiberwise Finset.univ
    (fun e : Fin M → Fate N => fun i => ρ i (e i))]
  apply Finset.sum_le_sum
  intro e _
  have hset : (Finset.univ.filter fun σ : Fin M → Fate N => (fun i => ρ i (σ i)) = e) =
      Fintype.piFinset fun i => Finset.univ.filter fun f => ρ i f = e i := by
    ext σ
    simp only [Finset.mem_filter, Finset.mem_univ, true_and, Fintype.mem_piFinset]
    exact funext_iff
  have hW : ∀ i f, 0 ≤ W i f := fun i f => (h.nonneg i f).trans (h.le i f)
  by_cases hv : Valid e
  · rw [if_pos hv, hset]
    calc ∑ σ ∈ Fintype.piFinset fun i => Finset.univ.filter fun f => ρ i f = e i,
          (if Valid σ then joint W σ else 0)
        ≤ ∑ σ ∈ Fintype.piFinset fun i => Finset.univ.filter fun f => ρ i f = e i,
          ∏ i, W i (σ i) := by
            apply Finset.sum_le_sum
            intro σ _
            split
            · exact le_refl _
            · exact Finset.prod_nonneg fun i _ => hW i _
      _ = ∏ i, ∑ f with ρ i f = e i, W i f := by rw [Finset.prod_univ_sum]
      _ ≤ ∏ i, (V i (e i) * (1 + K * c i)) := by
            apply Finset.prod_le_prod
            · intro i _
              exact Finset.sum_nonneg fun f _ => hW i f
            · intro i _
              have hcw := mul_nonneg (h.c_nonneg i) (h.pos i).le
              obtain ⟨T, hT, hmem⟩ := h.few i
              calc ∑ f with ρ i f = e i, W i f
                  ≤ ∑ f : Fate N, (if f = e i then V i (e i) else 0) +
                    ∑ f : Fate N, (if f ∈ T ∧ e i = g i then c i * W i (g i) else 0) := by
                    rw [← Finset.sum_add_distrib, Finset.sum_filter]
                    refine Finset.sum_le_sum fun f _ => ?_
                    have hn1 : (0 : ℝ) ≤ if f = e i then V i (e i) else 0 := by
                      split
                      · exact h.nonneg _ _
                      · exact le_refl _
                    have hn2 : (0 : ℝ) ≤ if f ∈ T ∧ e i = g i then c i * W i (g i) else 0 := by
                      split
                      · exact hcw
                      · exact le_refl _
                    by_cases hr : ρ i f = e i
                    · rw [if_pos hr]
                      simp only [ρ] at hr
                      by_cases hvw : V i f = W i f
                      · rw [if_pos hvw] at hr
                        rw [if_pos hr, ← hr, hvw]
                        rw [← hr] at hn2
                        linarith
                      · rw [if_neg hvw] at hr
                        have hh : (if f ∈ T ∧ e i = g i then c i * W i (g i) else 0) =
                            c i * W i (g i) := if_pos ⟨hmem f hvw, hr.symm⟩
                        rw [hh]
                        rcases h.keep i f with e1 | ⟨_, _, e1⟩
                        · exact absurd e1 hvw
                        · linarith
                    · rw [if_neg hr]
                      exact add_nonneg hn1 hn2
                _ ≤ V i (e i) + V i (e i) * (K * c i) := by
                    rw [Finset.sum_ite_eq' Finset.univ (e i), if_pos (Finset.mem_univ _)]
                    by_cases hg : e i = g i
                    · simp only [hg, and_true, h.kept]
                      rw [Finset.sum_ite_mem, Finset.univ_inter, Finset.sum_const, nsmul_eq_mul]
                      have hK : (T.card : ℝ) ≤ K := by exact_mod_cast hT
                      nlinarith [mul_le_mul_of_nonneg_right hK hcw]
                    · simp only [hg, and_false, if_false, Finset.sum_const_zero]
                      have := mul_nonneg (h.nonneg i (e i))
                        (mul_nonneg (Nat.cast_nonneg (α := ℝ) K) (h.c_nonneg i))
                      linarith
                _ = _ := by ring
      _ = joint V e * ∏ i, (1 + K * c i) := by
            rw [Finset.prod_mul_distrib]
            rfl
  · rw [if_neg hv, zero_mul]
    apply le_of_eq
    apply Finset.sum_eq_zero
    intro σ hσ
    rw [Finset.mem_filter] at hσ
    rw [if_neg]
    intro hval
    apply hv
    intro a b j ha hb
    have key : ∀ a, e a = .report j → σ a = .report j := by
      intro a ha
      have h1 : ρ a (σ a) = e a := congrFun hσ.2 a
      rw [ha] at h1
      simp only [ρ] at h1
      split at h1
      · exact h1
      · rcases h.free a with h' | h' <;> rw [h'] at h1 <;> cases h1
    exact hval a b j (key a ha) (key b hb)

/-- Leaving out fates changes an average by at most `∏ (1 + K c i) - 1`. -/
theorem Cut.avg {W V : Fin M → Fate N → ℝ} {K : Nat} {c : Fin M → ℝ} {g : Fin M → Fate N}
    (h : Cut W V K c g)
    {φ : (Fin M → Fate N) → ℝ} (h0 : ∀ e, 0 ≤ φ e) (h1 : ∀ e, φ e ≤ 1) :
    |Hyp.avg W φ - Hyp.avg V φ| ≤ (∏ i, (1 + K * c i)) - 1 := by
  have hW : ∀ i f, 0 ≤ W i f := fun i f => (h.nonneg i f).trans (h.le i f)
  have hV0 : 0 < evidence V fun _ => True :=
    evidence_pos h.nonneg fun i => ⟨g i, h.free i, by rw [h.kept]; exact h.pos i⟩
  have hW0 : 0 < evidence W fun _ => True := evidence_pos hW fun i => ⟨g i, h.free i, h.pos i⟩
  have hj : ∀ e, joint V e ≤ joint W e := fun e =>
    Finset.prod_le_prod (fun i _ => h.nonneg i _) fun i _ => h.le i _
  have hle : ∀ ψ : (Fin M → Fate N) → ℝ, (∀ e, 0 ≤ ψ e) → expct V ψ ≤ expct W ψ := by
    intro ψ hψ
    refine Finset.sum_le_sum fun e _ => ?_
    split
    · exact mul_le_mul_of_nonneg_right (hj e) (hψ e)
    · exact le_refl _
  have hVW : evidence V (fun _ => True) ≤ evidence W fun _ => True := by
    rw [evidence_true, evidence_true]
    exact hle _ fun _ => zero_le_one
  have hx : expct W φ ≤ expct V φ + ((evidence W fun _ => True) - evidence V fun _ => True) := by
    rw [evidence_true, evidence_true]
    unfold expct
    rw [← Finset.sum_sub_distrib, ← Finset.sum_add_distrib]
    refine Finset.sum_le_sum fun e _ => ?_
    split
    · have := mul_le_mul_of_nonneg_left (h1 e) (sub_nonneg.2 (hj e))
      linarith
    · simp
  have := normalise_diff (x := expct W φ) (y := expct V φ) (t := expct V φ)
    (d := evidence W fun _ => True) (p := evidence V fun _ => True) (c := evidence V fun _ => True)
    (expct_nonneg h.nonneg h0) (by rw [evidence_true]; exact expct_le h.nonneg h1)
    (hle φ h0) le_rfl hx (by linarith) hVW le_rfl hW0 hV0
  rw [max_eq_left hVW] at this
  refine this.trans ?_
  have hP := h.total
  have h2 : (evidence W fun _ => True) / (evidence V fun _ => True) ≤ ∏ i, (1 + K * c i) := by
    rw [div_le_iff₀ hV0, mul_comm]
    exact hP
  have h3 : 1 - (evidence V fun _ => True) / (evidence W fun _ => True) ≤
      (evidence W fun _ => True) / (evidence V fun _ => True) - 1 := by
    set x := (evidence W fun _ => True) / (evidence V fun _ => True) with hxdef
    have hx0 : 0 < x := div_pos hW0 hV0
    have : (evidence V fun _ => True) / (evidence W fun _ => True) = 1 / x := by
      rw [hxdef, one_div_div]
    rw [this]
    have h4 : 1 / x * x = 1 := by field_simp
    have h5 : 0 < 1 / x := by positivity
    nlinarith [sq_nonneg (x - 1)]
  linarith

end Verif.Hyp

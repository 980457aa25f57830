import Verif.Hyp.Props
import Mathlib.Algebra.BigOperators.Ring.Finset
import Mathlib.Algebra.Order.Ring.Pow
import Mathlib.Data.Fintype.Pi
import Mathlib.Data.Fintype.Sum
import Mathlib.Analysis.SpecialFunctions.Log.Basic

/-!
# The association probabilities are Bayes' rule (C65)

The specification enumerates joint events: every target is detected by one report, missed or
absent, and no report is caused by two targets.  A cluster's matrix also has assignments that are
no events, as a target may be put in the columns of another one, at cost 30000.
-/

namespace Verif.Hyp

open Verif.Lap Verif.Lap.XR Verif.Murty

variable {M N : Nat}

/-! ## Specification -/

/-- What can have happened to a target in a scan of `N` reports. -/
inductive Fate (N : Nat) where
  | report (j : Fin N)
  | missed
  | absent
deriving DecidableEq

/-- The fates as a sum type, for counting. -/
def Fate.equiv : Fate N ≃ Fin N ⊕ Fin 2 where
  toFun
    | .report j => .inl j
    | .missed => .inr 0
    | .absent => .inr 1
  invFun
    | .inl j => .report j
    | .inr 0 => .missed
    | .inr 1 => .absent
  left_inv f := by cases f <;> rfl
  right_inv f := by
    rcases f with j | k
    · rfl
    · match k with
      | 0 => rfl
      | 1 => rfl

instance : Fintype (Fate N) := Fintype.ofEquiv _ Fate.equiv.symm

theorem Fate.card : Fintype.card (Fate N) = N + 2 := by
  rw [Fintype.card_congr Fate.equiv]; simp

/-- A joint event: no report is caused by two targets. -/
def Valid (e : Fin M → Fate N) : Prop :=
  ∀ a b j, e a = .report j → e b = .report j → a = b

instance (e : Fin M → Fate N) : Decidable (Valid e) := by unfold Valid; infer_instance

/-- The weight of a joint event: the targets are independent apart from the reports. -/
noncomputable def joint (W : Fin M → Fate N → ℝ) (e : Fin M → Fate N) : ℝ := ∏ i, W i (e i)

/-- Sum of the weights of the joint events in `Q`. -/
noncomputable def evidence (W : Fin M → Fate N → ℝ) (Q : (Fin M → Fate N) → Prop) : ℝ :=
  open Classical in ∑ e : Fin M → Fate N, if Valid e ∧ Q e then joint W e else 0

/-- Posterior probability of `Q` by Bayes' rule, all joint events enumerated. -/
noncomputable def bayes (W : Fin M → Fate N → ℝ) (Q : (Fin M → Fate N) → Prop) : ℝ :=
  evidence W Q / evidence W fun _ => True

/-- The weight of a cost: `exp (-cost)`, and 0 for an infinite cost. -/
noncomputable def costWeight : XR → ℝ
  | XR.fin q => Real.exp (-(q : ℝ))
  | _ => 0

/-- The weights that stand behind the costs of a cluster. -/
noncomputable def weights (det : Fin M → Fin N → XR) (miss fls : Fin M → XR) :
    Fin M → Fate N → ℝ
  | i, .report j => costWeight (det i j)
  | i, .missed => costWeight (miss i)
  | i, .absent => costWeight (fls i)

theorem costWeight_nonneg (c : XR) : 0 ≤ costWeight c := by
  cases c <;> simp [costWeight, Real.exp_nonneg]

theorem weights_nonneg (det : Fin M → Fin N → XR) (miss fls : Fin M → XR) (i f) :
    0 ≤ weights det miss fls i f := by
  cases f <;> exact costWeight_nonneg _

theorem joint_nonneg {W : Fin M → Fate N → ℝ} (h : ∀ i f, 0 ≤ W i f) (e) : 0 ≤ joint W e :=
  Finset.prod_nonneg fun i _ => h i _

theorem evidence_nonneg {W : Fin M → Fate N → ℝ} (h : ∀ i f, 0 ≤ W i f) (Q) :
    0 ≤ evidence W Q := by
  classical
  refine Finset.sum_nonneg fun e _ => ?_
  split
  · exact joint_nonneg h e
  · exact le_refl _

/-- A fate that takes no report. -/
def Fate.Free (f : Fate N) : Prop := f = .absent ∨ f = .missed

theorem evidence_pos {W : Fin M → Fate N → ℝ} (h : ∀ i f, 0 ≤ W i f)
    (h0 : ∀ i, ∃ f : Fate N, f.Free ∧ 0 < W i f) : 0 < evidence W fun _ => True := by
  classical
  choose g hg h0 using h0
  refine lt_of_lt_of_le (Finset.prod_pos (s := Finset.univ) fun i _ => h0 i) ?_
  have hv : Valid g := by
    intro a b j hj
    rcases hg a with h | h <;> rw [h] at hj <;> cases hj
  have := Finset.single_le_sum (f := fun e : Fin M → Fate N =>
      if Valid e ∧ True then joint W e else 0) (s := Finset.univ)
    (by intro e _; split
        · exact joint_nonneg h e
        · exact le_refl _) (Finset.mem_univ g)
  simp only [hv, true_and, if_true] at this
  unfold evidence
  simp only [and_true] at this ⊢
  exact this

/-! ## Two ways to normalise one measure -/

/-- Restricting a measure to `D` or to `P` and normalising. -/
theorem normalise_diff {x y t d p c : ℝ} (ht0 : 0 ≤ t) (htc : t ≤ c) (htx : t ≤ x) (hty : t ≤ y)
    (hx : x ≤ t + (d - c)) (hy : y ≤ t + (p - c)) (hcd : c ≤ d) (hcp : c ≤ p)
    (hd : 0 < d) (hp : 0 < p) : |x / d - y / p| ≤ 1 - c / max d p := by
  have key : ∀ {x y d p : ℝ}, 0 < d → 0 < p → x ≤ t + (d - c) → t ≤ y → c ≤ d → c ≤ p →
      x / d - y / p ≤ 1 - c / max d p := by
    intro x y d p hd hp hx hty hcd hcp
    have h1 : x / d ≤ (t + (d - c)) / d := div_le_div_of_nonneg_right hx hd.le
    have h2 : t / p ≤ y / p := div_le_div_of_nonneg_right hty hp.le
    have h3 : (t + (d - c)) / d = t / d + 1 - c / d := by field_simp; ring
    rcases le_total p d with h | h
    · rw [max_eq_left h]
      have : t / d ≤ t / p := div_le_div_of_nonneg_left ht0 hp h
      linarith
    · rw [max_eq_right h]
      have h4 : (c - t) / p ≤ (c - t) / d := div_le_div_of_nonneg_left (by linarith) hd h
      rw [sub_div, sub_div] at h4
      linarith
  rw [abs_le]
  constructor
  · have := key hp hd hy htx hcp hcd
    rw [max_comm] at this
    linarith
  · exact key hd hp hx hty hcd hcp

/-! ## Events as assignments -/

/-- Weight of an assignment of a matrix; 0 if it is not one-to-one. -/
noncomputable def asgWeight (C : Cost M (N + 2 * M)) (σ : Fin M → Fin (N + 2 * M)) : ℝ :=
  open Classical in if Function.Injective σ then ∏ i, costWeight (C i (σ i)) else 0

theorem asgWeight_nonneg (C : Cost M (N + 2 * M)) (σ) : 0 ≤ asgWeight C σ := by
  unfold asgWeight
  split
  · exact Finset.prod_nonneg fun i _ => costWeight_nonneg _
  · exact le_refl _

theorem asgWeight_feasible {C : Cost M (N + 2 * M)} {σ} (h : Feasible C σ) :
    asgWeight C σ = ew (total C σ) := by
  unfold asgWeight
  rw [if_pos h.1]
  have : ∀ i, costWeight (C i (σ i)) = Real.exp (-((C i (σ i)).val : ℝ)) := by
    intro i
    rw [(h.2 i).eq]
    rfl
  simp only [this]
  rw [← Real.exp_sum]
  unfold ew total
  push_cast
  rw [Finset.sum_neg_distrib]

theorem asgWeight_infeasible {C : Cost M (N + 2 * M)} {σ} (h : ¬ Feasible C σ) :
    asgWeight C σ = 0 := by
  unfold asgWeight
  by_cases hi : Function.Injective σ
  · rw [if_pos hi]
    have : ∃ i, ¬ IsFin (C i (σ i)) := by
      by_contra hc
      push Not at hc
      exact h ⟨hi, hc⟩
    obtain ⟨i, hi⟩ := this
    apply Finset.prod_eq_zero (Finset.mem_univ i)
    cases hC : C i (σ i) with
    | fin q => exact absurd ⟨q, hC⟩ hi
    | _ => rfl
  · rw [if_neg hi]

/-- Sum of the weights of the assignments in `A`. -/
noncomputable def ms (C : Cost M (N + 2 * M)) (A : (Fin M → Fin (N + 2 * M)) → Prop) : ℝ :=
  open Classical in ∑ σ, if A σ then asgWeight C σ else 0

theorem ms_nonneg (C : Cost M (N + 2 * M)) (A) : 0 ≤ ms C A := by
  refine Finset.sum_nonneg fun σ _ => ?_
  split
  · exact asgWeight_nonneg C σ
  · exact le_refl _

theorem ms_eq_filter (C : Cost M (N + 2 * M)) (A) [DecidablePred A] :
    ms C A = ∑ σ with A σ, asgWeight C σ := by
  unfold ms
  rw [Finset.sum_filter]
  apply Finset.sum_congr rfl
  intro σ _
  by_cases h : A σ
  · rw [if_pos h, if_pos h]
  · rw [if_neg h, if_neg h]

theorem mass_eq_ms {C : Cost M (N + 2 * M)} {L : List (Fin M → Fin (N + 2 * M))} (hn : L.Nodup)
    (hf : ∀ σ ∈ L, Feasible C σ) (P : (Fin M → Fin (N + 2 * M)) → Bool) :
    mass C L P = ms C fun σ => σ ∈ L ∧ P σ = true := by
  classical
  rw [ms_eq_filter]
  unfold mass
  have h1 : (Finset.univ.filter fun σ => σ ∈ L ∧ P σ = true) = (L.filter P).toFinset := by
    ext σ; simp
  rw [h1, List.sum_toFinset _ (hn.filter P)]
  congr 1
  apply List.map_congr_left
  intro σ hσ
  exact (asgWeight_feasible (hf σ (List.mem_filter.1 hσ).1)).symm

/-- The column that stands for a fate of target `i`. -/
def col (i : Fin M) : Fate N → Fin (N + 2 * M)
  | .report j => ⟨j.val, by omega⟩
  | .missed => ⟨N + i.val, by omega⟩
  | .absent => ⟨N + M + i.val, by omega⟩

theorem col_inj (i : Fin M) {f g : Fate N} (h : col i f = col i g) : f = g := by
  have hi := i.2
  cases f <;> cases g <;> simp only [col, Fin.mk.injEq] at h
  all_goals first
    | rfl
    | (exfalso; omega)
    | skip
  · rename_i a b
    have := a.2
    rw [Fin.ext h]
  all_goals (rename_i a; have := a.2; omega)

/-- The assignment that stands for an event. -/
def asg (e : Fin M → Fate N) : Fin M → Fin (N + 2 * M) := fun i => col i (e i)

theorem asg_injective : Function.Injective (asg : (Fin M → Fate N) → _) := by
  intro e g h
  funext i
  exact col_inj i (congrFun h i)

theorem valid_iff (e : Fin M → Fate N) : Valid e ↔ Function.Injective (asg e) := by
  constructor
  · intro h a b hab
    have ha := a.2
    have hb := b.2
    unfold asg at hab
    cases hea : e a <;> cases heb : e b <;> rw [hea, heb] at hab <;>
      simp only [col, Fin.mk.injEq] at hab
    · rename_i j k
      have : j = k := Fin.ext hab
      subst this
      exact h a b j hea heb
    all_goals first
      | exact Fin.ext (by omega)
      | (rename_i j; have := j.2; omega)
  · intro h a b j ha hb
    apply h
    unfold asg
    rw [ha, hb]
    rfl

theorem costMatrix_col (det : Fin M → Fin N → XR) (miss fls : Fin M → XR) (i : Fin M)
    (f : Fate N) : costWeight (costMatrix det miss fls i (col i f)) = weights det miss fls i f := by
  have hi := i.2
  cases f with
  | report j =>
    have hj := j.2
    unfold costMatrix
    rw [dif_pos (show (col i (.report j) : Fin (N + 2 * M)).val < N from hj)]
    rfl
  | missed =>
    simp only [col, costMatrix, weights]
    rw [dif_neg (by omega), if_pos trivial]
  | absent =>
    simp only [col, costMatrix, weights]
    rw [dif_neg (by omega), if_neg (by omega), if_pos trivial]

theorem asgWeight_asg (det : Fin M → Fin N → XR) (miss fls : Fin M → XR) (e : Fin M → Fate N) :
    asgWeight (costMatrix det miss fls) (asg e) =
      if Valid e then joint (weights det miss fls) e else 0 := by
  unfold asgWeight joint
  by_cases h : Valid e
  · rw [if_pos ((valid_iff e).1 h), if_pos h]
    exact Finset.prod_congr rfl fun i _ => costMatrix_col det miss fls i (e i)
  · rw [if_neg (fun hc => h ((valid_iff e).2 hc)), if_neg h]

theorem evidence_eq_ms (det : Fin M → Fin N → XR) (miss fls : Fin M → XR)
    (Q : (Fin M → Fate N) → Prop) :
    evidence (weights det miss fls) Q =
      ms (costMatrix det miss fls) fun σ => ∃ e, asg e = σ ∧ Q e := by
  classical
  unfold evidence ms
  apply Fintype.sum_of_injective asg asg_injective
  · intro σ hσ
    rw [if_neg]
    rintro ⟨e, he, _⟩
    exact hσ ⟨e, he⟩
  · intro e
    have : (∃ e', asg e' = asg e ∧ Q e') ↔ Q e := by
      constructor
      · rintro ⟨e', h, hq⟩
        rw [← asg_injective h]; exact hq
      · intro h; exact ⟨e, rfl, h⟩
    simp only [this, asgWeight_asg]
    by_cases h1 : Valid e <;> by_cases h2 : Q e <;> simp [h1, h2]

/-! ## The weight of the assignments that are no events -/

/-- The event behind an assignment: a target in a column of another one counts as having the fate
`g`. -/
def retract (g : Fate N) (i : Fin M) (c : Fin (N + 2 * M)) : Fate N :=
  if h : c.val < N then .report ⟨c.val, h⟩
  else if c.val = N + i.val then .missed
  else if c.val = N + M + i.val then .absent
  else g

/-- A fate without a report whose weight is at least `exp (-B)`. -/
def Anchor (W : Fate N → ℝ) (B : ℚ) (g : Fate N) : Prop := g.Free ∧ Real.exp (-(B : ℝ)) ≤ W g

theorem retract_col (g : Fate N) (i : Fin M) (f : Fate N) : retract g i (col i f) = f := by
  have hi := i.2
  cases f with
  | report j => simp [retract, col]
  | missed => simp [retract, col]
  | absent =>
    unfold retract col
    rw [dif_neg (by simp; omega), if_neg (by simp; omega), if_pos rfl]

theorem fibre_le {det : Fin M → Fin N → XR} {miss fls : Fin M → XR} {B : ℚ} {i : Fin M}
    {g : Fate N} (hg : Anchor (weights det miss fls i) B g) (f : Fate N) :
    (∑ c with retract g i c = f, costWeight (costMatrix det miss fls i c)) ≤
      weights det miss fls i f * (1 + 2 * M * Real.exp (B - 30000)) := by
  have hi := i.2
  have hw := weights_nonneg det miss fls i f
  have he := Real.exp_nonneg (-30000 : ℝ)
  have hpt : ∀ c : Fin (N + 2 * M), (if retract g i c = f then
        costWeight (costMatrix det miss fls i c) else 0) ≤
      (if c = col i f then weights det miss fls i f else 0) +
        if N ≤ c.val ∧ f = g then Real.exp (-30000) else 0 := by
    intro c
    have hnn : (0 : ℝ) ≤ if N ≤ c.val ∧ f = g then Real.exp (-30000) else 0 := by
      split
      · exact he
      · exact le_refl _
    by_cases hc : c = col i f
    · subst hc
      rw [costMatrix_col, retract_col, if_pos rfl, if_pos rfl]
      linarith
    · rw [if_neg hc, zero_add]
      by_cases hr : retract g i c = f
      · rw [if_pos hr]
        unfold retract at hr
        by_cases h1 : c.val < N
        · rw [dif_pos h1] at hr
          exact absurd (by rw [← hr]; rfl) hc
        · rw [dif_neg h1] at hr
          by_cases h2 : c.val = N + i.val
          · rw [if_pos h2] at hr
            exact absurd (by rw [← hr]; exact Fin.ext h2) hc
          · rw [if_neg h2] at hr
            by_cases h3 : c.val = N + M + i.val
            · rw [if_pos h3] at hr
              exact absurd (by rw [← hr]; exact Fin.ext h3) hc
            · rw [if_neg h3] at hr
              rw [if_pos ⟨by omega, hr.symm⟩]
              unfold costMatrix
              rw [dif_neg h1, if_neg h2, if_neg h3]
              simp [costWeight]
      · rw [if_neg hr]; exact hnn
  rw [Finset.sum_filter]
  refine (Finset.sum_le_sum fun c _ => hpt c).trans ?_
  rw [Finset.sum_add_distrib, Finset.sum_ite_eq' Finset.univ (col i f),
    if_pos (Finset.mem_univ _), Fin.sum_univ_add]
  have h1 : ∑ x : Fin N, (if N ≤ (Fin.castAdd (2 * M) x).val ∧ f = g then Real.exp (-30000) else 0) =
      0 := by
    apply Finset.sum_eq_zero
    intro x _
    have := x.2
    rw [if_neg (by simp)]
  rw [h1, zero_add]
  have hk : 0 ≤ 2 * (M : ℝ) * Real.exp (B - 30000) := by positivity
  by_cases hfg : f = g
  · have h2 : ∑ x : Fin (2 * M), (if N ≤ (Fin.natAdd N x).val ∧ f = g then Real.exp (-30000)
        else 0) = 2 * M * Real.exp (-30000) := by
      rw [Finset.sum_congr rfl fun x _ => if_pos ⟨by simp, hfg⟩]
      simp
    rw [h2]
    have h3 : Real.exp (-30000) ≤ weights det miss fls i f * Real.exp (B - 30000) := by
      have := mul_le_mul_of_nonneg_right hg.2 (Real.exp_nonneg ((B : ℝ) - 30000))
      rw [← Real.exp_add] at this
      rw [hfg]
      refine le_trans (Real.exp_le_exp.2 ?_) this
      linarith
    have h4 : 2 * (M : ℝ) * Real.exp (-30000) ≤
        2 * M * (weights det miss fls i f * Real.exp (B - 30000)) :=
      mul_le_mul_of_nonneg_left h3 (by positivity)
    linarith
  · have h2 : ∑ x : Fin (2 * M), (if N ≤ (Fin.natAdd N x).val ∧ f = g then Real.exp (-30000)
        else 0) = 0 := Finset.sum_eq_zero fun x _ => if_neg fun h => hfg h.2
    rw [h2]
    nlinarith

theorem spurious_le {det : Fin M → Fin N → XR} {miss fls : Fin M → XR} {B : ℚ}
    (hB : ∀ i, ∃ g, Anchor (weights det miss fls i) B g) :
    ms (costMatrix det miss fls) (fun _ => True) ≤
      evidence (weights det miss fls) (fun _ => True) *
        (1 + 2 * M * Real.exp (B - 30000)) ^ M := by
  classical
  choose g hg using hB
  set C := costMatrix det miss fls
  set W := weights det miss fls
  set κ := 2 * (M : ℝ) * Real.exp (B - 30000) with hκ
  unfold ms evidence
  simp only [if_true, and_true]
  rw [Finset.sum_mul, ← Finset.sum_fiberwise Finset.univ
    (fun σ : Fin M → Fin (N + 2 * M) => fun i => retract (g i) i (σ i))]
  apply Finset.sum_le_sum
  intro e _
  have hset : (Finset.univ.filter fun σ : Fin M → Fin (N + 2 * M) =>
      (fun i => retract (g i) i (σ i)) = e) =
      Fintype.piFinset fun i => Finset.univ.filter fun c => retract (g i) i c = e i := by
    ext σ
    simp only [Finset.mem_filter, Finset.mem_univ, true_and, Fintype.mem_piFinset]
    exact funext_iff
  by_cases hv : Valid e
  · rw [if_pos hv, hset]
    calc ∑ σ ∈ Fintype.piFinset fun i => Finset.univ.filter fun c => retract (g i) i c = e i,
          asgWeight C σ
        ≤ ∑ σ ∈ Fintype.piFinset fun i => Finset.univ.filter fun c => retract (g i) i c = e i,
          ∏ i, costWeight (C i (σ i)) := by
            apply Finset.sum_le_sum
            intro σ _
            unfold asgWeight
            split
            · exact le_refl _
            · exact Finset.prod_nonneg fun i _ => costWeight_nonneg _
      _ = ∏ i, ∑ c with retract (g i) i c = e i, costWeight (C i c) := by
            rw [Finset.prod_univ_sum]
      _ ≤ ∏ i, (W i (e i) * (1 + κ)) := by
            apply Finset.prod_le_prod
            · intro i _
              exact Finset.sum_nonneg fun c _ => costWeight_nonneg _
            · intro i _
              exact fibre_le (hg i) (e i)
      _ = joint W e * (1 + κ) ^ M := by
            rw [Finset.prod_mul_distrib]
            simp [joint]
  · rw [if_neg hv, zero_mul]
    apply le_of_eq
    apply Finset.sum_eq_zero
    intro σ hσ
    rw [Finset.mem_filter] at hσ
    unfold asgWeight
    rw [if_neg]
    intro hinj
    apply hv
    intro a b j ha hb
    apply hinj
    have key : ∀ a, e a = .report j → (σ a).val = j.val := by
      intro a ha
      have h : retract (g a) a (σ a) = e a := congrFun hσ.2 a
      rw [ha] at h
      unfold retract at h
      split at h
      · injection h with h
        rw [← h]
      · split at h
        · cases h
        · split at h
          · cases h
          · rcases (hg a).1 with h' | h' <;> rw [h'] at h <;> cases h
    exact Fin.ext ((key a ha).trans (key b hb).symm)

/-! ## The drawn hypotheses against all events -/

/-- Bound on the error that the assignments that are no events cause. -/
noncomputable def spur (M : Nat) (B : ℚ) : ℝ := (1 + 2 * M * Real.exp (B - 30000)) ^ M - 1

theorem spur_nonneg (M : Nat) (B : ℚ) : 0 ≤ spur M B := by
  unfold spur
  have : 0 ≤ 2 * (M : ℝ) * Real.exp (B - 30000) := by positivity
  have := one_le_pow₀ (n := M) (show 1 ≤ 1 + 2 * (M : ℝ) * Real.exp (B - 30000) by linarith)
  linarith

theorem close {det : Fin M → Fin N → XR} {miss fls : Fin M → XR} {B : ℚ}
    (hB : ∀ i, ∃ g, Anchor (weights det miss fls i) B g) {L : List (Fin M → Fin (N + 2 * M))} (hn : L.Nodup)
    (hf : ∀ σ ∈ L, Feasible (costMatrix det miss fls) σ) (hL : L ≠ []) {ρ : ℝ} (hρ : 0 ≤ ρ)
    (hu : ∀ τ, Feasible (costMatrix det miss fls) τ → τ ∉ L →
      ew (total (costMatrix det miss fls) τ) ≤ ρ * mass (costMatrix det miss fls) L fun _ => true)
    (P : (Fin M → Fin (N + 2 * M)) → Bool) (Q : (Fin M → Fate N) → Prop)
    (hPQ : ∀ e, P (asg e) = true ↔ Q e) :
    |mass (costMatrix det miss fls) L P / mass (costMatrix det miss fls) L (fun _ => true) -
      bayes (weights det miss fls) Q| ≤ spur M B + ((N + 2 : Nat) : ℝ) ^ M * ρ := by
  classical
  set C := costMatrix det miss fls with hC
  set W := weights det miss fls with hW
  have hWn : ∀ i f, 0 ≤ W i f := weights_nonneg det miss fls
  have hd := mass_pos C hL
  have hp : 0 < evidence W fun _ => True := by
    apply evidence_pos hWn
    intro i
    obtain ⟨g, hg, hgB⟩ := hB i
    exact ⟨g, hg, lt_of_lt_of_le (Real.exp_pos _) hgB⟩
  have hspur := spurious_le hB
  rw [← hC, ← hW] at hspur
  unfold bayes
  set c := ms C fun σ => σ ∈ L ∧ ∃ e, asg e = σ ∧ True with hc
  set t := ms C fun σ => σ ∈ L ∧ ∃ e, asg e = σ ∧ Q e with ht
  have hdm := mass_eq_ms hn hf fun _ => true
  have hxm := mass_eq_ms hn hf P
  have hpm := evidence_eq_ms det miss fls fun _ => True
  have hym := evidence_eq_ms det miss fls Q
  rw [← hC, ← hW] at hpm hym
  have mono : ∀ A A' : (Fin M → Fin (N + 2 * M)) → Prop, (∀ σ, A σ → A' σ) → ms C A ≤ ms C A' := by
    intro A A' h
    unfold ms
    apply Finset.sum_le_sum
    intro σ _
    have := asgWeight_nonneg C σ
    by_cases hA : A σ
    · rw [if_pos hA, if_pos (h σ hA)]
    · rw [if_neg hA]
      split
      · exact this
      · exact le_refl _
  have four : ∀ A A' D E : (Fin M → Fin (N + 2 * M)) → Prop, (∀ σ, A σ → D σ ∨ E σ) →
      (∀ σ, A' σ → E σ ∨ D σ) → (∀ σ, A σ → A' σ → D σ ∧ E σ) →
      ms C A + ms C A' ≤ ms C D + ms C E := by
    intro A A' D E h1 h2 h3
    unfold ms
    rw [← Finset.sum_add_distrib, ← Finset.sum_add_distrib]
    apply Finset.sum_le_sum
    intro σ _
    have := asgWeight_nonneg C σ
    have e1 := h1 σ
    have e2 := h2 σ
    have e3 := h3 σ
    by_cases a1 : A σ <;> by_cases a2 : A' σ <;> by_cases a3 : D σ <;> by_cases a4 : E σ <;>
      simp only [a1, a2, a3, a4, if_true, if_false] <;> first | linarith | (exfalso; tauto)
  have ht0 : 0 ≤ t := ms_nonneg C _
  have htc : t ≤ c := mono _ _ (fun σ h => ⟨h.1, h.2.imp fun e he => ⟨he.1, trivial⟩⟩)
  have htx : t ≤ mass C L P := by
    rw [hxm]
    apply mono
    rintro σ ⟨h1, e, rfl, h2⟩
    exact ⟨h1, (hPQ e).2 h2⟩
  have hty : t ≤ evidence W Q := by
    rw [hym]
    exact mono _ _ fun σ h => h.2
  have hcd : c ≤ mass C L fun _ => true := by
    rw [hdm]
    exact mono _ _ fun σ h => ⟨h.1, rfl⟩
  have hcp : c ≤ evidence W fun _ => True := by
    rw [hpm]
    exact mono _ _ fun σ h => h.2
  have hx : mass C L P + c ≤ t + mass C L fun _ => true := by
    rw [hxm, hdm]
    apply four
    · exact fun σ h => Or.inr ⟨h.1, rfl⟩
    · exact fun σ h => Or.inl ⟨h.1, rfl⟩
    · rintro σ ⟨h1, h2⟩ ⟨_, e, rfl, _⟩
      exact ⟨⟨h1, e, rfl, (hPQ e).1 h2⟩, h1, rfl⟩
  have hy : evidence W Q + c ≤ t + evidence W fun _ => True := by
    rw [hym, hpm]
    apply four
    · exact fun σ h => Or.inr (h.imp fun e he => ⟨he.1, trivial⟩)
    · exact fun σ h => Or.inl h.2
    · rintro σ h1 ⟨h2, h3⟩
      exact ⟨⟨h2, h1⟩, h3⟩
  refine (normalise_diff ht0 htc htx hty (by linarith) (by linarith) hcd hcp hd hp).trans ?_
  have hs0 := spur_nonneg M B
  have hE0 : 0 ≤ ((N + 2 : Nat) : ℝ) ^ M * ρ := by positivity
  rcases le_total (evidence W fun _ => True) (mass C L fun _ => true) with h | h
  · rw [max_eq_left h]
    have h1 : (mass C L fun _ => true) + (evidence W fun _ => True) ≤
        c + ms C fun _ => True := by
      rw [hdm, hpm, hc]
      apply four
      · exact fun σ h => Or.inr trivial
      · exact fun σ h => Or.inl trivial
      · exact fun σ h1 h2 => ⟨⟨h1.1, h2⟩, trivial⟩
    have h2 : (mass C L fun _ => true) - c ≤ (evidence W fun _ => True) * spur M B := by
      unfold spur
      linarith
    have h3 : (mass C L fun _ => true) - c ≤ (mass C L fun _ => true) * spur M B :=
      h2.trans (mul_le_mul_of_nonneg_right h hs0)
    have h4 : 1 - c / mass C L (fun _ => true) = ((mass C L fun _ => true) - c) /
        mass C L (fun _ => true) := by field_simp
    rw [h4, div_le_iff₀ hd]
    nlinarith
  · rw [max_eq_right h]
    have h1 : (evidence W fun _ => True) - c ≤
        ((N + 2 : Nat) : ℝ) ^ M * (ρ * mass C L fun _ => true) := by
      have e1 : c = evidence W fun e => asg e ∈ L := by
        rw [evidence_eq_ms, hc]
        congr 1
        funext σ
        apply propext
        constructor
        · rintro ⟨h1, e, rfl, _⟩
          exact ⟨e, rfl, h1⟩
        · rintro ⟨e, rfl, h1⟩
          exact ⟨h1, e, rfl, trivial⟩
      rw [e1]
      unfold evidence
      rw [← Finset.sum_sub_distrib]
      have hcard : ((N + 2 : Nat) : ℝ) ^ M =
          ((Finset.univ : Finset (Fin M → Fate N)).card : ℝ) := by
        rw [Finset.card_univ, Fintype.card_fun, Fate.card, Fintype.card_fin]
        push_cast; rfl
      rw [hcard, ← nsmul_eq_mul]
      apply Finset.sum_le_card_nsmul
      intro e _
      have hnn : 0 ≤ ρ * mass C L fun _ => true := mul_nonneg hρ hd.le
      have hj := asgWeight_asg det miss fls e
      rw [← hC, ← hW] at hj
      by_cases hv : Valid e
      · by_cases hm : asg e ∈ L
        · simp [hv, hm, hnn]
        · simp only [hv, hm, and_true, and_false, if_true, if_false, sub_zero] at hj ⊢
          rw [← hj]
          by_cases hfe : Feasible C (asg e)
          · rw [asgWeight_feasible hfe]
            exact hu _ hfe hm
          · rw [asgWeight_infeasible hfe]; exact hnn
      · simp [hv, hnn]
    have h4 : 1 - c / evidence W (fun _ => True) = ((evidence W fun _ => True) - c) /
        evidence W (fun _ => True) := by field_simp
    have h5 : ((N + 2 : Nat) : ℝ) ^ M * (ρ * mass C L fun _ => true) ≤
        ((N + 2 : Nat) : ℝ) ^ M * ρ * evidence W fun _ => True := by
      rw [← mul_assoc]
      exact mul_le_mul_of_nonneg_left h hE0
    rw [h4, div_le_iff₀ hp]
    nlinarith

theorem spur_small {B : ℚ} (hM : M ≤ 30) (hB : B ≤ 40) : spur M B ≤ Real.exp (-29000) := by
  have hM' : (M : ℝ) ≤ 30 := by exact_mod_cast hM
  have hB' : (B : ℝ) ≤ 40 := by exact_mod_cast hB
  have hM0 : (0 : ℝ) ≤ M := Nat.cast_nonneg M
  set x := Real.exp (B - 30000 : ℝ) with hx
  have hx0 : 0 < x := Real.exp_pos _
  have h1 : x ≤ Real.exp (-29000) * Real.exp (-960) := by
    rw [← Real.exp_add]
    apply Real.exp_le_exp.2
    linarith
  have he : (961 : ℝ) ≤ Real.exp 960 := by
    have := Real.add_one_le_exp (960 : ℝ); linarith
  have hq : Real.exp (-960 : ℝ) * 3600 ≤ 1 := by
    have h2 : (3600 : ℝ) ≤ Real.exp 960 := by
      have e2 : Real.exp 960 = Real.exp 480 * Real.exp 480 := by rw [← Real.exp_add]; norm_num
      have := Real.add_one_le_exp (480 : ℝ)
      rw [e2]; nlinarith
    rw [Real.exp_neg, inv_mul_le_iff₀ (Real.exp_pos _)]
    linarith
  have hsmall : Real.exp (-29000 : ℝ) ≤ 1 := Real.exp_le_one_iff.2 (by norm_num)
  have hE : 0 < Real.exp (-29000 : ℝ) := Real.exp_pos _
  have h3600 : 3600 * x ≤ Real.exp (-29000) := by nlinarith
  have hk : 2 * (M : ℝ) * x ≤ 60 * x := by nlinarith
  have hk0 : 0 ≤ 2 * (M : ℝ) * x := by positivity
  unfold spur
  -- powers of a number close to 1
  have key : ∀ m : Nat, m ≤ 30 → (1 + 2 * (M : ℝ) * x) ^ m ≤ 1 + 2 * m * (60 * x) := by
    intro m
    induction m with
    | zero => intro _; simp
    | succ m ih =>
      intro hm
      have ih := ih (by omega)
      have hm' : (m : ℝ) ≤ 29 := by exact_mod_cast (show m ≤ 29 by omega)
      have hm0 : (0 : ℝ) ≤ m := Nat.cast_nonneg m
      have hy : 60 * x ≤ 1 / 60 := by linarith
      rw [pow_succ]
      calc (1 + 2 * (M : ℝ) * x) ^ m * (1 + 2 * M * x)
          ≤ (1 + 2 * m * (60 * x)) * (1 + 60 * x) := by
            apply mul_le_mul ih (by linarith) (by linarith) (by positivity)
        _ ≤ 1 + 2 * ((m + 1 : Nat) : ℝ) * (60 * x) := by
            push_cast
            have h1 : 2 * (m : ℝ) * (60 * x) ≤ 1 := by nlinarith
            nlinarith [mul_le_mul_of_nonneg_right h1 (show 0 ≤ 60 * x by positivity)]
  have := key M hM
  nlinarith [mul_le_mul_of_nonneg_right hM' (show 0 ≤ 60 * x by positivity)]

/-! ## C65 -/

/-- The fate that column `j` of `R` stands for. -/
def fateOf (j : Fin (N + 1)) : Fate N := if h : j.val < N then .report ⟨j.val, h⟩ else .missed

/-- C65: the normalised entries of `R`, the posterior existence probabilities and the birth
probabilities of a cluster are, up to `ε`, the posterior probabilities that Bayes' rule gives by
enumerating all joint events.  The error `ε` is `spur` (the price of writing 30000 for infinity)
plus the weight of what was not drawn: at most `1/n` of the total per event after `n` hypotheses,
less than `w_lim` per event if the limit on their number was not reached, and nothing at all if
neither limit applies. -/
theorem C65_posterior {det : Fin M → Fin N → XR} {miss fls : Fin M → XR} {B : ℚ}
    (hd : ∀ i j, IsC (det i j)) (hm : ∀ i, IsC (miss i)) (hf : ∀ i, IsFin (fls i))
    (hB : ∀ i, ∃ q, (fls i = fin q ∨ miss i = fin q) ∧ q ≤ B)
    (hM0 : 0 < M) (hM : M ≤ 30) {pick : List (Node M (N + 2 * M)) → Nat} (hp : PickOk pick)
    (wlim nmax : ℝ) :
    ∃ (F : Nat) (a : Acc M N) (ε : ℝ),
      (∀ fuel, F ≤ fuel → hypotheses pick fuel ew wlim nmax (costMatrix det miss fls) = some a) ∧
      (∀ i j, ∃ x, a.norm i j = some x ∧
        |x - bayes (weights det miss fls) fun e => e i = fateOf j| ≤ ε) ∧
      (∀ i, ∃ s, a.posterior i = (if 1 / 1000000 ≤ s then s else 0) ∧
        |s - bayes (weights det miss fls) fun e => e i ≠ .absent| ≤ ε) ∧
      (∀ j, ∃ b, a.rB j = some b ∧
        |b - bayes (weights det miss fls) fun e => ∀ i, e i ≠ .report j| ≤ ε) ∧
      0 < a.n ∧ ε ≤ spur M B + ((N + 2 : Nat) : ℝ) ^ M / a.n ∧
      ((a.n : ℝ) < nmax → ε ≤ spur M B + ((N + 2 : Nat) : ℝ) ^ M * max 0 wlim) ∧
      (wlim ≤ 0 → ((N + 2 * M : Nat) : ℝ) ^ M < nmax → ε ≤ spur M B) := by
  have hB : ∀ i, ∃ g, Anchor (weights det miss fls i) B g := by
    intro i
    obtain ⟨q, h, hq⟩ := hB i
    have he : Real.exp (-(B : ℝ)) ≤ Real.exp (-(q : ℝ)) :=
      Real.exp_le_exp.2 (neg_le_neg (by exact_mod_cast hq))
    rcases h with h | h
    · exact ⟨.absent, Or.inl rfl, by simpa only [weights, h, costWeight] using he⟩
    · exact ⟨.missed, Or.inr rfl, by simpa only [weights, h, costWeight] using he⟩
  obtain ⟨F, L, a, g1, g2, g3, g4, g5, g6, g7, g8⟩ := cluster_spec hd hm hf hM0 hM hp wlim nmax
  set C := costMatrix det miss fls with hC
  set W := weights det miss fls with hW
  have hfeas : ∀ σ ∈ L, Feasible C σ := fun σ h => ⟨g4.inj σ h, g4.fin σ h⟩
  have hpos := mass_pos C g2
  have hlen : 0 < L.length := List.length_pos_iff.2 g2
  have hne : a.wsum ≠ 0 := by rw [g5]; exact hpos.ne'
  -- the smallest weight drawn
  obtain ⟨ℓ, hℓ, hℓmin⟩ : ∃ ℓ ∈ L, (∀ σ ∈ L, ew (total C ℓ) ≤ ew (total C σ)) ∧
      (L.map fun σ => ew (total C σ)).getLast?.getD 0 = ew (total C ℓ) := by
    refine ⟨L.getLast g2, List.getLast_mem g2, ?_, ?_⟩
    · intro σ hσ
      apply ew_le
      obtain ⟨k, hk, rfl⟩ := List.mem_iff_getElem.1 hσ
      rw [List.getLast_eq_getElem]
      rcases Nat.lt_or_ge k (L.length - 1) with h | h
      · exact List.pairwise_iff_getElem.1 g4.sorted k (L.length - 1) hk (by omega) h
      · have : k = L.length - 1 := by omega
        subst this; exact le_refl _
    · rw [List.getLast?_map, List.getLast?_eq_some_getLast g2]
      rfl
  obtain ⟨hmin, hlast⟩ := hℓmin
  have hmassL : (mass C L fun _ => true) = (L.map fun σ => ew (total C σ)).sum := by
    unfold mass; simp
  set all : Prop := ∀ τ, Feasible C τ → τ ∈ L with hall
  obtain ⟨ρ, hρ0, hρu, hρn, hρw⟩ : ∃ ρ : ℝ, 0 ≤ ρ ∧
      (∀ τ, Feasible C τ → τ ∉ L → ew (total C τ) ≤ ρ * mass C L fun _ => true) ∧
      ρ ≤ 1 / (a.n : ℝ) ∧ ((a.n : ℝ) < nmax → ρ ≤ max 0 wlim) := by
    by_cases hA : all
    · exact ⟨0, le_refl _, fun τ h1 h2 => absurd (hA τ h1) h2, by positivity,
        fun _ => le_max_left _ _⟩
    · refine ⟨ew (total C ℓ) / mass C L fun _ => true, div_nonneg (ew_pos _).le hpos.le, ?_, ?_, ?_⟩
      · intro τ h1 h2
        rw [div_mul_cancel₀ _ hpos.ne']
        exact ew_le (g4.best ℓ hℓ τ h1 h2)
      · rw [g3, div_le_div_iff₀ hpos (by exact_mod_cast hlen), one_mul, mul_comm, ← nsmul_eq_mul,
          hmassL]
        have := List.card_nsmul_le_sum (L.map fun σ => ew (total C σ)) (ew (total C ℓ)) (by
          intro x hx
          obtain ⟨σ, hσ, rfl⟩ := List.mem_map.1 hx
          exact hmin σ hσ)
        rwa [List.length_map] at this
      · intro hlt
        rcases g8 with h | h
        · rcases h with ⟨_, h⟩ | h
          · rw [hlast, ← hmassL] at h
            exact h.le.trans (le_max_right _ _)
          · rw [List.length_map, ← g3] at h
            exact absurd hlt (not_lt.2 h)
        · exact absurd h hA
  have hclose := close hB g4.nodup hfeas g2 hρ0 hρu
  rw [← hC, ← hW] at hclose
  have hE : 0 ≤ ((N + 2 : Nat) : ℝ) ^ M := by positivity
  have hw2 : (a.n : ℝ) < nmax → spur M B + ((N + 2 : Nat) : ℝ) ^ M * ρ ≤
      spur M B + ((N + 2 : Nat) : ℝ) ^ M * max 0 wlim := by
    intro h
    have := mul_le_mul_of_nonneg_left (hρw h) hE
    linarith
  refine ⟨F, a, spur M B + ((N + 2 : Nat) : ℝ) ^ M * ρ, g1, ?_, ?_, ?_, by omega, ?_, hw2, ?_⟩
  · intro i j
    refine ⟨a.R i j / a.wsum, if_neg hne, ?_⟩
    rw [g5, g6]
    apply hclose
    intro e
    have hj := j.2
    have hi := i.2
    simp only [decide_eq_true_eq, target_eq, asg, fateOf]
    cases he : e i with
    | report k =>
      have := k.2
      simp only [col]
      split
      · simp only [Fate.report.injEq, Fin.ext_iff]; omega
      · simp only [reduceCtorEq, iff_false]; omega
    | missed =>
      simp only [col]
      split
      · simp only [reduceCtorEq, iff_false]; omega
      · exact iff_of_true (Or.inr ⟨by omega, trivial⟩) rfl
    | absent =>
      simp only [col]
      split
      · simp only [reduceCtorEq, iff_false]; omega
      · simp only [reduceCtorEq, iff_false]; omega
  · intro i
    refine ⟨∑ j, a.R i j / a.wsum, ?_, ?_⟩
    · unfold Acc.posterior Acc.rowSum
      rw [if_neg hne]
      unfold targetCorrect
      simp only
      split <;> rfl
    · have hsum : ∑ j, a.R i j = mass C L (fun σ => (σ i).val < N || (σ i).val == N + i.val) := by
        simp only [g6]
        apply sum_mass
        · intro σ _
          simp only [target_eq, decide_eq_true_eq, Bool.or_eq_true, beq_iff_eq]
          constructor
          · rintro (h | h)
            · exact ⟨⟨(σ i).val, by omega⟩, Or.inl ⟨h, rfl⟩⟩
            · exact ⟨⟨N, by omega⟩, Or.inr ⟨rfl, h⟩⟩
          · rintro ⟨x, hx⟩
            omega
        · intro σ _ x y hx hy
          simp only [decide_eq_true_eq] at hx hy
          rw [hx] at hy
          exact Option.some.inj hy
      rw [← Finset.sum_div, hsum, g5]
      apply hclose
      intro e
      have hi := i.2
      rw [Bool.or_eq_true, decide_eq_true_iff, beq_iff_eq]
      change (col i (e i)).val < N ∨ (col i (e i)).val = N + i.val ↔ _
      cases he : e i with
      | report k => have := k.2; simp [col]
      | missed => simp [col]
      | absent => simp [col]; omega
  · intro j
    refine ⟨1 - ∑ i, a.R i j.castSucc / a.wsum, if_neg hne, ?_⟩
    have hsum : ∑ i, a.R i j.castSucc =
        mass C L (fun σ => decide (∃ i, (σ i).val = j.val)) := by
      simp only [g6]
      apply sum_mass
      · intro σ _
        simp only [target_eq, decide_eq_true_eq]
        refine exists_congr fun i => ?_
        have hj := j.2
        rw [Fin.val_castSucc]
        omega
      · intro σ hσ x y hx hy
        simp only [target_eq, decide_eq_true_eq, Fin.val_castSucc] at hx hy
        have hj := j.2
        exact g4.inj σ hσ (Fin.ext (by omega))
    have hcomp : 1 - ∑ i, a.R i j.castSucc / a.wsum =
        mass C L (fun σ => decide (∀ i, (σ i).val ≠ j.val)) / mass C L (fun _ => true) := by
      have h1 := sum_mass (ι := Bool) C L (fun b σ =>
        if b then decide (∃ i, (σ i).val = j.val) else decide (∀ i, (σ i).val ≠ j.val))
        (fun _ => true) (by
          intro σ _
          by_cases h : ∃ i, (σ i).val = j.val
          · exact ⟨fun _ => ⟨true, by simp [h]⟩, fun _ => rfl⟩
          · exact ⟨fun _ => ⟨false, by simpa using h⟩, fun _ => rfl⟩) (by
          intro σ _ x y hx hy
          cases x <;> cases y <;> simp at hx hy ⊢
          · obtain ⟨i, hi⟩ := hy; exact hx i hi
          · obtain ⟨i, hi⟩ := hx; exact hy i hi)
      simp only [Fintype.sum_bool, if_true, Bool.false_eq_true, if_false] at h1
      rw [← Finset.sum_div, hsum, g5, ← h1]
      rw [← h1] at hpos
      rw [eq_div_iff hpos.ne', sub_mul, div_mul_cancel₀ _ hpos.ne']
      ring
    rw [hcomp]
    apply hclose
    intro e
    have hj := j.2
    rw [decide_eq_true_iff]
    refine forall_congr' fun i => ?_
    change (col i (e i)).val ≠ j.val ↔ _
    cases he : e i with
    | report k => simp [col, Fin.ext_iff]
    | missed => simp [col]; omega
    | absent => simp [col]; omega
  · have := mul_le_mul_of_nonneg_left hρn hE
    rw [mul_one_div] at this
    linarith
  · intro h1 h2
    have hcard : L.length ≤ (N + 2 * M) ^ M := by
      have := g4.nodup.length_le_card
      rwa [Fintype.card_fun, Fintype.card_fin, Fintype.card_fin] at this
    have : (a.n : ℝ) < nmax := by
      refine lt_of_le_of_lt ?_ h2
      rw [g3]
      exact_mod_cast hcard
    have := hw2 this
    rw [max_eq_left h1, mul_zero, add_zero] at this
    exact this

example := C65_posterior (fls := exFls) (B := 3) exDet_ok exMiss_ok
  (by intro i; unfold exFls; split <;> exact ⟨_, rfl⟩)
  (by intro i; unfold exFls; split
      · exact ⟨_, Or.inl rfl, by norm_num⟩
      · exact ⟨_, Or.inl rfl, by norm_num⟩) (by decide) (by decide)
  exists_pickOk.choose_spec 0 100

/-! ## From the existence probabilities and likelihoods to the costs -/

/-- A cost is, within `δ`, the negative logarithm of a weight; weight 0 gives an infinite cost
(`std::log(0)` is `-inf`). -/
def Near (δ : ℝ) (c : XR) (w : ℝ) : Prop :=
  (w = 0 ∧ c = pinf) ∨ (0 < w ∧ ∃ q : ℚ, c = fin q ∧ |(q : ℝ) + Real.log w| ≤ δ)

/-- The weights of the fates of independent targets: target `i` exists with probability `r i`; then
report `j` has likelihood ratio `l i j`, and no report has `q i`. -/
def lmbWeights (r : Fin M → ℝ) (l : Fin M → Fin N → ℝ) (q : Fin M → ℝ) : Fin M → Fate N → ℝ
  | i, .report j => r i * l i j
  | i, .missed => r i * q i
  | i, .absent => 1 - r i

theorem near_weight {δ : ℝ} {c : XR} {w : ℝ} (h : Near δ c w) :
    costWeight c ≤ Real.exp δ * w ∧ w ≤ Real.exp δ * costWeight c := by
  rcases h with ⟨rfl, rfl⟩ | ⟨hw, q, rfl, hq⟩
  · simp [costWeight]
  · rw [abs_le] at hq
    unfold costWeight
    constructor
    · calc Real.exp (-(q : ℝ)) ≤ Real.exp (δ + Real.log w) := Real.exp_le_exp.2 (by linarith)
        _ = Real.exp δ * w := by rw [Real.exp_add, Real.exp_log hw]
    · calc w = Real.exp (Real.log w) := (Real.exp_log hw).symm
        _ ≤ Real.exp (δ + -(q : ℝ)) := Real.exp_le_exp.2 (by linarith)
        _ = Real.exp δ * Real.exp (-(q : ℝ)) := Real.exp_add _ _

theorem evidence_scale {W V : Fin M → Fate N → ℝ} {k : ℝ} (hV : ∀ i f, 0 ≤ V i f)
    (hW : ∀ i f, 0 ≤ W i f) (h : ∀ i f, W i f ≤ k * V i f) (Q) :
    evidence W Q ≤ k ^ M * evidence V Q := by
  unfold evidence
  rw [Finset.mul_sum]
  apply Finset.sum_le_sum
  intro e _
  split
  · unfold joint
    calc ∏ i, W i (e i) ≤ ∏ i, (k * V i (e i)) :=
          Finset.prod_le_prod (fun i _ => hW _ _) fun i _ => h _ _
      _ = k ^ M * ∏ i, V i (e i) := by rw [Finset.prod_mul_distrib]; simp
  · simp

/-- C65, rounding of the costs: if every cost is within `δ` of the negative logarithm of its weight
(`target.hpp:127,138,185`), the posterior probabilities for the costs and for the exact existence
probabilities and likelihoods differ at most by the factor `exp (2 M δ)`. -/
theorem C65_rounding {det : Fin M → Fin N → XR} {miss fls : Fin M → XR} {r q : Fin M → ℝ}
    {l : Fin M → Fin N → ℝ} {δ : ℝ} (hr0 : ∀ i, 0 ≤ r i) (hr1 : ∀ i, r i ≤ 1)
    (hl : ∀ i j, 0 ≤ l i j) (hq : ∀ i, 0 ≤ q i) (hpos : ∀ i, 0 < max (1 - r i) (r i * q i)) (hd : ∀ i j, Near δ (det i j) (r i * l i j))
    (hm : ∀ i, Near δ (miss i) (r i * q i)) (hf : ∀ i, Near δ (fls i) (1 - r i))
    (Q : (Fin M → Fate N) → Prop) :
    bayes (weights det miss fls) Q ≤ Real.exp (2 * M * δ) * bayes (lmbWeights r l q) Q ∧
    bayes (lmbWeights r l q) Q ≤ Real.exp (2 * M * δ) * bayes (weights det miss fls) Q := by
  set W := weights det miss fls with hW
  set V := lmbWeights r l q with hV
  have hWn : ∀ i f, 0 ≤ W i f := weights_nonneg det miss fls
  have hVn : ∀ i f, 0 ≤ V i f := by
    intro i f
    cases f with
    | report j => exact mul_nonneg (hr0 i) (hl i j)
    | missed => exact mul_nonneg (hr0 i) (hq i)
    | absent => have := hr1 i; exact (by linarith : 0 ≤ 1 - r i)
  have hn : ∀ i f, W i f ≤ Real.exp δ * V i f ∧ V i f ≤ Real.exp δ * W i f := by
    intro i f
    cases f with
    | report j => exact near_weight (hd i j)
    | missed => exact near_weight (hm i)
    | absent => exact near_weight (hf i)
  have hV0 : 0 < evidence V fun _ => True := by
    apply evidence_pos hVn
    intro i
    rcases lt_max_iff.1 (hpos i) with h | h
    · exact ⟨.absent, Or.inl rfl, h⟩
    · exact ⟨.missed, Or.inr rfl, h⟩
  have hW0 : 0 < evidence W fun _ => True := by
    apply evidence_pos hWn
    intro i
    have key : ∀ f, 0 < V i f → 0 < W i f := by
      intro f h1
      have h2 := (hn i f).2
      by_contra hc
      have h3 : W i f = 0 := le_antisymm (not_lt.1 hc) (hWn _ _)
      rw [h3, mul_zero] at h2
      linarith
    rcases lt_max_iff.1 (hpos i) with h | h
    · exact ⟨.absent, Or.inl rfl, key _ h⟩
    · exact ⟨.missed, Or.inr rfl, key _ h⟩
  have key : ∀ {A B : Fin M → Fate N → ℝ}, (∀ i f, 0 ≤ A i f) → (∀ i f, 0 ≤ B i f) →
      (∀ i f, A i f ≤ Real.exp δ * B i f) → (∀ i f, B i f ≤ Real.exp δ * A i f) →
      0 < evidence A (fun _ => True) → 0 < evidence B (fun _ => True) →
      bayes A Q ≤ Real.exp (2 * M * δ) * bayes B Q := by
    intro A B hA hB h1 h2 hA0 hB0
    have e1 := evidence_scale hB hA h1 Q
    have e2 := evidence_scale hA hB h2 fun _ => True
    have ek : Real.exp δ ^ M = Real.exp (M * δ) := (Real.exp_nat_mul δ M).symm
    rw [ek] at e1 e2
    unfold bayes
    rw [div_le_iff₀ hA0]
    have hBQ := evidence_nonneg hB Q
    have hE := Real.exp_pos ((M : ℝ) * δ)
    have e3 : Real.exp (2 * M * δ) = Real.exp (M * δ) * Real.exp (M * δ) := by
      rw [← Real.exp_add]; congr 1; ring
    rw [e3]
    calc evidence A Q ≤ Real.exp (M * δ) * evidence B Q := e1
      _ = Real.exp (M * δ) * (evidence B Q / evidence B fun _ => True) *
            evidence B fun _ => True := by field_simp
      _ ≤ Real.exp (M * δ) * (evidence B Q / evidence B fun _ => True) *
            (Real.exp (M * δ) * evidence A fun _ => True) :=
          mul_le_mul_of_nonneg_left e2 (mul_nonneg hE.le (div_nonneg hBQ hB0.le))
      _ = _ := by ring
  exact ⟨key hWn hVn (fun i f => (hn i f).1) (fun i f => (hn i f).2) hW0 hV0,
    key hVn hWn (fun i f => (hn i f).2) (fun i f => (hn i f).1) hV0 hW0⟩

/-- A rational number near the negative logarithm exists for every weight. -/
theorem exists_near {δ w : ℝ} (hδ : 0 < δ) (hw : 0 ≤ w) : ∃ c, Near δ c w := by
  rcases hw.lt_or_eq with h | h
  · obtain ⟨q, h1, h2⟩ := exists_rat_btwn (show -Real.log w - δ < -Real.log w + δ by linarith)
    refine ⟨fin q, Or.inr ⟨h, q, rfl, ?_⟩⟩
    rw [abs_le]
    constructor <;> linarith
  · exact ⟨pinf, Or.inl ⟨h.symm, rfl⟩⟩

example : ∃ (det : Fin 2 → Fin 1 → XR) (miss fls : Fin 2 → XR),
    ∀ Q, bayes (weights det miss fls) Q ≤
      Real.exp (2 * (2 : Nat) * (1 / 1000)) *
        bayes (lmbWeights (fun _ => 1 / 2) (fun i _ => if i = 0 then 3 else 0) fun _ => 1 / 10) Q := by
  choose det hdet using fun (i : Fin 2) (_ : Fin 1) => exists_near (δ := 1 / 1000) (by norm_num)
    (show (0 : ℝ) ≤ 1 / 2 * (if i = 0 then 3 else 0) by split <;> norm_num)
  obtain ⟨m, hm⟩ := exists_near (δ := 1 / 1000) (w := 1 / 2 * (1 / 10)) (by norm_num) (by norm_num)
  obtain ⟨f, hf⟩ := exists_near (δ := 1 / 1000) (w := 1 - 1 / 2) (by norm_num) (by norm_num)
  exact ⟨det, fun _ => m, fun _ => f, fun Q =>
    (C65_rounding (fun _ => by norm_num) (fun _ => by norm_num)
      (fun i _ => by split <;> norm_num) (fun _ => by norm_num) (fun _ => by norm_num) (fun i j => hdet i j)
      (fun _ => hm) (fun _ => hf) Q).1⟩

example : spur 30 40 ≤ Real.exp (-29000) := spur_small (by norm_num) (by norm_num)

end Verif.Hyp

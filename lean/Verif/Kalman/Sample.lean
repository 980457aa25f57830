import Verif.Kalman.Law
import Verif.BBox.Props
import Mathlib.Probability.Moments.SubGaussian

/-!
# Sampling from a component: C70

`include/statistics.hpp` and the users `sample` and `overlap` of `include/gaussian.hpp`.  The numbers
`nrand()` returns (`statistics.inc:17-19`) are taken to be independent and standard normal; the order
in which they fill the vectors plays no role then.
-/

namespace Verif.Kalman

open Matrix MeasureTheory ProbabilityTheory
open Verif.BBox (Pt overlap sensorPD)

variable {n : Nat}

/-- One column of `nrand(res, mean, covariance)`, `statistics.hpp:9-18`, for the decomposition `U`,
`l` of the covariance and the numbers `u` drawn. -/
noncomputable def nrandCol (mean : Fin n → ℝ) (U : Matrix (Fin n) (Fin n) ℝ) (l u : Fin n → ℝ) :
    Fin n → ℝ :=
  mean + (U * diagonal fun i => Real.sqrt (l i)) *ᵥ u

/-- What `SelfAdjointEigenSolver` returns for `P`, `statistics.hpp:11`: eigenvalues `l` and a matrix
`U` whose columns are orthonormal eigenvectors. -/
def EigOk (P U : Matrix (Fin n) (Fin n) ℝ) (l : Fin n → ℝ) : Prop :=
  Uᵀ * U = 1 ∧ P = U * diagonal l * Uᵀ

theorem EigOk.nonneg {P U : Matrix (Fin n) (Fin n) ℝ} {l : Fin n → ℝ} (h : EigOk P U l)
    (hP : P.PosSemidef) (i : Fin n) : 0 ≤ l i := by
  have e : diagonal l = Uᵀ * P * Uᵀᵀ := by
    rw [transpose_transpose, h.2]
    calc diagonal l = (Uᵀ * U) * diagonal l * (Uᵀ * U) := by rw [h.1]; simp
      _ = _ := by simp only [Matrix.mul_assoc]
  have hd : (diagonal l).PosSemidef := by
    rw [e]
    exact psd_conj hP Uᵀ
  have := hd.dotProduct_mulVec_nonneg (Pi.single i 1)
  simpa using this

/-- C70, samples: a column filled by `nrand(res, x, P)` is distributed with the Gaussian law of mean
`x` and covariance `P`. -/
theorem C70_sample_law {P U : Matrix (Fin n) (Fin n) ℝ} {l : Fin n → ℝ} (h : EigOk P U l)
    (hP : P.PosSemidef) (x : Fin n → ℝ) :
    (white n).map (nrandCol x U l) = law x P := by
  have e : (U * diagonal fun i => Real.sqrt (l i)) * (U * diagonal fun i => Real.sqrt (l i))ᵀ = P := by
    rw [transpose_mul, diagonal_transpose, ← Matrix.mul_assoc, Matrix.mul_assoc U, diagonal_mul_diagonal,
      h.2]
    congr 3
    funext i
    exact Real.mul_self_sqrt (h.nonneg hP i)
  rw [← e]
  exact map_white x _

/-- The position of a state, `gaussian.hpp:56-58`. -/
def pt (x : Fin (n + 2) → ℝ) : Pt ℝ := (x 0, x 1)

theorem measurable_pt : Measurable (pt : (Fin (n + 2) → ℝ) → Pt ℝ) :=
  (measurable_pi_apply 0).prodMk (measurable_pi_apply 1)

/-- `Gaussian_::overlap`, `gaussian.hpp:122-148`, for the numbers `u` drawn. -/
noncomputable def overlapDraw (ins : Pt ℝ → Bool) (x : Fin (n + 2) → ℝ)
    (U : Matrix (Fin (n + 2)) (Fin (n + 2)) ℝ) (l : Fin (n + 2) → ℝ) {N : Nat}
    (u : Fin N → Fin (n + 2) → ℝ) : ℝ :=
  overlap ins (List.ofFn fun i => pt (nrandCol x U l (u i)))

theorem overlap_ofFn (ins : Pt ℝ → Bool) {N : Nat} (f : Fin N → Pt ℝ) :
    overlap ins (List.ofFn f) = (∑ i, if ins (f i) then (1 : ℝ) else 0) / N := by
  have key : ∀ (l : List (Pt ℝ)) (a : ℝ), l.foldl (fun n p => if ins p then n + 1 else n) a =
      a + (l.map fun p => if ins p then (1 : ℝ) else 0).sum := by
    intro l
    induction l with
    | nil => intro a; simp
    | cons p l ih =>
      intro a
      rw [List.foldl_cons, ih, List.map_cons, List.sum_cons]
      split <;> ring
  unfold overlap
  rw [key, zero_add, List.map_ofFn, List.sum_ofFn, List.length_ofFn]
  rfl

/-- The probability that a state with the law of the component is inside. -/
noncomputable def inside (ins : Pt ℝ → Bool) (x : Fin (n + 2) → ℝ)
    (P : Matrix (Fin (n + 2)) (Fin (n + 2)) ℝ) : ℝ :=
  (law x P).real {y | ins (y 0, y 1) = true}

section

variable {ins : Pt ℝ → Bool} (hins : MeasurableSet {p | ins p = true}) {x : Fin (n + 2) → ℝ}
  {P U : Matrix (Fin (n + 2)) (Fin (n + 2)) ℝ} {l : Fin (n + 2) → ℝ}

/-- One draw: 1 if it is inside, 0 if not. -/
noncomputable def hit (ins : Pt ℝ → Bool) (x : Fin (n + 2) → ℝ)
    (U : Matrix (Fin (n + 2)) (Fin (n + 2)) ℝ) (l : Fin (n + 2) → ℝ) (u : Fin (n + 2) → ℝ) : ℝ :=
  if ins (pt (nrandCol x U l u)) then 1 else 0

include hins in
theorem measurable_hit : Measurable (hit ins x U l) := by
  unfold hit
  refine Measurable.ite ?_ measurable_const measurable_const
  exact (measurable_pt.comp (measurable_affine x _)) hins

include hins in
theorem integral_hit (h : EigOk P U l) (hP : P.PosSemidef) :
    ∫ u, hit ins x U l u ∂(white (n + 2)) = inside ins x P := by
  have hs : MeasurableSet {u | ins (pt (nrandCol x U l u)) = true} :=
    (measurable_pt.comp (measurable_affine x _)) hins
  have e : hit ins x U l = Set.indicator {u | ins (pt (nrandCol x U l u)) = true} 1 := by
    funext u
    unfold hit
    rw [Set.indicator_apply]
    rfl
  have hm : Measurable (nrandCol x U l) := measurable_affine x _
  have ht : MeasurableSet {y : Fin (n + 2) → ℝ | ins (y 0, y 1) = true} := measurable_pt hins
  rw [e, integral_indicator_one hs, inside, ← C70_sample_law h hP x, Measure.real, Measure.real,
    Measure.map_apply hm ht]
  rfl

/-- The numbers drawn for `N` samples. -/
noncomputable def draws (N n : Nat) : Measure (Fin N → Fin (n + 2) → ℝ) :=
  Measure.pi fun _ => white (n + 2)

instance (N n : Nat) : IsProbabilityMeasure (draws N n) := by unfold draws; infer_instance

theorem hit_mem (ins : Pt ℝ → Bool) (x : Fin (n + 2) → ℝ)
    (U : Matrix (Fin (n + 2)) (Fin (n + 2)) ℝ) (l u : Fin (n + 2) → ℝ) :
    hit ins x U l u ∈ Set.Icc (0 : ℝ) 1 := by
  unfold hit
  split <;> norm_num

include hins in
theorem integrable_hit {N : Nat} (i : Fin N) :
    Integrable (fun u => hit ins x U l (u i)) (draws N n) := by
  refine Integrable.of_mem_Icc 0 1 ?_ (Filter.Eventually.of_forall fun u => hit_mem ins x U l (u i))
  exact ((measurable_hit hins).comp (measurable_pi_apply i)).aemeasurable

include hins in
theorem integral_hit_pi (h : EigOk P U l) (hP : P.PosSemidef) {N : Nat} (i : Fin N) :
    ∫ u, hit ins x U l (u i) ∂(draws N n) = inside ins x P := by
  rw [← integral_hit hins h hP]
  have := (measurePreserving_eval (fun _ : Fin N => white (n + 2)) i).map_eq
  unfold draws
  conv_rhs => rw [← this]
  rw [integral_map (measurable_pi_apply i).aemeasurable (measurable_hit hins).aestronglyMeasurable]

include hins in
/-- C70, the estimate is unbiased: the expected value of `overlap` is the probability that a state
with the law of the component lies in the box. -/
theorem C70_unbiased (h : EigOk P U l) (hP : P.PosSemidef) {N : Nat} (hN : 0 < N) :
    ∫ u, overlapDraw ins x U l u ∂(draws N n) =
      (law x P).real {y | ins (y 0, y 1) = true} := by
  have e : (fun u : Fin N → Fin (n + 2) → ℝ => overlapDraw ins x U l u) =
      fun u => (∑ i, hit ins x U l (u i)) / N := by
    funext u
    unfold overlapDraw
    rw [overlap_ofFn]
    rfl
  rw [e, integral_div, integral_finset_sum _ fun i _ => integrable_hit hins i]
  simp only [integral_hit_pi hins h hP]
  rw [Finset.sum_const, Finset.card_univ, Fintype.card_fin, nsmul_eq_mul, mul_comm, mul_div_assoc,
    div_self (by exact_mod_cast hN.ne'), mul_one]
  rfl

include hins in
/-- C70, the error: with `N` samples the estimate is off by `ε` or more with probability at most
`2 exp(-2 N ε²)`. -/
theorem C70_error (h : EigOk P U l) (hP : P.PosSemidef) {N : Nat} (hN : 0 < N) {ε : ℝ}
    (hε : 0 ≤ ε) :
    (draws N n).real {u | ε ≤ |overlapDraw ins x U l u -
      (law x P).real {y | ins (y 0, y 1) = true}|} ≤ 2 * Real.exp (-2 * N * ε ^ 2) := by
  set p := inside ins x P with hp
  have hN' : (0 : ℝ) < N := by exact_mod_cast hN
  have e : ∀ u : Fin N → Fin (n + 2) → ℝ, overlapDraw ins x U l u =
      (∑ i, hit ins x U l (u i)) / N := by
    intro u
    unfold overlapDraw
    rw [overlap_ofFn]
    rfl
  -- a sum of `N` bounded independent numbers with mean 0
  have tail : ∀ f : (Fin (n + 2) → ℝ) → ℝ, Measurable f → (∃ a, ∀ u, f u ∈ Set.Icc a (a + 1)) →
      ∫ u, f u ∂(white (n + 2)) = 0 →
      (draws N n).real {u | N * ε ≤ ∑ i, f (u i)} ≤ Real.exp (-2 * N * ε ^ 2) := by
    intro f hf ⟨a, ha⟩ h0
    have hsub : ∀ i ∈ (Finset.univ : Finset (Fin N)),
        HasSubgaussianMGF (fun u : Fin N → Fin (n + 2) → ℝ => f (u i)) ((‖(a + 1) - a‖₊ / 2) ^ 2)
          (draws N n) := by
      intro i _
      apply hasSubgaussianMGF_of_mem_Icc_of_integral_eq_zero
      · exact (hf.comp (measurable_pi_apply i)).aemeasurable
      · exact Filter.Eventually.of_forall fun u => ha (u i)
      · have := (measurePreserving_eval (fun _ : Fin N => white (n + 2)) i).map_eq
        rw [← h0]
        conv_rhs => rw [← this]
        rw [integral_map (measurable_pi_apply i).aemeasurable hf.aestronglyMeasurable]
        rfl
    have hind : iIndepFun (fun i (u : Fin N → Fin (n + 2) → ℝ) => f (u i)) (draws N n) :=
      iIndepFun_pi (X := fun _ => f) fun _ => hf.aemeasurable
    have := HasSubgaussianMGF.measure_sum_ge_le_of_iIndepFun hind hsub (ε := N * ε) (by positivity)
    refine this.trans (le_of_eq ?_)
    congr 1
    simp
    field_simp
  have hi : Integrable (hit ins x U l) (white (n + 2)) :=
    Integrable.of_mem_Icc 0 1 (measurable_hit hins).aemeasurable
      (Filter.Eventually.of_forall fun u => hit_mem ins x U l u)
  have h1 := tail (fun u => hit ins x U l u - p) ((measurable_hit hins).sub_const p)
    ⟨-p, fun u => by
      have := hit_mem ins x U l u
      exact ⟨by linarith [this.1], by linarith [this.2]⟩⟩
    (by rw [integral_sub hi (integrable_const _), integral_hit hins h hP]; simp [hp])
  have h2 := tail (fun u => p - hit ins x U l u) ((measurable_hit hins).const_sub p)
    ⟨p - 1, fun u => by
      have := hit_mem ins x U l u
      exact ⟨by linarith [this.2], by linarith [this.1]⟩⟩
    (by rw [integral_sub (integrable_const _) hi, integral_hit hins h hP]; simp [hp])
  have hsub : {u | ε ≤ |overlapDraw ins x U l u - (law x P).real {y | ins (y 0, y 1) = true}|} ⊆
      {u : Fin N → Fin (n + 2) → ℝ | N * ε ≤ ∑ i, (hit ins x U l (u i) - p)} ∪
      {u | N * ε ≤ ∑ i, (p - hit ins x U l (u i))} := by
    intro u hu
    change ε ≤ |overlapDraw ins x U l u - p| at hu
    rw [e] at hu
    simp only [Set.mem_union, Set.mem_setOf_eq, Finset.sum_sub_distrib, Finset.sum_const,
      Finset.card_univ, Fintype.card_fin, nsmul_eq_mul]
    rcases le_abs.1 hu with hu | hu
    · left
      have := mul_le_mul_of_nonneg_left hu hN'.le
      rw [mul_sub, mul_div_cancel₀ _ hN'.ne'] at this
      exact this
    · right
      have := mul_le_mul_of_nonneg_left hu hN'.le
      rw [neg_sub, mul_sub, mul_div_cancel₀ _ hN'.ne'] at this
      exact this
  calc _ ≤ _ := measureReal_mono hsub
    _ ≤ _ := measureReal_union_le _ _
    _ ≤ _ := by linarith

end

/-! ## The boxes are measurable, and the probability of detection of a mixture -/

theorem measurable_lt {f g : Pt ℝ → ℝ} (hf : Measurable f) (hg : Measurable g) :
    Measurable fun p => decide (f p < g p) :=
  measurable_to_bool (by
    have : (fun p => decide (f p < g p)) ⁻¹' {true} = {p | f p < g p} := by ext p; simp
    rw [this]
    exact measurableSet_lt hf hg)

theorem measurable_bool {α : Type*} [MeasurableSpace α] {f g : α → Bool} (hf : Measurable f)
    (hg : Measurable g) (h : Bool × Bool → Bool) : Measurable fun p => h (f p, g p) :=
  (Measurable.of_discrete (f := h)).comp (hf.prodMk hg)

theorem measurable_aabb (b : Verif.BBox.AABB ℝ) : Measurable fun p : Pt ℝ => b.within p := by
  have h1 := measurable_lt measurable_fst (measurable_const (a := b.x0))
  have h2 := measurable_lt (measurable_const (a := b.x1)) measurable_fst
  have h3 := measurable_lt measurable_snd (measurable_const (a := b.y0))
  have h4 := measurable_lt (measurable_const (a := b.y1)) measurable_snd
  exact measurable_bool (measurable_bool (measurable_bool h1 h2 fun q => q.1 || q.2) h3
    fun q => q.1 || q.2) h4 fun q => !(q.1 || q.2)

theorem measurable_toggles (a b : Pt ℝ) : Measurable fun p : Pt ℝ => Verif.BBox.toggles a b p := by
  have h1 : ∀ c : Pt ℝ, Measurable fun p : Pt ℝ => decide (p.2 < c.2) := fun c =>
    measurable_lt measurable_snd measurable_const
  have h2 : Measurable fun p : Pt ℝ =>
      decide (p.1 < (b.1 - a.1) * (p.2 - a.2) / (b.2 - a.2) + a.1) :=
    measurable_lt (by fun_prop) (by fun_prop)
  exact measurable_bool (measurable_bool (h1 a) (h1 b) fun q => q.1 != q.2) h2 fun q => q.1 && q.2

theorem measurable_box (b : Verif.BBox.Box ℝ) : Measurable fun p : Pt ℝ => b.within p := by
  have h0 := measurable_bool (measurable_toggles b.c0 b.c3) (measurable_toggles b.c1 b.c0)
    fun q => xor q.1 q.2
  have h1 := measurable_bool h0 (measurable_toggles b.c2 b.c1) fun q => xor q.1 q.2
  have h2 := measurable_bool h1 (measurable_toggles b.c3 b.c2) fun q => xor q.1 q.2
  have h3 := measurable_bool (measurable_aabb b.aabbox) h2 fun q => q.1 && q.2
  convert h3 using 1
  funext p
  unfold Verif.BBox.Box.within
  generalize b.aabbox.within p = e0
  generalize Verif.BBox.toggles b.c0 b.c3 p = e1
  generalize Verif.BBox.toggles b.c1 b.c0 p = e2
  generalize Verif.BBox.toggles b.c2 b.c1 p = e3
  generalize Verif.BBox.toggles b.c3 b.c2 p = e4
  revert e0 e1 e2 e3 e4
  decide

theorem measurableSet_box (b : Verif.BBox.Box ℝ) : MeasurableSet {p : Pt ℝ | b.within p = true} :=
  (measurable_box b) (measurableSet_singleton true)

/-- `PositionSensor::pD`, `sensors.hpp:43-46` with `gm.hpp:268-275`, for the numbers `u` drawn for the
components. -/
noncomputable def pDDraw (pD : ℝ) (ins : Pt ℝ → Bool) {M : Nat} (g : Fin M → Gauss (n + 2))
    (U : Fin M → Matrix (Fin (n + 2)) (Fin (n + 2)) ℝ) (l : Fin M → Fin (n + 2) → ℝ) {N : Nat}
    (u : Fin M → Fin N → Fin (n + 2) → ℝ) : ℝ :=
  sensorPD pD ins (List.ofFn fun c => ((g c).w, List.ofFn fun i =>
    pt (nrandCol (g c).x (U c) (l c) (u c i))))

theorem pDDraw_eq (pD : ℝ) (ins : Pt ℝ → Bool) {M : Nat} (g : Fin M → Gauss (n + 2))
    (U : Fin M → Matrix (Fin (n + 2)) (Fin (n + 2)) ℝ) (l : Fin M → Fin (n + 2) → ℝ) {N : Nat}
    (u : Fin M → Fin N → Fin (n + 2) → ℝ) :
    pDDraw pD ins g U l u = pD * ∑ c, (g c).w * overlapDraw ins (g c).x (U c) (l c) (u c) := by
  have key : ∀ (l : List (ℝ × List (Pt ℝ))) (a : ℝ),
      l.foldl (fun r g => r + g.1 * overlap ins g.2) a =
        a + (l.map fun g => g.1 * overlap ins g.2).sum := by
    intro l
    induction l with
    | nil => intro a; simp
    | cons p l ih => intro a; rw [List.foldl_cons, ih, List.map_cons, List.sum_cons, add_assoc]
  unfold pDDraw sensorPD Verif.BBox.mixOverlap
  rw [key, zero_add, List.map_ofFn, List.sum_ofFn]
  rfl

/-- The numbers drawn for `M` components. -/
noncomputable def allDraws (M N n : Nat) : Measure (Fin M → Fin N → Fin (n + 2) → ℝ) :=
  Measure.pi fun _ => draws N n

instance (M N n : Nat) : IsProbabilityMeasure (allDraws M N n) := by unfold allDraws; infer_instance

section

variable {ins : Pt ℝ → Bool} (hins : MeasurableSet {p | ins p = true}) {M : Nat}
  {g : Fin M → Gauss (n + 2)} {U : Fin M → Matrix (Fin (n + 2)) (Fin (n + 2)) ℝ}
  {l : Fin M → Fin (n + 2) → ℝ}

include hins in
theorem measurable_overlapDraw {x : Fin (n + 2) → ℝ} {U : Matrix (Fin (n + 2)) (Fin (n + 2)) ℝ}
    {l : Fin (n + 2) → ℝ} {N : Nat} :
    Measurable fun u : Fin N → Fin (n + 2) → ℝ => overlapDraw ins x U l u := by
  have e : (fun u : Fin N → Fin (n + 2) → ℝ => overlapDraw ins x U l u) =
      fun u => (∑ i, hit ins x U l (u i)) / N := by
    funext u
    unfold overlapDraw
    rw [overlap_ofFn]
    rfl
  rw [e]
  refine Measurable.div_const (Finset.measurable_sum _ fun i _ => ?_) _
  exact (measurable_hit hins).comp (measurable_pi_apply i)

include hins in
/-- C70, the probability of detection of a mixture is unbiased. -/
theorem C70_pD_unbiased (h : ∀ c, EigOk (g c).P (U c) (l c)) (hP : ∀ c, (g c).P.PosSemidef)
    {N : Nat} (hN : 0 < N) (pD : ℝ) :
    ∫ u, pDDraw pD ins g U l u ∂(allDraws M N n) =
      pD * ∑ c, (g c).w * (law (g c).x (g c).P).real {y | ins (y 0, y 1) = true} := by
  have hi : ∀ c : Fin M, Integrable (fun u : Fin M → Fin N → Fin (n + 2) → ℝ =>
      overlapDraw ins (g c).x (U c) (l c) (u c)) (allDraws M N n) := by
    intro c
    refine Integrable.of_mem_Icc 0 1 ?_ (Filter.Eventually.of_forall fun u => ?_)
    · exact ((measurable_overlapDraw hins).comp (measurable_pi_apply c)).aemeasurable
    · unfold overlapDraw
      rw [overlap_ofFn]
      have hs : ∀ i ∈ (Finset.univ : Finset (Fin N)),
          (if ins (pt (nrandCol (g c).x (U c) (l c) (u c i))) then (1 : ℝ) else 0) ∈ Set.Icc (0 : ℝ) 1 :=
        fun i _ => hit_mem ins (g c).x (U c) (l c) (u c i)
      refine ⟨div_nonneg (Finset.sum_nonneg fun i hi => (hs i hi).1) (by positivity), ?_⟩
      rw [div_le_one (by exact_mod_cast hN)]
      calc _ ≤ ∑ _i : Fin N, (1 : ℝ) := Finset.sum_le_sum fun i hi => (hs i hi).2
        _ = N := by simp
  simp only [pDDraw_eq]
  rw [integral_const_mul, integral_finset_sum _ fun c _ => (hi c).const_mul _]
  congr 1
  refine Finset.sum_congr rfl fun c _ => ?_
  rw [integral_const_mul, ← C70_unbiased hins (h c) (hP c) hN]
  have := (measurePreserving_eval (fun _ : Fin M => draws N n) c).map_eq
  unfold allDraws
  conv_rhs => rw [← this]
  rw [integral_map (measurable_pi_apply c).aemeasurable
    (measurable_overlapDraw hins).aestronglyMeasurable]

include hins in
/-- C70, the error of the probability of detection of a mixture with weights that sum to one: off by
more than `pD ε` with probability at most `2 M exp(-2 N ε²)`. -/
theorem C70_pD_error (h : ∀ c, EigOk (g c).P (U c) (l c)) (hP : ∀ c, (g c).P.PosSemidef)
    {N : Nat} (hN : 0 < N) {pD ε : ℝ} (hD : 0 ≤ pD) (hε : 0 ≤ ε) (hw : ∀ c, 0 ≤ (g c).w)
    (hs : ∑ c, (g c).w = 1) :
    (allDraws M N n).real {u | pD * ε < |pDDraw pD ins g U l u -
      pD * ∑ c, (g c).w * (law (g c).x (g c).P).real {y | ins (y 0, y 1) = true}|} ≤
      2 * M * Real.exp (-2 * N * ε ^ 2) := by
  set q : Fin M → ℝ := fun c => (law (g c).x (g c).P).real {y | ins (y 0, y 1) = true} with hq
  have hsub : {u | pD * ε < |pDDraw pD ins g U l u - pD * ∑ c, (g c).w * q c|} ⊆
      ⋃ c, {u : Fin M → Fin N → Fin (n + 2) → ℝ |
        ε ≤ |overlapDraw ins (g c).x (U c) (l c) (u c) - q c|} := by
    intro u hu
    by_contra hno
    simp only [Set.mem_iUnion, Set.mem_setOf_eq, not_exists, not_le] at hno
    apply absurd hu
    simp only [Set.mem_setOf_eq, not_lt]
    rw [pDDraw_eq, ← mul_sub, ← Finset.sum_sub_distrib, abs_mul, abs_of_nonneg hD]
    refine mul_le_mul_of_nonneg_left ?_ hD
    calc _ ≤ ∑ c, |(g c).w * overlapDraw ins (g c).x (U c) (l c) (u c) - (g c).w * q c| :=
          Finset.abs_sum_le_sum_abs _ _
      _ ≤ ∑ c, (g c).w * ε := by
          refine Finset.sum_le_sum fun c _ => ?_
          rw [← mul_sub, abs_mul, abs_of_nonneg (hw c)]
          exact mul_le_mul_of_nonneg_left (hno c).le (hw c)
      _ = ε := by rw [← Finset.sum_mul, hs, one_mul]
  calc _ ≤ _ := measureReal_mono hsub
    _ ≤ ∑ c, _ := measureReal_iUnion_fintype_le _
    _ ≤ ∑ _c : Fin M, 2 * Real.exp (-2 * N * ε ^ 2) := by
        refine Finset.sum_le_sum fun c _ => ?_
        refine le_trans (le_of_eq ?_) (C70_error hins (x := (g c).x) (h c) (hP c) hN hε)
        have hm : MeasurableSet {v : Fin N → Fin (n + 2) → ℝ |
            ε ≤ |overlapDraw ins (g c).x (U c) (l c) v - q c|} :=
          measurableSet_le measurable_const
            (((measurable_overlapDraw hins).sub_const _).abs)
        have := (measurePreserving_eval (fun _ : Fin M => draws N n) c).measure_preimage
          hm.nullMeasurableSet
        rw [Measure.real, Measure.real, ← this]
        rfl
    _ = _ := by simp; ring

end

/-! A component with correlated position, its decomposition, and the default field of view. -/

/-- The decomposition of the covariance used in the example: a rotation by the angle with sine 3/5. -/
noncomputable def exU : Matrix (Fin 2) (Fin 2) ℝ := !![4 / 5, -3 / 5; 3 / 5, 4 / 5]

theorem exEig : EigOk (exU * diagonal ![4, 1] * exUᵀ) exU ![4, 1] := by
  refine ⟨?_, rfl⟩
  ext i j
  fin_cases i <;> fin_cases j <;> simp [exU, Matrix.mul_apply, Fin.sum_univ_two] <;> norm_num

theorem exPsd : (exU * diagonal ![(4 : ℝ), 1] * exUᵀ).PosSemidef :=
  psd_conj (PosSemidef.diagonal fun i => by fin_cases i <;> simp) exU

example := C70_sample_law exEig exPsd ![1, 2]
example := C70_unbiased (measurableSet_box Verif.BBox.defaultFov) (x := ![1, 2]) exEig exPsd
  (N := 1000) (by norm_num)
/-- With the 1000 samples of the code: off by 0.1 or more with probability at most 2 exp(-20). -/
example := C70_error (measurableSet_box Verif.BBox.defaultFov) (x := ![1, 2]) exEig exPsd
  (N := 1000) (by norm_num) (ε := 1 / 10) (by norm_num)
example := C70_pD_unbiased (measurableSet_box Verif.BBox.defaultFov) (M := 2)
  (g := fun c => ⟨![1, 2], exU * diagonal ![4, 1] * exUᵀ, if c = 0 then 1 / 3 else 2 / 3⟩)
  (fun _ => exEig) (fun _ => exPsd) (N := 1000) (by norm_num) (9 / 10)
example := C70_pD_error (measurableSet_box Verif.BBox.defaultFov) (M := 2)
  (g := fun c => ⟨![1, 2], exU * diagonal ![4, 1] * exUᵀ, if c = 0 then 1 / 3 else 2 / 3⟩)
  (fun _ => exEig) (fun _ => exPsd) (N := 1000) (by norm_num) (pD := 9 / 10) (ε := 1 / 10)
  (by norm_num) (by norm_num) (fun c => by fin_cases c <;> norm_num)
  (by rw [Fin.sum_univ_two]; norm_num)

end Verif.Kalman

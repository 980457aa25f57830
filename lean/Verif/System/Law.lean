import Verif.System.Mix
import Verif.Kalman.Bayes
import Mathlib.Analysis.SpecialFunctions.Integrals.Basic

/-! # The densities of the tracker as probability laws: C68 and C69 -/

namespace Verif.System

open Matrix MeasureTheory
open Verif.GM (Mix)
open Verif.Kalman (law mixLaw density posH)

/-- The measure a density of the tracker stands for. -/
noncomputable def lawOf (m : Mix GX ℝ) : Measure (Fin 4 → ℝ) := mixLaw (m.c.map toG)

theorem posH_mulVec (x : Fin 4 → ℝ) : posH *ᵥ x = ![x 0, x 1] := by
  funext i
  fin_cases i <;> simp [posH, mulVec, dotProduct, Fin.sum_univ_four]

/-- The prior reweighted by the likelihood of a report: component `i` is detected with probability
`pd i`, and a state `x` that is detected is reported with the Gaussian density of the report around
the position of `x`; relative to the clutter intensity. -/
noncomputable def detected (pd : Nat → ℝ) (z : Rpt) (c : List Cmp) : Measure (Fin 4 → ℝ) :=
  (c.mapIdx fun i g => (ENNReal.ofReal g.w • law g.x.1 g.x.2).withDensity fun x =>
    ENNReal.ofReal (pd i * density ![x 0, x 1] z.1.P z.1.x / z.1.kappa)).sum

theorem detected_eq {pd : Nat → ℝ} (hpd : ∀ i, 0 ≤ pd i) (z : Rpt) {c : List Cmp} (hc : GoodC c) :
    detected pd z c =
      mixLaw ((c.mapIdx fun i g => ofG (Kalman.correct posH (pd i) z.1 (toG g))).map toG) := by
  induction c generalizing pd with
  | nil => rfl
  | cons g c ih =>
    have h1 := hc g (List.mem_cons_self ..)
    have e := ih (pd := fun i => pd (i + 1)) (fun i => hpd _)
      fun q hq => hc q (List.mem_cons_of_mem _ hq)
    unfold detected at e ⊢
    rw [List.mapIdx_cons, List.mapIdx_cons, List.sum_cons, e, List.map_cons, Kalman.mixLaw_cons]
    congr 1
    simp only [← posH_mulVec]
    exact Kalman.component_bayes posH (pd 0) z.1 (toG g) z.2.1 h1.2 h1.1 (hpd 0) z.2.2.le

theorem mixLaw_div (c : List Cmp) {a : ℝ} (ha : 0 < a) :
    mixLaw ((c.map fun g => (⟨g.x, g.w / a⟩ : Cmp)).map toG) =
      (ENNReal.ofReal a)⁻¹ • mixLaw (c.map toG) := by
  induction c with
  | nil => simp
  | cons g c ih =>
    rw [List.map_cons, List.map_cons, List.map_cons, Kalman.mixLaw_cons, Kalman.mixLaw_cons, ih,
      smul_add, smul_smul]
    congr 2
    change ENNReal.ofReal (g.w / a) = _ * ENNReal.ofReal g.w
    rw [ENNReal.ofReal_div_of_pos ha, ENNReal.div_eq_inv_mul]

/-- C68: `correct` makes of a mixture the Bayes posterior given that the target was detected and
gave the report.  Its law is the reweighted prior over its total mass, and that mass, the evidence
for the report against clutter, is left in `eta`; unless the mass is at most 1e-8, when the mixture
is emptied and `eta` is 0. -/
theorem C68_correct {pd : Nat → ℝ} (hpd : ∀ i, 0 ≤ pd i) (z : Rpt) (m : Mix GX ℝ)
    (hc : GoodC m.c) :
    detected pd z m.c Set.univ ≠ ⊤ ∧
    (1 / 100000000 < (detected pd z m.c Set.univ).toReal →
      (correctMix pd z m).eta = (detected pd z m.c Set.univ).toReal ∧
      lawOf (correctMix pd z m) = (detected pd z m.c Set.univ)⁻¹ • detected pd z m.c) ∧
    ((detected pd z m.c Set.univ).toReal ≤ 1 / 100000000 →
      (correctMix pd z m).eta = 0 ∧ (correctMix pd z m).c = []) := by
  set c' : List Cmp := m.c.mapIdx fun i g => ofG (Kalman.correct posH (pd i) z.1 (toG g)) with hc'
  have hd : detected pd z m.c = mixLaw (c'.map toG) := detected_eq hpd z hc
  have hw : ∀ g ∈ c', 0 ≤ g.w := by
    intro g hg
    rw [hc', List.mem_mapIdx] at hg
    obtain ⟨i, hi, rfl⟩ := hg
    obtain ⟨h1, h2⟩ := hc _ (List.getElem_mem hi)
    exact (Kalman.C42_update posH z.1 (toG _) (pd i) z.2.1 h2.posSemidef).2.2.2 h1 (hpd i) z.2.2.le
  have hs : 0 ≤ (c'.map GM.Cmp.w).sum := by
    apply List.sum_nonneg
    intro a ha
    obtain ⟨q, hq, rfl⟩ := List.mem_map.1 ha
    exact hw q hq
  have hu : detected pd z m.c Set.univ = ENNReal.ofReal (c'.map GM.Cmp.w).sum := by
    rw [hd, Kalman.mixLaw_univ, List.map_map]
    · rfl
    · intro g hg
      obtain ⟨q, hq, rfl⟩ := List.mem_map.1 hg
      exact hw q hq
  rw [hu, ENNReal.toReal_ofReal hs]
  obtain ⟨h1, h2⟩ := GM.C37_normalize (⟨c', m.eta⟩ : Mix GX ℝ)
  refine ⟨ENNReal.ofReal_ne_top, fun h => ⟨(h1 h).2.1, ?_⟩, fun h => ⟨(h2 h).2, (h2 h).1⟩⟩
  change mixLaw ((GM.normalize (⟨c', m.eta⟩ : Mix GX ℝ)).c.map toG) = _
  rw [GM.normalize_c _ h, hd]
  exact mixLaw_div c' (lt_trans (by norm_num) h)

/-- C68, one detection probability for the whole mixture: the reweighted prior is the prior law
times the likelihood. -/
theorem C68_same_pD (pd : ℝ) (z : Rpt) (m : Mix GX ℝ) :
    detected (fun _ => pd) z m.c = (lawOf m).withDensity fun x =>
      ENNReal.ofReal (pd * density ![x 0, x 1] z.1.P z.1.x / z.1.kappa) := by
  unfold detected lawOf
  induction m.c with
  | nil => simp
  | cons g c ih =>
    rw [List.mapIdx_cons, List.sum_cons, ih, List.map_cons, Kalman.mixLaw_cons,
      withDensity_add_measure]
    rfl

/-! ## C69: no detection -/

/-- The prior reweighted by the probability of no detection, `1 - pd i` for component `i`. -/
noncomputable def undetected (pd : Nat → ℝ) (c : List Cmp) : Measure (Fin 4 → ℝ) :=
  (c.mapIdx fun i g => ENNReal.ofReal (g.w * (1 - pd i)) • law g.x.1 g.x.2).sum

theorem undetected_univ {pd : Nat → ℝ} (hpd : ∀ i, pd i ≤ 1) {c : List Cmp} (hc : GoodC c) :
    undetected pd c Set.univ =
      ENNReal.ofReal ((c.map GM.Cmp.w).sum - (c.mapIdx fun i g => g.w * pd i).sum) ∧
    0 ≤ (c.map GM.Cmp.w).sum - (c.mapIdx fun i g => g.w * pd i).sum := by
  induction c generalizing pd with
  | nil => simp [undetected]
  | cons g c ih =>
    have h1 := (hc g (List.mem_cons_self ..)).1
    have h2 := mul_nonneg h1 (sub_nonneg.2 (hpd 0))
    obtain ⟨e, h3⟩ := ih (pd := fun i => pd (i + 1)) (fun i => hpd _)
      fun q hq => hc q (List.mem_cons_of_mem _ hq)
    unfold undetected at e ⊢
    rw [List.mapIdx_cons, List.mapIdx_cons, List.sum_cons, List.sum_cons, List.map_cons,
      List.sum_cons, Measure.add_apply, e, Measure.smul_apply, measure_univ, smul_eq_mul, mul_one,
      ← ENNReal.ofReal_add h2 h3]
    constructor
    · congr 1
      ring
    · linarith [h3, h2]

theorem missedEta_eq (pd : Nat → ℝ) (m : Mix GX ℝ) :
    missedEta pd m = (m.c.mapIdx fun i g => g.w * pd i).sum := by
  unfold missedEta
  rw [List.sum_eq_foldl]

/-- C69, the evidence: what `missed` returns, `1 - eta`, is the probability that the target is not
detected. -/
theorem C69_evidence {pd : Nat → ℝ} (hpd : ∀ i, pd i ≤ 1) (m : Mix GX ℝ) (hc : GoodC m.c)
    (hs : (m.c.map GM.Cmp.w).sum = 1) :
    1 - missedEta pd m = (undetected pd m.c Set.univ).toReal := by
  obtain ⟨h1, h2⟩ := undetected_univ hpd hc
  rw [h1, ENNReal.toReal_ofReal h2, hs, missedEta_eq]

theorem undetected_same (pd : ℝ) (hpd : pd ≤ 1) (m : Mix GX ℝ) :
    undetected (fun _ => pd) m.c = ENNReal.ofReal (1 - pd) • lawOf m := by
  unfold undetected lawOf
  induction m.c with
  | nil => simp
  | cons g c ih =>
    rw [List.mapIdx_cons, List.sum_cons, ih, List.map_cons, Kalman.mixLaw_cons, smul_add, smul_smul,
      ← ENNReal.ofReal_mul (sub_nonneg.2 hpd), mul_comm (1 - pd)]
    rfl

/-- C69: when all components have the same detection probability, below 1, the density `missed`
leaves as it was is the Bayes posterior given no detection. -/
theorem C69_same_pD (pd : ℝ) (hpd : pd < 1) (m : Mix GX ℝ) (hc : GoodC m.c)
    (hs : (m.c.map GM.Cmp.w).sum = 1) :
    lawOf m = (undetected (fun _ => pd) m.c Set.univ)⁻¹ • undetected (fun _ => pd) m.c := by
  have hu : lawOf m Set.univ = 1 := by
    unfold lawOf
    rw [Kalman.mixLaw_univ, List.map_map]
    · change ENNReal.ofReal (m.c.map GM.Cmp.w).sum = 1
      rw [hs, ENNReal.ofReal_one]
    · intro g hg
      obtain ⟨q, hq, rfl⟩ := List.mem_map.1 hg
      exact (hc q hq).1
  rw [undetected_same pd hpd.le, Measure.smul_apply, hu, smul_eq_mul, mul_one, smul_smul,
    ENNReal.inv_mul_cancel, one_smul]
  · rw [Ne, ENNReal.ofReal_eq_zero]; linarith
  · exact ENNReal.ofReal_ne_top

/-- Two components of equal weight, `π` apart. -/
noncomputable def exTwo : Mix GX ℝ := ⟨[⟨(0, 1), 1 / 2⟩, ⟨(![Real.pi, 0, 0, 0], 1), 1 / 2⟩], 1⟩

/-- C69 fails: a mixture of two components, one surely detected (inside the field of view, say) and
one never.  There was no detection; but `missed` leaves half of the weight on the first. -/
theorem C69_refuted : ∃ (pd : Nat → ℝ) (m : Mix GX ℝ), (∀ i, 0 ≤ pd i ∧ pd i ≤ 1) ∧ GoodC m.c ∧
    (m.c.map GM.Cmp.w).sum = 1 ∧ undetected pd m.c Set.univ ≠ 0 ∧
    lawOf m ≠ (undetected pd m.c Set.univ)⁻¹ • undetected pd m.c := by
  refine ⟨fun i => if i = 0 then 1 else 0, exTwo, ?_, ?_, ?_, ?_, ?_⟩
  · intro i
    dsimp only
    split <;> norm_num
  · intro g hg
    simp only [exTwo, List.mem_cons, List.not_mem_nil, or_false] at hg
    rcases hg with rfl | rfl <;> exact ⟨by norm_num, PosDef.one⟩
  · simp [exTwo]; norm_num
  all_goals
    have e : undetected (fun i => if i = 0 then 1 else 0) exTwo.c =
        ENNReal.ofReal (1 / 2) • law ![Real.pi, 0, 0, 0] 1 := by
      simp [undetected, exTwo]
    rw [e, Measure.smul_apply, measure_univ, smul_eq_mul, mul_one]
  · simp
  · rw [smul_smul, ENNReal.inv_mul_cancel (by simp) ENNReal.ofReal_ne_top, one_smul]
    intro h
    have h2 : lawOf exTwo = ENNReal.ofReal (1 / 2) • law 0 1 +
        ENNReal.ofReal (1 / 2) • law ![Real.pi, 0, 0, 0] 1 := by
      simp [lawOf, exTwo, toG]
    rw [h2] at h
    have h3 : law 0 1 = law ![Real.pi, 0, 0, 0] (1 : Matrix (Fin 4) (Fin 4) ℝ) := by
      ext t _
      have h4 := congrArg (fun μ : Measure (Fin 4 → ℝ) => (μ t).toReal) h
      simp only [Measure.add_apply, Measure.smul_apply, smul_eq_mul] at h4
      rw [ENNReal.toReal_add (by finiteness) (by finiteness), ENNReal.toReal_mul,
        ENNReal.toReal_mul, ENNReal.toReal_ofReal (by norm_num)] at h4
      rw [← ENNReal.toReal_eq_toReal_iff' (measure_ne_top _ _) (measure_ne_top _ _)]
      linarith
    have h5 := congrArg (fun μ => Kalman.phi μ (![1, 0, 0, 0] : Fin 4 → ℝ)) h3
    simp only [Kalman.phi_law PosSemidef.one, one_mulVec] at h5
    rw [Complex.exp_sub, Complex.exp_sub] at h5
    simp [dotProduct, Fin.sum_univ_four, Complex.exp_pi_mul_I] at h5
    have h6 := Complex.exp_ne_zero (2⁻¹ : ℂ)
    field_simp at h5
    norm_num at h5

theorem exTwo_good : GoodC exTwo.c := by
  intro g hg
  simp only [exTwo, List.mem_cons, List.not_mem_nil, or_false] at hg
  rcases hg with rfl | rfl <;> exact ⟨by norm_num, PosDef.one⟩

/-- A report at the origin. -/
noncomputable def exZ : Rpt := ⟨⟨0, 1, 1 / 10⟩, PosDef.one, by norm_num⟩

example := C68_correct (pd := fun i => if i = 0 then 9 / 10 else 1 / 2)
  (fun i => by split <;> norm_num) exZ exTwo exTwo_good
example := C68_same_pD (9 / 10) exZ exTwo
example := C69_evidence (pd := fun i => if i = 0 then 9 / 10 else 1 / 2)
  (fun i => by split <;> norm_num) exTwo exTwo_good (by simp [exTwo]; norm_num)
example := C69_same_pD (9 / 10) (by norm_num) exTwo exTwo_good (by simp [exTwo]; norm_num)

/-! ## C43 for the motion models -/

/-- C43: prediction with `CV` moves the law as it should: the position of a state drawn from the
density changes by velocity times time, plus independent noise with covariance `cvQ`. -/
theorem C43_cv_motion (pS q dT : ℝ) (hq : 0 ≤ q) (hT : 0 ≤ dT) (p : Pdf) (hc : GoodC p.mix.c) :
    lawOf ((cv pS q dT).pdf p).mix =
      ((lawOf p.mix).prod (law 0 (Kalman.cvQ q dT))).map fun s =>
        ![s.1 0 + dT * s.1 2, s.1 1 + dT * s.1 3, s.1 2, s.1 3] + s.2 := by
  have h := Kalman.C43_mixture (Kalman.cvF dT) (Kalman.cvQ q dT) (p.mix.c.map toG)
    ((Kalman.C43_cv_noise q dT).1 hq hT) (fun g hg => by
      obtain ⟨g0, h0, rfl⟩ := List.mem_map.1 hg
      exact (hc g0 h0).2.posSemidef)
  have e : ∀ s : Fin 4 → ℝ,
      Kalman.cvF dT *ᵥ s = ![s 0 + dT * s 2, s 1 + dT * s 3, s 2, s 3] := by
    intro s
    funext i
    fin_cases i <;> simp [Kalman.cvF, mulVec, dotProduct, Fin.sum_univ_four]
  simp only [e] at h
  rw [lawOf, lawOf, h, List.map_map]
  unfold cv moveMix
  simp only [List.map_map]
  rfl

/-- C43: `NM` adds independent noise. -/
theorem C43_nm_motion (pS : ℝ) {Q : Matrix (Fin 4) (Fin 4) ℝ} (hQ : Q.PosSemidef) (p : Pdf)
    (hc : GoodC p.mix.c) :
    lawOf ((nm pS Q).pdf p).mix = ((lawOf p.mix).prod (law 0 Q)).map fun s => s.1 + s.2 := by
  have h := Kalman.C43_mixture 1 Q (p.mix.c.map toG) hQ (fun g hg => by
      obtain ⟨g0, h0, rfl⟩ := List.mem_map.1 hg
      exact (hc g0 h0).2.posSemidef)
  simp only [one_mulVec] at h
  rw [lawOf, lawOf, h, List.map_map]
  unfold nm moveMix
  simp only [List.map_map]
  rfl

/-- C43: the noise of `CV` is that of a white acceleration of intensity `q` in each direction: an
acceleration impulse at `s` before the end changes the velocity by its size and the position by
`s` times its size. -/
theorem C43_cv_noise_exact (q dT : ℝ) (i j : Fin 4) :
    Kalman.cvQ q dT i j = q * ∫ s in (0 : ℝ)..dT,
      ((![![s, 0], ![0, s], ![1, 0], ![0, 1]] : Fin 4 → Fin 2 → ℝ) i ⬝ᵥ
        (![![s, 0], ![0, s], ![1, 0], ![0, 1]] : Fin 4 → Fin 2 → ℝ) j) := by
  fin_cases i <;> fin_cases j <;>
    simp [Kalman.cvQ, dotProduct, Fin.sum_univ_two, ← pow_two, integral_pow] <;> ring_nf <;> simp

theorem exOne_good : GoodC (⟨⟨exTwo.c, 1⟩, 0, Box.zero⟩ : Pdf).mix.c :=
  exTwo_good

example := C43_cv_motion (99 / 100) 2 3 (by norm_num) (by norm_num) _ exOne_good
example := C43_nm_motion (99 / 100) PosSemidef.one _ exOne_good

end Verif.System

import Verif.Particles.Moments
import Mathlib.Analysis.SpecialFunctions.Trigonometric.Bounds
import Mathlib.Analysis.SpecialFunctions.Trigonometric.Arctan

/-! # Targets started from a report, with particles (C92) -/

namespace Verif.Particles

open Matrix
open Verif.Kalman (EigOk nrandCol)
open Verif.System (LL Rpt head setHead)
open Verif.CF (sind ea ll2ne ne2ll roundTrip)

theorem head_set (p : LL) (x : X) : head (setHead p x) = p := by
  ext i
  fin_cases i <;> rfl

theorem set_set (p q : LL) (x : X) : setHead p (setHead q x) = setHead p x := by
  ext i
  fin_cases i <;> rfl

theorem construct_c (k : Opts) (m : X) (P : Matrix (Fin 4) (Fin 4) ℝ) (draws : List X) :
    (construct k m P draws).pf.c =
      let c : List Part := draws.map fun u => ⟨nrandCol m (k.eig P).1 (k.eig P).2 u, 1 / (k.N : ℝ)⟩
      c.map fun g => ⟨setHead (roundTrip (head (mean c)) (head g.x)) g.x, g.w⟩ := by
  unfold construct
  simp only
  unfold toGlobal updateBox toLocal roundTrip
  simp only [Bool.not_false, if_true, List.map_map]
  apply List.map_congr_left
  intro u _
  simp only [Function.comp, head_set, set_set, pos]

/-- **C92, weights** A new target has one particle for each draw, all of the same weight, and the
weights add up to one. -/
theorem C92_weights (k : Opts) (s : PSens) (z : Rpt) (hN : 0 < k.N) (hd : (s.draws z).length = k.N) :
    ((sensor k s).init z).pf.c.length = k.N ∧
    (∀ g ∈ ((sensor k s).init z).pf.c, g.w = 1 / k.N) ∧
    (((sensor k s).init z).pf.c.map GM.Cmp.w).sum = 1 := by
  have e : ((sensor k s).init z).pf.c = _ := construct_c k (initMean z) (initCov s.pv z) (s.draws z)
  have hw : ∀ g ∈ ((sensor k s).init z).pf.c, g.w = 1 / k.N := by
    rw [e]
    simp only [List.map_map]
    intro g hg
    obtain ⟨u, _, rfl⟩ := List.mem_map.1 hg
    rfl
  have hl : ((sensor k s).init z).pf.c.length = k.N := by
    rw [e]; simp [hd]
  refine ⟨hl, hw, ?_⟩
  rw [List.map_congr_left hw, List.map_const', List.sum_replicate, hl, nsmul_eq_mul]
  have : (k.N : ℝ) ≠ 0 := by exact_mod_cast hN.ne'
  field_simp

/-- The draw `Uᵀ e₁` moves a particle along an eigenvector `e₁` by the root of its eigenvalue. -/
theorem nrand_dir {P U : Matrix (Fin 4) (Fin 4) ℝ} {l : Fin 4 → ℝ} (h : EigOk P U l) {σ : ℝ}
    (hσ : 0 < σ) (e : X) (he : P *ᵥ e = (σ ^ 2) • e) (m : X) (a : ℝ) :
    nrandCol m U l (a • (Uᵀ *ᵥ e)) = m + (a * σ) • e := by
  have hU : U * Uᵀ = 1 := mul_eq_one_comm.1 h.1
  have hd : diagonal l *ᵥ (Uᵀ *ᵥ e) = (σ ^ 2) • (Uᵀ *ᵥ e) := by
    rw [← Matrix.mulVec_smul, ← he, h.2, Matrix.mulVec_mulVec, Matrix.mulVec_mulVec,
      ← Matrix.mul_assoc, ← Matrix.mul_assoc, h.1, Matrix.one_mul]
  have hs : (diagonal fun i => Real.sqrt (l i)) *ᵥ (Uᵀ *ᵥ e) = σ • (Uᵀ *ᵥ e) := by
    ext i
    have hi := congrFun hd i
    rw [Matrix.mulVec_diagonal, Pi.smul_apply, smul_eq_mul] at hi
    rw [Matrix.mulVec_diagonal, Pi.smul_apply, smul_eq_mul]
    by_cases h0 : (Uᵀ *ᵥ e) i = 0
    · rw [h0]; ring
    · rw [mul_right_cancel₀ h0 hi, Real.sqrt_sq hσ.le]
  unfold nrandCol
  rw [Matrix.mulVec_smul, ← Matrix.mulVec_mulVec, hs, Matrix.mulVec_smul, Matrix.mulVec_mulVec, hU,
    Matrix.one_mulVec, smul_smul]

theorem far {σ : ℝ} (h0 : 0 < σ) (h1 : σ ≤ 90) :
    50000 * σ < ll2ne (roundTrip ![0, 0] ![0, σ]) ![0, 0] 1 ∧
    ll2ne (roundTrip ![0, 0] ![0, -σ]) ![0, 0] 1 < -(50000 * σ) := by
  have hpi := Real.pi_pos
  have hne : ∀ lon, ll2ne ![0, lon] ![0, 0] 1 = ea * sind lon := by
    intro lon
    have hs : sind 0 = 0 := by unfold sind; simp
    have hc : CF.cosd 0 = 1 := by unfold CF.cosd; simp
    unfold ll2ne CF.ecef2ne
    rw [CF.ll2ecef_equator, CF.ll2ecef_equator]
    simp [CF.nerot, hs, hc, Matrix.mulVec, dotProduct, Fin.sum_univ_three]
  have hat : ∀ s, sind (Real.arctan s * 180 / Real.pi) = s / Real.sqrt (1 + s ^ 2) := by
    intro s
    unfold sind
    rw [show Real.arctan s * 180 / Real.pi * Real.pi / 180 = Real.arctan s by field_simp,
      Real.sin_arctan]
  have hneg : sind (-σ) = -sind σ := by
    unfold sind
    rw [show -σ * Real.pi / 180 = -(σ * Real.pi / 180) by ring, Real.sin_neg]
  have hj : σ / 90 ≤ sind σ := by
    have := Real.mul_le_sin (x := σ * Real.pi / 180) (by positivity) (by nlinarith)
    unfold sind
    refine le_trans (le_of_eq ?_) this
    field_simp
    norm_num
  have hs1 : sind σ ≤ 1 := Real.sin_le_one _
  have hs0 : 0 < sind σ := lt_of_lt_of_le (by positivity) hj
  have hq : Real.sqrt (1 + sind σ ^ 2) < 1.415 := by
    rw [Real.sqrt_lt' (by norm_num)]
    nlinarith
  have hq0 : 0 < Real.sqrt (1 + sind σ ^ 2) := Real.sqrt_pos.2 (by positivity)
  have key : 50000 * σ < ea * (sind σ / Real.sqrt (1 + sind σ ^ 2)) := by
    rw [← mul_div_assoc, lt_div_iff₀ hq0]
    unfold ea
    nlinarith
  rw [CF.C57_equator, CF.C57_equator, hne, hne, hat, hat, hneg]
  refine ⟨key, ?_⟩
  rw [neg_sq, neg_div, mul_neg]
  linarith

theorem mean_two (c : List Part) (x : X) (w : ℝ) (n : Nat) (h : c = List.replicate n ⟨x, w⟩ ++
    List.replicate n ⟨-x, w⟩) : mean c = 0 := by
  unfold mean
  rw [h, List.map_append, List.map_replicate, List.map_replicate, List.sum_append,
    List.sum_replicate, List.sum_replicate, smul_neg, smul_neg, add_neg_cancel]

/-- **C92 refuted** The covariance of a report is in square metres, its position in degrees, and the
particles of a new target are drawn with both.  Whatever the decomposition of the covariance and the
uncertainty of the velocity: for a report with standard deviation `σ` there are draws of norm 1 for
which the mean of the target is the position of the report, and every particle is more than `50000 σ`
metres away from it. -/
theorem C92_metres_refuted (k : Opts) (s : PSens) (z : Rpt) {σ : ℝ} (h0 : 0 < σ) (h1 : σ ≤ 90)
    (hx : z.1.x = ![0, 0]) (hP : z.1.P = (σ ^ 2) • (1 : Matrix (Fin 2) (Fin 2) ℝ)) {n : Nat}
    (hn : 0 < n) (hN : k.N = 2 * n)
    (hE : EigOk (initCov s.pv z) (k.eig (initCov s.pv z)).1 (k.eig (initCov s.pv z)).2) :
    ∃ draws : List X, draws.length = k.N ∧ (∀ u ∈ draws, u ⬝ᵥ u = 1) ∧
      ∀ s' : PSens, s'.pv = s.pv → s'.draws z = draws →
        pos ((sensor k s').init z) = z.1.x ∧
        ∀ g ∈ ((sensor k s').init z).pf.c, 50000 * σ < |ll2ne (head g.x) z.1.x 1| := by
  set P := initCov s.pv z with hPdef
  set U := (k.eig P).1 with hU
  set l := (k.eig P).2 with hl
  let e : X := ![0, 1, 0, 0]
  have he : P *ᵥ e = (σ ^ 2) • e := by
    ext i
    fin_cases i <;>
      simp [e, hPdef, initCov, hP, Matrix.mulVec, dotProduct, Fin.sum_univ_four]
  have hUU : U * Uᵀ = 1 := mul_eq_one_comm.1 hE.1
  have hnorm : (Uᵀ *ᵥ e) ⬝ᵥ (Uᵀ *ᵥ e) = 1 := by
    rw [Matrix.mulVec_transpose, ← Matrix.dotProduct_mulVec, ← Matrix.mulVec_transpose,
      Matrix.mulVec_mulVec, hUU, Matrix.one_mulVec]
    simp [e, dotProduct, Fin.sum_univ_four]
  refine ⟨List.replicate n ((1 : ℝ) • (Uᵀ *ᵥ e)) ++ List.replicate n ((-1 : ℝ) • (Uᵀ *ᵥ e)), ?_, ?_, ?_⟩
  · rw [List.length_append, List.length_replicate, List.length_replicate, hN]; ring
  · intro u hu
    rcases List.mem_append.1 hu with h | h
    · rw [List.eq_of_mem_replicate h, one_smul, hnorm]
    · rw [List.eq_of_mem_replicate h, smul_dotProduct, dotProduct_smul, hnorm]; simp
  · intro s' hpv hdr
    have hm : initMean z = 0 := by
      ext i
      fin_cases i <;> simp [initMean, hx]
    have ec : ((sensor k s').init z).pf.c = _ :=
      construct_c k (initMean z) (initCov s'.pv z) (s'.draws z)
    rw [hpv, hdr, ← hPdef, ← hU, ← hl, hm] at ec
    have hc : (List.replicate n ((1 : ℝ) • (Uᵀ *ᵥ e)) ++ List.replicate n ((-1 : ℝ) • (Uᵀ *ᵥ e))).map
        (fun u => (⟨nrandCol 0 U l u, 1 / (k.N : ℝ)⟩ : Part)) =
        List.replicate n ⟨σ • e, 1 / (k.N : ℝ)⟩ ++ List.replicate n ⟨-(σ • e), 1 / (k.N : ℝ)⟩ := by
      rw [List.map_append, List.map_replicate, List.map_replicate, nrand_dir hE h0 e he,
        nrand_dir hE h0 e he, zero_add, zero_add, one_mul, neg_one_mul, neg_smul]
    simp only [hc] at ec
    rw [mean_two _ (σ • e) (1 / (k.N : ℝ)) n rfl] at ec
    have hz : head (0 : X) = ![0, 0] := by ext i; fin_cases i <;> rfl
    have hp : head (σ • e) = ![0, σ] := by ext i; fin_cases i <;> simp [head, e]
    have hq : head (-(σ • e)) = ![0, -σ] := by ext i; fin_cases i <;> simp [head, e]
    have hneg : roundTrip ![0, 0] ![0, -σ] = -roundTrip ![0, 0] ![0, σ] := by
      rw [CF.C57_equator, CF.C57_equator]
      have : sind (-σ) = -sind σ := by
        unfold sind
        rw [show -σ * Real.pi / 180 = -(σ * Real.pi / 180) by ring, Real.sin_neg]
      rw [this, Real.arctan_neg]
      ext i
      fin_cases i <;> simp [neg_div]
    rw [List.map_append, List.map_replicate, List.map_replicate, hz] at ec
    simp only [hp, hq, hneg] at ec
    have hset : setHead (-roundTrip ![0, 0] ![0, σ]) (-(σ • e)) =
        -setHead (roundTrip ![0, 0] ![0, σ]) (σ • e) := by
      ext i
      fin_cases i <;> simp [setHead]
    rw [hset] at ec
    refine ⟨?_, ?_⟩
    · unfold pos
      rw [ec, mean_two _ _ _ n rfl, hz, hx]
    · have hf := far h0 h1
      rw [hneg] at hf
      have hhn : ∀ x : X, head (-x) = -head x := by
        intro x; ext i; fin_cases i <;> simp [head]
      intro g hg
      rw [ec] at hg
      rw [hx]
      rcases List.mem_append.1 hg with h | h
      · rw [List.eq_of_mem_replicate h]
        simp only [head_set]
        exact lt_of_lt_of_le hf.1 (le_abs_self _)
      · rw [List.eq_of_mem_replicate h]
        simp only [hhn, head_set]
        exact lt_of_lt_of_le (by linarith [hf.2]) (neg_le_abs _)

/-- A report with a standard deviation of ten metres at 0 N 0 E. -/
noncomputable def exTen : Rpt :=
  ⟨⟨![0, 0], ((10 : ℝ) ^ 2) • 1, 1⟩,
    Matrix.PosDef.smul Matrix.PosDef.one (by norm_num), one_pos⟩

theorem exTen_eig : EigOk (initCov exSens.pv exTen) (exOpts.eig (initCov exSens.pv exTen)).1
    (exOpts.eig (initCov exSens.pv exTen)).2 := by
  refine ⟨by simp [exOpts], ?_⟩
  ext i j
  fin_cases i <;> fin_cases j <;> simp [exOpts, exSens, initCov, exTen]

/-- Two particles, and a report with a standard deviation of ten metres: the particles can be half a
thousand kilometres away. -/
example := C92_metres_refuted exOpts exSens exTen (σ := 10) (by norm_num) (by norm_num) rfl rfl
  (n := 1) one_pos rfl exTen_eig
example := C92_weights exOpts exSens0 exTen (by show 0 < 2; norm_num) rfl

end Verif.Particles

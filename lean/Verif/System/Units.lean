import Verif.System.Age
import Verif.CF.Boxes

/-!
# C97: what `cov_lim` limits

`viable` (`target.hpp:80-90`) compares `poscov().norm()` with `cov_lim` when the target is in the
global frame: the covariances of the components are in square metres, their means in degrees.
-/

namespace Verif.System

open Verif.Tracker Matrix
open Verif.Kalman (Gauss cvF cvQ linearUpdate)

/-- For a target of one component the frame makes no difference. -/
theorem single_local {p : Pdf} {g : Cmp} (h : p.mix.c = [g]) (hw : g.w = 1) (o : LL) :
    covNorm (toLocal o p) = covNorm p := by
  rw [single_norm h hw, single_norm (p := toLocal o p)
    (g := ⟨(setHead (CF.ll2ne (head g.x.1) o) g.x.1, g.x.2), g.w⟩) (by simp [toLocal, cLocal, h]) hw]

/-- **C97** After a prediction at the end of any history, a target of one component is known to within
`cov_lim`: that is a bound on the covariance of its position in metres. -/
theorem C97_single {k : Opts} (hk : OptsOk k) {prm : Params} (hB0 : 0 ≤ prm.rBmax)
    (hB1 : prm.rBmax ≤ 1) {calls : List (Call Pdf Rpt)} (hc : ∀ c ∈ calls, SysCall k prm c)
    {fuel : Nat} {s : St Pdf} (e : run (env k) prm fuel calls St.empty = some s)
    {m : Motion Pdf} {ord : List Nat → List Nat} (hm : SysCall k prm (.predict m ord)) {s' : St Pdf}
    (e' : predict (env k) prm m ord s = some s') {a : Nat} {u : Tgt Pdf} (hu : s'.heap a = some u)
    {g : Cmp} (hg : u.pdf.mix.c = [g]) :
    covNorm (toLocal (pos u.pdf) u.pdf) ≤ prm.covlim := by
  have hrun : run (env k) prm fuel (calls ++ [.predict m ord]) St.empty = some s' := by
    rw [run_append, e, Option.bind_some]
    simp only [run, step, e']
  have hgood := C66_densities_proper hk hB0 hB1 (calls := calls ++ [.predict m ord]) (by
    intro c h
    rcases List.mem_append.1 h with h | h
    · exact hc c h
    · rw [List.mem_singleton.1 h]; exact hm) hrun a u hu
  have hw : g.w = 1 := by
    have := hgood.2.2.2.2.1
    rw [hg] at this
    simpa using this
  obtain ⟨s2, h1, h2⟩ := C28_predict (env_box k) prm fuel calls (fun c h => sysCall_ok (hc c h)) s e m
    hm.1
  rw [e'] at h1
  cases h1
  rw [single_local hg hw]
  exact ((h2 a).1 u hu).2.1

/-- The norm of a sum of positive semidefinite matrices is at least that of each. -/
theorem norm_mono {A S : Matrix (Fin 4) (Fin 4) ℝ} {c : List Cmp} {x : Fin 4 → ℝ}
    (hw : ∀ g ∈ c, 0 ≤ g.w) (hA : A.PosSemidef)
    (hS : S = (c.map fun g => g.w • vecMulVec (g.x.1 - x) (g.x.1 - x)).sum) :
    A 0 0 * A 0 0 + A 0 1 * A 0 1 + A 1 0 * A 1 0 + A 1 1 * A 1 1 ≤
      (A + S) 0 0 * (A + S) 0 0 + (A + S) 0 1 * (A + S) 0 1 + (A + S) 1 0 * (A + S) 1 0 +
        (A + S) 1 1 * (A + S) 1 1 := by
  have hin : 0 ≤ A 0 0 * S 0 0 + A 0 1 * S 0 1 + A 1 0 * S 1 0 + A 1 1 * S 1 1 := by
    rw [hS]
    clear hS
    induction c with
    | nil => simp
    | cons g l ih =>
      have h1 := ih fun g' hg' => hw g' (List.mem_cons_of_mem _ hg')
      have h2 := hw g List.mem_cons_self
      simp only [List.map_cons, List.sum_cons, Matrix.add_apply, Matrix.smul_apply, smul_eq_mul,
        vecMulVec_apply, Pi.sub_apply]
      have h3 := hA.dotProduct_mulVec_nonneg ![g.x.1 0 - x 0, g.x.1 1 - x 1, 0, 0]
      simp only [star_trivial, Matrix.mulVec, dotProduct, Fin.sum_univ_four] at h3
      simp at h3
      have h4 := mul_nonneg h2 h3
      linarith
  simp only [Matrix.add_apply]
  nlinarith [mul_self_nonneg (S 0 0), mul_self_nonneg (S 0 1), mul_self_nonneg (S 1 0),
    mul_self_nonneg (S 1 1)]

/-- The covariance of a mixture: the average of the covariances and the spread of the means. -/
theorem cov_split (c : List Cmp) : Kalman.cov (c.map toG) =
    (c.map fun g => g.w • g.x.2).sum + (c.map fun g => g.w •
      vecMulVec (g.x.1 - Kalman.mean (c.map toG)) (g.x.1 - Kalman.mean (c.map toG))).sum := by
  unfold Kalman.cov
  rw [Kalman.covAt_eq]
  generalize Kalman.mean (c.map toG) = x
  induction c with
  | nil => simp
  | cons g l ih =>
    rw [List.map_cons, List.map_cons, List.sum_cons, ih, List.map_cons, List.map_cons, List.sum_cons,
      List.sum_cons, smul_add]
    simp only [toG]
    abel

/-- **C97** For any mixture, what is limited is the average of the covariances of the components. -/
theorem C97_within {k : Opts} (hk : OptsOk k) {prm : Params} (hB0 : 0 ≤ prm.rBmax)
    (hB1 : prm.rBmax ≤ 1) {calls : List (Call Pdf Rpt)} (hc : ∀ c ∈ calls, SysCall k prm c)
    {fuel : Nat} {s : St Pdf} (e : run (env k) prm fuel calls St.empty = some s)
    {m : Motion Pdf} {ord : List Nat → List Nat} (hm : SysCall k prm (.predict m ord)) {s' : St Pdf}
    (e' : predict (env k) prm m ord s = some s') {a : Nat} {u : Tgt Pdf} (hu : s'.heap a = some u) :
    ∀ W : Matrix (Fin 4) (Fin 4) ℝ,
      (∀ i j, W i j = (u.pdf.mix.c.map fun g : Cmp => g.w * g.x.2 i j).sum) →
      Real.sqrt (W 0 0 ^ 2 + W 0 1 ^ 2 + W 1 0 ^ 2 + W 1 1 ^ 2) ≤ prm.covlim := by
  intro W hW
  have hrun : run (env k) prm fuel (calls ++ [.predict m ord]) St.empty = some s' := by
    rw [run_append, e, Option.bind_some]
    simp only [run, step, e']
  have hgood := C66_densities_proper hk hB0 hB1 (calls := calls ++ [.predict m ord]) (by
    intro c h
    rcases List.mem_append.1 h with h | h
    · exact hc c h
    · rw [List.mem_singleton.1 h]; exact hm) hrun a u hu
  obtain ⟨s2, h1, h2⟩ := C28_predict (env_box k) prm fuel calls (fun c h => sysCall_ok (hc c h)) s e m
    hm.1
  rw [e'] at h1
  cases h1
  refine le_trans ?_ ((h2 a).1 u hu).2.1
  show _ ≤ covNorm u.pdf
  have hA : ((u.pdf.mix.c.map fun g : Cmp => g.w • g.x.2).sum).PosSemidef := by
    have : ∀ l : List Cmp, (∀ g ∈ l, 0 ≤ g.w ∧ g.x.2.PosDef) →
        ((l.map fun g : Cmp => g.w • g.x.2).sum).PosSemidef := by
      intro l
      induction l with
      | nil => intro _; exact Matrix.PosSemidef.zero
      | cons g l ih =>
        intro h
        rw [List.map_cons, List.sum_cons]
        refine Matrix.PosSemidef.add ?_ (ih fun g' hg' => h g' (List.mem_cons_of_mem _ hg'))
        have := h g List.mem_cons_self
        exact this.2.posSemidef.smul this.1
    exact this _ hgood.2.2.2.1
  have hn := norm_mono (x := Kalman.mean (u.pdf.mix.c.map toG))
    (fun g hg => (hgood.2.2.2.1 g hg).1) hA rfl
  rw [← cov_split] at hn
  have he : W = (u.pdf.mix.c.map fun g : Cmp => g.w • g.x.2).sum := by
    ext i j
    rw [hW]
    generalize u.pdf.mix.c = l
    induction l with
    | nil => rfl
    | cons g l ih => simp only [List.map_cons, List.sum_cons, Matrix.add_apply, ih]; rfl
  rw [← he] at hn
  unfold covNorm
  apply Real.sqrt_le_sqrt
  simp only [pow_two]
  exact hn

/-! ## The spread of the components is in degrees -/

/-- Two equally likely components on the equator, `2 ℓ` degrees apart, each with a standard deviation
of one metre. -/
noncomputable def exSpread (ℓ : ℝ) : Tgt Pdf :=
  ⟨0, 1, ⟨⟨[⟨(![0, ℓ, 0, 0], 1), 1 / 2⟩, ⟨(![0, -ℓ, 0, 0], 1), 1 / 2⟩], 1⟩, 0, Box.zero⟩, 0, 'c'⟩

/-- Where the components are after a prediction. -/
noncomputable def moved (ℓ : ℝ) : ℝ := Real.arctan (CF.sind ℓ) * 180 / Real.pi

theorem sind_neg (ℓ : ℝ) : CF.sind (-ℓ) = -CF.sind ℓ := by
  unfold CF.sind
  rw [neg_mul, neg_div, Real.sin_neg]

theorem moved_neg (ℓ : ℝ) : moved (-ℓ) = -moved ℓ := by
  unfold moved
  rw [sind_neg, Real.arctan_neg, neg_mul, neg_div]

theorem pos_two {p : Pdf} {x : ℝ} {P : Matrix (Fin 4) (Fin 4) ℝ}
    (h : p.mix.c = [⟨(![0, x, 0, 0], P), 1 / 2⟩, ⟨(![0, -x, 0, 0], P), 1 / 2⟩]) : pos p = ![0, 0] := by
  unfold pos
  rw [Kalman.mean_eq, h]
  ext i
  fin_cases i <;> simp [toG, head]

theorem covNorm_two {p : Pdf} {x : ℝ} {P : Matrix (Fin 4) (Fin 4) ℝ}
    (h : p.mix.c = [⟨(![0, x, 0, 0], P), 1 / 2⟩, ⟨(![0, -x, 0, 0], P), 1 / 2⟩]) :
    covNorm p = Real.sqrt (P 0 0 * P 0 0 + P 0 1 * P 0 1 + P 1 0 * P 1 0 +
      (P 1 1 + x * x) * (P 1 1 + x * x)) := by
  have hm : Kalman.mean (p.mix.c.map toG) = 0 := by
    rw [Kalman.mean_eq, h]
    ext i
    fin_cases i <;> simp [toG]
  unfold covNorm Kalman.cov
  rw [hm, Kalman.covAt_eq, h]
  simp [toG, vecMulVec_apply]
  congr 1
  ring

theorem ll2ne_equator (y : ℝ) : CF.ll2ne ![0, y] ![0, 0] = ![0, CF.ea * CF.sind y] := by
  have hs : CF.sind 0 = 0 := by unfold CF.sind; simp
  have hc : CF.cosd 0 = 1 := by unfold CF.cosd; simp
  unfold CF.ll2ne CF.ecef2ne
  rw [CF.ll2ecef_equator, CF.ll2ecef_equator]
  ext i
  fin_cases i <;> simp [CF.nerot, hs, hc, Matrix.mulVec, dotProduct, Fin.sum_univ_three]

theorem ne2ll_equator (y : ℝ) : CF.ne2ll ![0, CF.ea * CF.sind y] ![0, 0] = ![0, moved y] := by
  have := CF.C57_equator y
  unfold CF.roundTrip at this
  rwa [ll2ne_equator] at this

theorem local_two (x : ℝ) (P : Matrix (Fin 4) (Fin 4) ℝ) :
    cLocal ![0, 0] [⟨(![0, x, 0, 0], P), 1 / 2⟩, ⟨(![0, -x, 0, 0], P), 1 / 2⟩] =
      [⟨(![0, CF.ea * CF.sind x, 0, 0], P), 1 / 2⟩, ⟨(![0, -(CF.ea * CF.sind x), 0, 0], P), 1 / 2⟩] := by
  have hh : ∀ y : ℝ, head ![0, y, 0, 0] = ![0, y] := by intro y; rfl
  simp only [cLocal, List.map_cons, List.map_nil, hh, ll2ne_equator, sind_neg]
  simp [setHead]

/-- One prediction of the two components. -/
theorem exSpread_predict (k : Opts) (ℓ : ℝ) :
    (predictTgt (env k) (cv 1 1 1) (exSpread ℓ)).r = 1 ∧
    (predictTgt (env k) (cv 1 1 1) (exSpread ℓ)).pdf.mix.c =
      [⟨(![0, moved ℓ, 0, 0], cvF 1 * 1 * (cvF 1)ᵀ + cvQ 1 1), 1 / 2⟩,
        ⟨(![0, -moved ℓ, 0, 0], cvF 1 * 1 * (cvF 1)ᵀ + cvQ 1 1), 1 / 2⟩] := by
  set e := CF.ea * CF.sind ℓ with he
  set P := cvF 1 * (1 : Matrix (Fin 4) (Fin 4) ℝ) * (cvF 1)ᵀ + cvQ 1 1 with hP
  have hpos : pos (exSpread ℓ).pdf = ![0, 0] := pos_two rfl
  have hF : ∀ y : ℝ, cvF 1 *ᵥ ![0, y, 0, 0] = ![0, y, 0, 0] := by
    intro y
    ext i
    fin_cases i <;> simp [cvF, Matrix.mulVec, dotProduct, Fin.sum_univ_four]
  have h1 : ((cv 1 1 1).pdf (toLocal ![0, 0] (exSpread ℓ).pdf)).mix.c =
      [⟨(![0, e, 0, 0], P), 1 / 2⟩, ⟨(![0, -e, 0, 0], P), 1 / 2⟩] := by
    show (cLocal ![0, 0] (exSpread ℓ).pdf.mix.c).map (fun g => ofG (linearUpdate (cvF 1) (cvQ 1 1)
      (toG g))) = _
    show (cLocal ![0, 0] [⟨(![0, ℓ, 0, 0], 1), 1 / 2⟩, ⟨(![0, -ℓ, 0, 0], 1), 1 / 2⟩]).map
      (fun g => ofG (linearUpdate (cvF 1) (cvQ 1 1) (toG g))) = _
    rw [local_two]
    simp only [List.map_cons, List.map_nil, toG, linearUpdate, ofG, hF]
    rfl
  set p := (cv 1 1 1).pdf (toLocal ![0, 0] (exSpread ℓ).pdf) with hp
  have hsum : (p.mix.c.map GM.Cmp.w).sum = 1 := by rw [h1]; norm_num
  have hb : 1 / 100000000 < (p.mix.c.map GM.Cmp.w).sum := by rw [hsum]; norm_num
  have heta : (GM.normalize p.mix).eta = 1 := by rw [((GM.C37_normalize p.mix).1 hb).2.1, hsum]
  have hc : (GM.normalize p.mix).c = p.mix.c := by
    rw [GM.normalize_c _ hb, hsum, h1]
    simp
  constructor
  · show (1 : ℝ) * (1 : ℝ) ^ (1 : ℝ) * (GM.normalize ((cv 1 1 1).pdf
      (toLocal (pos (exSpread ℓ).pdf) (exSpread ℓ).pdf)).mix).eta = 1
    rw [hpos, ← hp, heta]
    norm_num
  · show cGlobal (pos (exSpread ℓ).pdf) (GM.normalize ((cv 1 1 1).pdf
      (toLocal (pos (exSpread ℓ).pdf) (exSpread ℓ).pdf)).mix).c = _
    rw [hpos, ← hp, hc, h1]
    have hh : ∀ y : ℝ, head ![0, y, 0, 0] = ![0, y] := by intro y; rfl
    have he' : -e = CF.ea * CF.sind (-ℓ) := by rw [sind_neg, he]; ring
    simp only [cGlobal, List.map_cons, List.map_nil, hh]
    rw [he', he, ne2ll_equator, ne2ll_equator, moved_neg]
    simp [setHead]

theorem noise_entries : (cvF 1 * (1 : Matrix (Fin 4) (Fin 4) ℝ) * (cvF 1)ᵀ + cvQ 1 1) 0 0 = 7 / 3 ∧
    (cvF 1 * (1 : Matrix (Fin 4) (Fin 4) ℝ) * (cvF 1)ᵀ + cvQ 1 1) 0 1 = 0 ∧
    (cvF 1 * (1 : Matrix (Fin 4) (Fin 4) ℝ) * (cvF 1)ᵀ + cvQ 1 1) 1 0 = 0 ∧
    (cvF 1 * (1 : Matrix (Fin 4) (Fin 4) ℝ) * (cvF 1)ᵀ + cvQ 1 1) 1 1 = 7 / 3 := by
  refine ⟨?_, ?_, ?_, ?_⟩ <;>
    simp [cvF, cvQ, Matrix.mul_apply, Fin.sum_univ_four, Matrix.vecMul, dotProduct] <;> norm_num

/-- **C97 refuted** For a mixture the bound on the covariance in metres does not hold: two components
up to 24 degrees apart are kept (with the default `cov_lim`), although the position has a standard
deviation of more than 50 kilometres per degree.  Weights and covariances are as C66 says. -/
theorem C97_spread_refuted (k : Opts) {prm : Params} (hL : prm.covlim = 150) (hr : prm.rlim ≤ 1)
    {ℓ : ℝ} (h0 : 0 < ℓ) (h1 : ℓ ≤ 12) :
    ((exSpread ℓ).pdf.mix.c.map GM.Cmp.w).sum = 1 ∧
    (∀ g ∈ (exSpread ℓ).pdf.mix.c, 0 ≤ g.w ∧ g.x.2.PosDef) ∧
    viable (env k) prm (predictTgt (env k) (cv 1 1 1) (exSpread ℓ)) = true ∧
    (50000 * ℓ) ^ 2 ≤ covNorm (toLocal (pos (predictTgt (env k) (cv 1 1 1) (exSpread ℓ)).pdf)
      (predictTgt (env k) (cv 1 1 1) (exSpread ℓ)).pdf) := by
  obtain ⟨e1, e2⟩ := exSpread_predict k ℓ
  obtain ⟨n1, n2, n3, n4⟩ := noise_entries
  have hpi := Real.pi_pos
  have hx : 0 ≤ ℓ * Real.pi / 180 := by positivity
  have hx2 : ℓ * Real.pi / 180 ≤ Real.pi / 2 := by nlinarith
  have hs0 : 0 ≤ CF.sind ℓ := Real.sin_nonneg_of_nonneg_of_le_pi hx (by linarith)
  have hs1 : CF.sind ℓ ≤ ℓ * Real.pi / 180 := Real.sin_le hx
  have hs2 : ℓ / 90 ≤ CF.sind ℓ := by
    have := Real.mul_le_sin hx hx2
    unfold CF.sind
    refine le_trans (le_of_eq ?_) this
    field_simp
    norm_num
  have hs3 : CF.sind ℓ ≤ 1 := Real.sin_le_one _
  have hm0 : 0 ≤ moved ℓ := by
    unfold moved
    have := Real.arctan_nonneg.2 hs0
    positivity
  have hm1 : moved ℓ ≤ 12 := by
    unfold moved
    have := (CF.arctan_le_self hs0).trans hs1
    rw [div_le_iff₀ hpi]
    nlinarith
  refine ⟨by simp [exSpread]; norm_num, ?_, ?_, ?_⟩
  · intro g hg
    simp only [exSpread, List.mem_cons, List.not_mem_nil, or_false] at hg
    rcases hg with rfl | rfl <;> exact ⟨by norm_num, Matrix.PosDef.one⟩
  · unfold viable
    rw [e1, if_neg (by linarith)]
    rw [if_neg]
    rw [hL]
    show ¬ 150 < covNorm _
    rw [covNorm_two e2, n1, n2, n3, n4, not_lt]
    apply Real.sqrt_le_iff.2
    refine ⟨by norm_num, ?_⟩
    have : moved ℓ * moved ℓ ≤ 144 := by nlinarith
    have h2 : 0 ≤ moved ℓ * moved ℓ := mul_self_nonneg _
    nlinarith
  · rw [pos_two e2]
    have e3 : (toLocal ![0, 0] (predictTgt (env k) (cv 1 1 1) (exSpread ℓ)).pdf).mix.c =
        [⟨(![0, CF.ea * CF.sind (moved ℓ), 0, 0], cvF 1 * 1 * (cvF 1)ᵀ + cvQ 1 1), 1 / 2⟩,
        ⟨(![0, -(CF.ea * CF.sind (moved ℓ)), 0, 0], cvF 1 * 1 * (cvF 1)ᵀ + cvQ 1 1), 1 / 2⟩] := by
      show cLocal ![0, 0] _ = _
      rw [e2, local_two]
    rw [covNorm_two e3, n1, n2, n3, n4]
    have hsm : CF.sind (moved ℓ) = CF.sind ℓ / Real.sqrt (1 + CF.sind ℓ ^ 2) := by
      have ha : moved ℓ * Real.pi / 180 = Real.arctan (CF.sind ℓ) := by
        unfold moved
        field_simp
      conv_lhs => unfold CF.sind
      rw [ha, Real.sin_arctan]
    have hq : Real.sqrt (1 + CF.sind ℓ ^ 2) ≤ 1.415 := by
      apply Real.sqrt_le_iff.2
      constructor
      · norm_num
      · nlinarith
    have hq0 : 0 < Real.sqrt (1 + CF.sind ℓ ^ 2) := Real.sqrt_pos.2 (by positivity)
    have hbig : 50000 * ℓ ≤ CF.ea * CF.sind (moved ℓ) := by
      rw [hsm, mul_div_assoc', le_div_iff₀ hq0]
      have h5 : 50000 * ℓ * Real.sqrt (1 + CF.sind ℓ ^ 2) ≤ 50000 * ℓ * 1.415 :=
        mul_le_mul_of_nonneg_left hq (by positivity)
      unfold CF.ea
      nlinarith
    have hsq : (50000 * ℓ) ^ 2 ≤ CF.ea * CF.sind (moved ℓ) * (CF.ea * CF.sind (moved ℓ)) := by
      rw [pow_two]
      exact mul_self_le_mul_self (by positivity) hbig
    apply Real.le_sqrt_of_sq_le
    have hZ : 0 ≤ (50000 * ℓ) ^ 2 := sq_nonneg _
    generalize CF.ea * CF.sind (moved ℓ) * (CF.ea * CF.sind (moved ℓ)) = Y at hsq ⊢
    generalize (50000 * ℓ) ^ 2 = Z at hsq hZ ⊢
    nlinarith

/-- Two hundred kilometres apart. -/
example := C97_spread_refuted exOpts (prm := exPrm) rfl (by show (1 : ℝ) / 20 ≤ 1; norm_num)
  (ℓ := 1) (by norm_num) (by norm_num)

/-- A prediction of the history of the examples keeps targets of one component. -/
example : ∃ s a t g, run (env exOpts) exPrm 0 (exHist.take 1) St.empty = some s ∧
    s.heap a = some t ∧ t.pdf.mix.c = [g] ∧ ∀ s', predict (env exOpts) exPrm (cv (9 / 10) 1 1) id s =
      some s' → ∀ u, s'.heap a = some u → ∀ g', u.pdf.mix.c = [g'] →
        covNorm (toLocal (pos u.pdf) u.pdf) ≤ 150 := by
  obtain ⟨s, a, t, g, h1, h2, _, h3, _⟩ := exNewborn
  refine ⟨s, a, t, g, h1, h2, h3, fun s' e' u hu g' hg' => ?_⟩
  exact C97_single exOpts_ok (prm := exPrm) (by show (0 : ℝ) ≤ 4 / 5; norm_num)
    (by show (4 : ℝ) / 5 ≤ 1; norm_num) (fun c h => exHist_ok c (List.mem_of_mem_take h)) h1
    (m := cv (9 / 10) 1 1) (ord := id)
    ⟨fun l => List.Perm.refl _, Or.inl ⟨9 / 10, 1, 1, by norm_num, by norm_num, by norm_num,
      by norm_num, rfl⟩⟩ e' hu hg'

end Verif.System

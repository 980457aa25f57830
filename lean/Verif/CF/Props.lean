import Verif.CF.Model
import Mathlib.LinearAlgebra.Matrix.Determinant.Basic
import Mathlib.LinearAlgebra.Matrix.NonsingularInverse
import Mathlib.Analysis.SpecialFunctions.Trigonometric.Arctan
import Mathlib.Analysis.SpecialFunctions.Trigonometric.Bounds
import Mathlib.Analysis.SpecialFunctions.Complex.Arctan
import Mathlib.Topology.Order.MonotoneConvergence
import Mathlib.Tactic.Linarith
import Mathlib.Tactic.LinearCombination
import Mathlib.Tactic.FinCases
import Mathlib.Tactic.NormNum

/-! # Properties C48, C49, C50 and C57: coordinate frames -/

namespace Verif.CF

open Matrix

theorem sq_sind_cosd (t : ℝ) : sind t ^ 2 + cosd t ^ 2 = 1 := Real.sin_sq_add_cos_sq _

/-! ## C48 -/

/-- C48: `nedrot` is a rotation, and `nerot` its first two rows. -/
theorem C48_rotation (lat lon : ℝ) :
    nedrot lat lon * (nedrot lat lon)ᵀ = 1 ∧ (nedrot lat lon)ᵀ * nedrot lat lon = 1 ∧
    (nedrot lat lon).det = 1 ∧
    (∀ j, nerot lat lon 0 j = nedrot lat lon 0 j ∧ nerot lat lon 1 j = nedrot lat lon 1 j) := by
  have h1 := sq_sind_cosd lat
  have h2 := sq_sind_cosd lon
  have hl : nedrot lat lon * (nedrot lat lon)ᵀ = 1 := by
    ext i j
    fin_cases i <;> fin_cases j <;>
      simp [nedrot, Matrix.mul_apply, Fin.sum_univ_three]
    · linear_combination (sind lat ^ 2) * h2 + h1
    · ring
    · linear_combination (sind lat * cosd lat) * h2
    · ring
    · linear_combination h2
    · ring
    · linear_combination (sind lat * cosd lat) * h2
    · ring
    · linear_combination (cosd lat ^ 2) * h2 + h1
  refine ⟨hl, mul_eq_one_comm.1 hl, ?_, ?_⟩
  · rw [Matrix.det_fin_three]
    simp [nedrot]
    linear_combination (sind lat ^ 2 + cosd lat ^ 2) * h2 + h1
  · intro j
    fin_cases j <;> simp [nerot, nedrot]

example := C48_rotation 58 15

/-! ## C49 -/

/-- C49: `ecef2ned` and `ned2ecef` are inverse to each other, the origin is mapped to 0, and
distances are kept. -/
theorem C49_inverse (q n o : Fin 3 → ℝ) :
    ned2ecef (ecef2ned q o) o = q ∧ ecef2ned (ned2ecef n o) o = n ∧
    ecef2ned (lla2ecef o) o = 0 ∧ ned2ecef 0 o = lla2ecef o ∧
    ∀ q', (ecef2ned q o - ecef2ned q' o) ⬝ᵥ (ecef2ned q o - ecef2ned q' o) =
      (q - q') ⬝ᵥ (q - q') := by
  obtain ⟨h1, h2, _, _⟩ := C48_rotation (o 0) (o 1)
  refine ⟨?_, ?_, ?_, ?_, ?_⟩
  · unfold ned2ecef ecef2ned
    rw [Matrix.mulVec_mulVec, h2, Matrix.one_mulVec]
    abel
  · unfold ned2ecef ecef2ned
    rw [add_sub_cancel_left, Matrix.mulVec_mulVec, h1, Matrix.one_mulVec]
  · unfold ecef2ned
    rw [sub_self, Matrix.mulVec_zero]
  · unfold ned2ecef
    rw [Matrix.mulVec_zero, add_zero]
  · intro q'
    unfold ecef2ned
    rw [← Matrix.mulVec_sub, show q - lla2ecef o - (q' - lla2ecef o) = q - q' from by abel,
      Matrix.dotProduct_mulVec, Matrix.vecMul_mulVec, h2, Matrix.vecMul_one]

/-- C49: with altitude 0, `ll2ne` gives the first two coordinates of `lla2ned`; the origin is mapped
to 0; and `ll2ne` never increases a distance in space. -/
theorem C49_ne (p p' o : Fin 2 → ℝ) :
    (∀ i : Fin 2, ll2ne p o i = lla2ned ![p 0, p 1, 0] ![o 0, o 1, 0] (i.castSucc)) ∧
    ll2ne o o = 0 ∧
    (ll2ne p o - ll2ne p' o) ⬝ᵥ (ll2ne p o - ll2ne p' o) ≤
      (ll2ecef p - ll2ecef p') ⬝ᵥ (ll2ecef p - ll2ecef p') := by
  have he : ∀ p : Fin 2 → ℝ, lla2ecef ![p 0, p 1, 0] = ll2ecef p := by
    intro p
    unfold lla2ecef ll2ecef
    simp
  have hrow : ∀ (o : Fin 2 → ℝ) (q : Fin 3 → ℝ) (i : Fin 2),
      (nerot (o 0) (o 1) *ᵥ q) i = (nedrot (o 0) (o 1) *ᵥ q) i.castSucc := by
    intro o q i
    have h := (C48_rotation (o 0) (o 1)).2.2.2
    unfold Matrix.mulVec dotProduct
    apply Finset.sum_congr rfl
    intro j _
    fin_cases i
    · exact congrArg (· * q j) (h j).1
    · exact congrArg (· * q j) (h j).2
  refine ⟨?_, ?_, ?_⟩
  · intro i
    unfold ll2ne lla2ned ecef2ne ecef2ned
    rw [he, he, hrow]
    simp
  · unfold ll2ne ecef2ne
    rw [sub_self, Matrix.mulVec_zero]
  · have hd : ll2ne p o - ll2ne p' o = nerot (o 0) (o 1) *ᵥ (ll2ecef p - ll2ecef p') := by
      unfold ll2ne ecef2ne
      rw [← Matrix.mulVec_sub]
      congr 1
      abel
    rw [hd]
    generalize ll2ecef p - ll2ecef p' = d
    obtain ⟨h1, h2, _, _⟩ := C48_rotation (o 0) (o 1)
    have hn : (nedrot (o 0) (o 1) *ᵥ d) ⬝ᵥ (nedrot (o 0) (o 1) *ᵥ d) = d ⬝ᵥ d := by
      rw [Matrix.dotProduct_mulVec, Matrix.vecMul_mulVec, h2, Matrix.vecMul_one]
    rw [← hn]
    simp only [dotProduct, Fin.sum_univ_two, Fin.sum_univ_three]
    rw [hrow, hrow]
    simp only [Fin.castSucc_zero]
    have := mul_self_nonneg ((nedrot (o 0) (o 1) *ᵥ d) 2)
    have e : (Fin.castSucc 1 : Fin 3) = 1 := rfl
    rw [e]
    linarith

example := C49_inverse ![3000000, 800000, 5400000] ![10, 20, -5] ![58, 15, 100]
example := C49_ne ![58, 15] ![59, 14] ![57, 16]

/-! ## C50 -/

theorem e2_pos : 0 < e2 ∧ e2 < 1 := by unfold e2; constructor <;> norm_num

theorem nrad_pos (lat : ℝ) : 0 < nrad lat := by
  unfold nrad
  apply div_pos (by unfold ea; norm_num)
  apply Real.sqrt_pos.2
  have h := sq_sind_cosd lat
  have h1 : sind lat * sind lat ≤ 1 := by nlinarith [sq_nonneg (cosd lat)]
  have := mul_le_mul_of_nonneg_left h1 e2_pos.1.le
  linarith [e2_pos.2]

/-- C50: altitude 0 makes `lla2ecef` and `ll2ecef` agree, and `ecef2ll` is `ecef2lla` without the
altitude. -/
theorem C50_agree (lat lon : ℝ) (q : Fin 3 → ℝ) :
    lla2ecef ![lat, lon, 0] = ll2ecef ![lat, lon] ∧
    ecef2ll q 0 = ecef2lla q 0 ∧ ecef2ll q 1 = ecef2lla q 1 := by
  refine ⟨?_, rfl, rfl⟩
  unfold lla2ecef ll2ecef
  simp

theorem cosd_pos {lat : ℝ} (h1 : -90 < lat) (h2 : lat < 90) : 0 < cosd lat := by
  unfold cosd
  have hpi := Real.pi_pos
  apply Real.cos_pos_of_mem_Ioo
  constructor
  · nlinarith
  · nlinarith

/-- C50: longitudes in (-180, 180] come back exactly, between the poles and at any altitude above
the centre of the earth's curvature. -/
theorem C50_longitude (lat lon alt : ℝ) (h1 : -90 < lat) (h2 : lat < 90) (h3 : -180 < lon)
    (h4 : lon ≤ 180) (ha : -nrad lat < alt) :
    ecef2lla (lla2ecef ![lat, lon, alt]) 1 = lon ∧ ecef2ll (ll2ecef ![lat, lon]) 1 = lon := by
  have hpi := Real.pi_pos
  have key : ∀ r : ℝ, 0 < r → atan2 (r * sind lon) (r * cosd lon) * 180 / Real.pi = lon := by
    intro r hr
    have : atan2 (r * sind lon) (r * cosd lon) = lon * Real.pi / 180 := by
      unfold atan2
      rw [show (⟨r * cosd lon, r * sind lon⟩ : ℂ) = (r : ℂ) *
        (Complex.cos ((lon * Real.pi / 180 : ℝ) : ℂ) +
          Complex.sin ((lon * Real.pi / 180 : ℝ) : ℂ) * Complex.I) from ?_]
      · apply Complex.arg_mul_cos_add_sin_mul_I hr
        constructor
        · nlinarith
        · nlinarith
      · rw [← Complex.ofReal_cos, ← Complex.ofReal_sin]
        unfold cosd sind
        generalize Real.cos (lon * Real.pi / 180) = A
        generalize Real.sin (lon * Real.pi / 180) = B
        apply Complex.ext <;> simp
    rw [this]
    field_simp
  have hc := cosd_pos h1 h2
  have hn := nrad_pos lat
  constructor
  · exact key ((nrad lat + alt) * cosd lat) (mul_pos (by linarith) hc)
  · exact key (nrad lat * cosd lat) (mul_pos hn hc)

/-- In the plane of the equator the latitude is 0. -/
theorem equator_lat (q : Fin 3 → ℝ) (hz : q 2 = 0) (hw : 0 < q 0 * q 0 + q 1 * q 1) :
    ecef2ll q 0 = 0 := by
  unfold ecef2ll
  simp only [hz, abs_zero, mul_zero, add_zero, zero_div, zero_mul, lt_irrefl, if_false]
  rw [div_self hw.ne', if_pos (by norm_num), if_pos (by norm_num), if_pos (by norm_num)]
  simp

/-- The latitude `ecef2ll` computes, in radians, before the sign is put back: from the squared
distance to the axis and the absolute value and square of the height. -/
noncomputable def latAbs (w2 zp z2 : ℝ) : ℝ :=
  let w := Real.sqrt w2
  let r2 := w2 + z2
  let r := Real.sqrt r2
  let s2 := z2 / r2
  let c2 := w2 / r2
  let u := k2 / r
  let v := k3 - k4 / r
  let s := if 0.3 < c2 then (zp / r) * (1 + c2 * (k1 + u + s2 * v) / r)
    else Real.sqrt (1 - ((w / r) * (1 - s2 * (k5 - u - c2 * v) / r)) *
      ((w / r) * (1 - s2 * (k5 - u - c2 * v) / r)))
  let c := if 0.3 < c2 then Real.sqrt (1 - s * s)
    else (w / r) * (1 - s2 * (k5 - u - c2 * v) / r)
  let lat := if 0.3 < c2 then Real.arcsin s else Real.arccos c
  let ss := if 0.3 < c2 then s * s else 1 - c * c
  let g := 1 - e2 * ss
  let rg := ea / Real.sqrt g
  let rf := k6 * rg
  let u := w - rg * c
  let v := zp - rf * s
  let f := c * u + s * v
  let m := c * v - s * u
  lat + m / (rf / g + f)

/-- The altitude `ecef2lla` computes. -/
noncomputable def altAbs (w2 zp z2 : ℝ) : ℝ :=
  let w := Real.sqrt w2
  let r2 := w2 + z2
  let r := Real.sqrt r2
  let s2 := z2 / r2
  let c2 := w2 / r2
  let u := k2 / r
  let v := k3 - k4 / r
  let s := if 0.3 < c2 then (zp / r) * (1 + c2 * (k1 + u + s2 * v) / r)
    else Real.sqrt (1 - ((w / r) * (1 - s2 * (k5 - u - c2 * v) / r)) *
      ((w / r) * (1 - s2 * (k5 - u - c2 * v) / r)))
  let c := if 0.3 < c2 then Real.sqrt (1 - s * s)
    else (w / r) * (1 - s2 * (k5 - u - c2 * v) / r)
  let ss := if 0.3 < c2 then s * s else 1 - c * c
  let g := 1 - e2 * ss
  let rg := ea / Real.sqrt g
  let rf := k6 * rg
  let u := w - rg * c
  let v := zp - rf * s
  let f := c * u + s * v
  let m := c * v - s * u
  f + m * (m / (rf / g + f)) / 2

theorem ecef2ll_lat (x y z : ℝ) : ecef2ll ![x, y, z] 0 =
    (if z < 0 then -latAbs (x * x + y * y) |z| (z * z) else latAbs (x * x + y * y) |z| (z * z)) *
      180 / Real.pi := rfl

/-- C50: the hemispheres are mirror images. -/
theorem C50_mirror (x y z : ℝ) (h : z ≠ 0 ∨ 0 < x * x + y * y) :
    ecef2ll ![x, y, -z] 0 = -ecef2ll ![x, y, z] 0 ∧ ecef2ll ![x, y, -z] 1 = ecef2ll ![x, y, z] 1 ∧
    ecef2lla ![x, y, -z] 2 = ecef2lla ![x, y, z] 2 := by
  by_cases hz : z = 0
  · subst hz
    have hw : 0 < x * x + y * y := by
      rcases h with h | h
      · exact absurd rfl h
      · exact h
    rw [neg_zero]
    refine ⟨?_, rfl, rfl⟩
    rw [equator_lat ![x, y, 0] rfl hw]
    simp
  · refine ⟨?_, ?_, ?_⟩
    · rw [ecef2ll_lat, ecef2ll_lat]
      rw [abs_neg, neg_mul_neg]
      rcases lt_or_gt_of_ne hz with hneg | hpos
      · have : ¬ -z < 0 := by linarith
        rw [if_pos hneg, if_neg this]
        ring
      · have h1 : -z < 0 := by linarith
        have h2 : ¬ z < 0 := by linarith
        rw [if_pos h1, if_neg h2]
        ring
    · unfold ecef2ll
      simp
    · have h1 : ∀ t : ℝ, ecef2lla ![x, y, t] 2 = altAbs (x * x + y * y) |t| (t * t) :=
        fun t => rfl
      rw [h1, h1, abs_neg, neg_mul_neg]

example := C50_agree 58 15 ![1, 2, 3]
example := C50_longitude 58 (-15) 100 (by norm_num) (by norm_num) (by norm_num) (by norm_num)
  (by linarith [nrad_pos 58])
example := C50_mirror 3000000 800000 5400000 (Or.inl (by norm_num))

/-! ## C57 -/

theorem atan2_of_pos {y x : ℝ} (hx : 0 < x) : atan2 y x = Real.arctan (y / x) := by
  unfold atan2
  have h := Complex.arg_of_re_nonneg (x := ⟨x, y⟩) hx.le
  rw [h, Real.arctan_eq_arcsin]
  congr 1
  rw [Complex.norm_def, Complex.normSq_mk]
  simp only
  have : Real.sqrt (1 + (y / x) ^ 2) = Real.sqrt (x * x + y * y) / x := by
    rw [show 1 + (y / x) ^ 2 = (x * x + y * y) / (x * x) from by field_simp,
      Real.sqrt_div' _ (mul_self_nonneg x), Real.sqrt_mul_self hx.le]
  rw [this]
  field_simp

/-- On the equator the radius is the semi-major axis. -/
theorem ll2ecef_equator (lon : ℝ) : ll2ecef ![0, lon] = ![ea * cosd lon, ea * sind lon, 0] := by
  have hs : sind 0 = 0 := by unfold sind; simp
  have hc : cosd 0 = 1 := by unfold cosd; simp
  have hn : nrad 0 = ea := by unfold nrad; rw [hs]; simp
  unfold ll2ecef
  simp [hs, hc, hn]

theorem ecef2ll_equator {x y : ℝ} (hx : 0 < x) :
    ecef2ll ![x, y, 0] = ![0, Real.arctan (y / x) * 180 / Real.pi] := by
  have h0 := equator_lat ![x, y, 0] rfl (by
    have := mul_pos hx hx
    have := mul_self_nonneg y
    simp only [Matrix.cons_val_zero, Matrix.cons_val_one]
    linarith)
  ext i
  fin_cases i
  · exact h0
  · change atan2 y x * 180 / Real.pi = _
    rw [atan2_of_pos hx]
    rfl

/-- C57, on the equator: going to the local frame of the origin (0, 0) and back moves a target from
longitude `lon` to `arctan (sin lon)`. -/
theorem C57_equator (lon : ℝ) :
    roundTrip ![0, 0] ![0, lon] = ![0, Real.arctan (sind lon) * 180 / Real.pi] := by
  have hs : sind 0 = 0 := by unfold sind; simp
  have hc : cosd 0 = 1 := by unfold cosd; simp
  have hea : (0 : ℝ) < ea := by unfold ea; norm_num
  have hne : ll2ne ![0, lon] ![0, 0] = ![0, ea * sind lon] := by
    unfold ll2ne ecef2ne
    rw [ll2ecef_equator, ll2ecef_equator]
    ext i
    fin_cases i <;> simp [nerot, hs, hc, Matrix.mulVec, dotProduct, Fin.sum_univ_three]
  unfold roundTrip ne2ll ne2ecef
  rw [hne, ll2ecef_equator]
  have hsum : (![ea * cosd 0, ea * sind 0, 0] : Fin 3 → ℝ) +
      (nedrot ((![0, 0] : Fin 2 → ℝ) 0) ((![0, 0] : Fin 2 → ℝ) 1))ᵀ *ᵥ
        ![(![0, ea * sind lon] : Fin 2 → ℝ) 0, (![0, ea * sind lon] : Fin 2 → ℝ) 1, 0] =
      ![ea, ea * sind lon, 0] := by
    ext i
    fin_cases i <;> simp [nedrot, hs, hc, Matrix.mulVec, dotProduct, Fin.sum_univ_three]
  rw [hsum, ecef2ll_equator hea]
  have hq : ea * sind lon / ea = sind lon := by field_simp
  rw [hq, ll2ecef_equator]
  have hpi := Real.pi_pos
  have ha : Real.arctan (sind lon) * 180 / Real.pi * Real.pi / 180 = Real.arctan (sind lon) := by
    field_simp
  have hcp : 0 < cosd (Real.arctan (sind lon) * 180 / Real.pi) := by
    unfold cosd
    rw [ha]
    exact Real.cos_arctan_pos _
  rw [ecef2ll_equator (mul_pos hea hcp), mul_div_mul_left _ _ hea.ne']
  congr 3
  have : sind (Real.arctan (sind lon) * 180 / Real.pi) / cosd (Real.arctan (sind lon) * 180 / Real.pi)
      = Real.tan (Real.arctan (sind lon)) := by
    unfold sind cosd at *
    rw [ha, Real.tan_eq_sin_div_cos]
  rw [this, Real.tan_arctan]

theorem arctan_le_self {t : ℝ} (h : 0 ≤ t) : Real.arctan t ≤ t := by
  rcases h.lt_or_eq with h | h
  · have h0 : 0 < Real.arctan t := by
      rw [← Real.arctan_zero]; exact Real.arctan_strictMono h
    have := Real.lt_tan h0 (Real.arctan_lt_pi_div_two t)
    rw [Real.tan_arctan] at this
    exact this.le
  · rw [← h, Real.arctan_zero]

/-- The longitude after the round trip, in radians. -/
noncomputable def drift (t : ℝ) : ℝ := Real.arctan (Real.sin t)

theorem drift_lt {t : ℝ} (h0 : 0 < t) (h1 : t ≤ Real.pi) : 0 ≤ drift t ∧ drift t < t := by
  unfold drift
  have hs : 0 ≤ Real.sin t := Real.sin_nonneg_of_nonneg_of_le_pi h0.le h1
  refine ⟨?_, lt_of_le_of_lt (arctan_le_self hs) (Real.sin_lt h0)⟩
  rw [← Real.arctan_zero]
  exact Real.arctan_strictMono.monotone hs

/-- C57, refuted: a target on the equator, between 0 and 180 degrees east of the origin, is strictly
nearer to it after each query, and repeated queries move it arbitrarily near. -/
theorem C57_refuted (lon : ℝ) (h0 : 0 < lon) (h1 : lon ≤ 180) :
    (roundTrip ![0, 0] ![0, lon] 1 < lon ∧ 0 ≤ roundTrip ![0, 0] ![0, lon] 1) ∧
    Filter.Tendsto (fun n => ((roundTrip ![0, 0])^[n] ![0, lon]) 1) Filter.atTop (nhds 0) ∧
    roundTrip ![0, 0] ![0, 90] = ![0, 45] := by
  have hpi := Real.pi_pos
  have hr0 : 0 < lon * Real.pi / 180 := by positivity
  have hr1 : lon * Real.pi / 180 ≤ Real.pi := by nlinarith
  -- the iterates, in radians
  have hit : ∀ n, (roundTrip ![0, 0])^[n] ![0, lon] =
      ![0, drift^[n] (lon * Real.pi / 180) * 180 / Real.pi] := by
    intro n
    induction n with
    | zero =>
      have : lon * Real.pi / 180 * 180 / Real.pi = lon := by field_simp
      simp only [Function.iterate_zero, id]
      rw [this]
    | succ n ih =>
      rw [Function.iterate_succ_apply', ih, C57_equator, Function.iterate_succ_apply']
      have : drift^[n] (lon * Real.pi / 180) * 180 / Real.pi * Real.pi / 180 =
          drift^[n] (lon * Real.pi / 180) := by field_simp
      unfold sind
      rw [this]
      rfl
  have hrange : ∀ n, 0 ≤ drift^[n] (lon * Real.pi / 180) ∧
      drift^[n] (lon * Real.pi / 180) ≤ Real.pi ∧
      drift^[n + 1] (lon * Real.pi / 180) ≤ drift^[n] (lon * Real.pi / 180) := by
    have step : ∀ t, 0 ≤ t → t ≤ Real.pi → 0 ≤ drift t ∧ drift t ≤ t := by
      intro t ht ht'
      rcases ht.lt_or_eq with h | h
      · exact ⟨(drift_lt h ht').1, (drift_lt h ht').2.le⟩
      · rw [← h]
        unfold drift
        rw [Real.sin_zero, Real.arctan_zero]
        exact ⟨le_refl _, le_refl _⟩
    intro n
    induction n with
    | zero =>
      refine ⟨hr0.le, hr1, ?_⟩
      rw [Function.iterate_succ_apply']
      exact (step _ hr0.le hr1).2
    | succ n ih =>
      have s := step _ ih.1 ih.2.1
      rw [← Function.iterate_succ_apply' drift] at s
      refine ⟨s.1, s.2.trans ih.2.1, ?_⟩
      rw [Function.iterate_succ_apply' _ (n + 1)]
      exact (step _ s.1 (s.2.trans ih.2.1)).2
  have hcont : Continuous drift := Real.continuous_arctan.comp Real.continuous_sin
  have hanti : Antitone fun n => drift^[n] (lon * Real.pi / 180) :=
    antitone_nat_of_succ_le fun n => (hrange n).2.2
  have hbdd : BddBelow (Set.range fun n => drift^[n] (lon * Real.pi / 180)) :=
    ⟨0, by rintro _ ⟨n, rfl⟩; exact (hrange n).1⟩
  have hlim := tendsto_atTop_ciInf hanti hbdd
  generalize (⨅ n, drift^[n] (lon * Real.pi / 180)) = L at hlim
  have hL : L = 0 := by
    have hL0 : 0 ≤ L := ge_of_tendsto' hlim fun n => (hrange n).1
    have hL1 : L ≤ Real.pi := le_of_tendsto' hlim fun n => (hrange n).2.1
    have hfix : drift L = L := by
      have t1 := (hcont.tendsto L).comp hlim
      have t2 := hlim.comp (Filter.tendsto_add_atTop_nat 1)
      have : (drift ∘ fun n => drift^[n] (lon * Real.pi / 180)) =
          (fun n => drift^[n] (lon * Real.pi / 180)) ∘ fun n => n + 1 := by
        funext n
        exact (Function.iterate_succ_apply' drift n _).symm
      rw [this] at t1
      exact tendsto_nhds_unique t1 t2
    rcases hL0.lt_or_eq with h | h
    · have := (drift_lt h hL1).2
      rw [hfix] at this
      exact absurd this (lt_irrefl _)
    · exact h.symm
  refine ⟨?_, ?_, ?_⟩
  · rw [C57_equator]
    simp only [Matrix.cons_val_one, Matrix.cons_val_fin_one]
    have := drift_lt hr0 hr1
    unfold drift at this
    unfold sind
    constructor
    · rw [div_lt_iff₀ hpi]
      have := this.2
      rw [lt_div_iff₀ (by norm_num)] at this
      exact this
    · exact div_nonneg (mul_nonneg this.1 (by norm_num)) hpi.le
  · have h2 : (fun n => ((roundTrip ![0, 0])^[n] ![0, lon]) 1) =
        fun n => drift^[n] (lon * Real.pi / 180) * 180 / Real.pi := by
      funext n
      rw [hit n]
      rfl
    rw [h2]
    have := (hlim.mul_const 180).div_const Real.pi
    rw [hL] at this
    simpa using this
  · rw [C57_equator]
    have : sind 90 = 1 := by
      unfold sind
      rw [show (90 : ℝ) * Real.pi / 180 = Real.pi / 2 from by ring]
      exact Real.sin_pi_div_two
    rw [this, Real.arctan_one]
    congr 2
    field_simp
    norm_num

/-- C57, what holds: the origin itself, if on the equator, stays where it is. -/
theorem C57_origin (lon : ℝ) (h0 : -180 < lon) (h1 : lon ≤ 180) :
    roundTrip ![0, lon] ![0, lon] = ![0, lon] := by
  have hea : (0 : ℝ) < ea := by unfold ea; norm_num
  have hz : (![(0 : Fin 2 → ℝ) 0, (0 : Fin 2 → ℝ) 1, 0] : Fin 3 → ℝ) = 0 := by
    ext i
    fin_cases i <;> rfl
  have hb : ecef2ll (ll2ecef ![0, lon]) = ![0, lon] := by
    have hlon := (C50_longitude 0 lon 0 (by norm_num) (by norm_num) h0 h1
      (by linarith [nrad_pos 0])).2
    have hlat : ecef2ll (ll2ecef ![0, lon]) 0 = 0 := by
      rw [ll2ecef_equator]
      apply equator_lat _ rfl
      simp only [Matrix.cons_val_zero, Matrix.cons_val_one]
      have := sq_sind_cosd lon
      have e : ea * cosd lon * (ea * cosd lon) + ea * sind lon * (ea * sind lon) = ea * ea := by
        linear_combination ea * ea * this
      rw [e]
      exact mul_pos hea hea
    ext i
    fin_cases i
    · exact hlat
    · exact hlon
  unfold roundTrip ne2ll ne2ecef
  rw [(C49_ne ![0, lon] ![0, lon] ![0, lon]).2.1, hz, Matrix.mulVec_zero, add_zero, hb, hb]

example := C57_refuted 1 (by norm_num) (by norm_num)
example := C57_origin (-74) (by norm_num) (by norm_num)

end Verif.CF

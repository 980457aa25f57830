import Mathlib.Topology.Order.IntermediateValue
import Verif.CF.Altitude

/-!
# Property C100: every point outside the ellipsoid has geodetic coordinates

So the other round trip, `lla2ecef (ecef2lla ·)`, returns every such point as well.
-/

namespace Verif.CF

open Matrix

theorem e2_bounds : (0 : ℝ) < e2 ∧ (e2 : ℝ) ≤ 67 / 10 ^ 4 := by
  unfold e2; constructor <;> norm_num

theorem ea_pos : (0 : ℝ) < ea := by unfold ea; norm_num

theorem gpos (φ : ℝ) : 0 < 1 - e2 * (Real.sin φ * Real.sin φ) := by
  have h1 : Real.sin φ * Real.sin φ ≤ 1 := by rw [← sq]; exact Real.sin_sq_le_one φ
  have := mul_le_mul e2_bounds.2 h1 (mul_self_nonneg _) (by norm_num)
  linarith

/-- The foot of the normal through a point in the first quadrant of a meridian plane. -/
theorem foot {w z : ℝ} (hw : 0 ≤ w) (hz : 0 ≤ z) :
    ∃ φ, 0 ≤ φ ∧ φ ≤ Real.pi / 2 ∧ w * Real.sin φ - z * Real.cos φ =
      e2 * (ea / Real.sqrt (1 - e2 * (Real.sin φ * Real.sin φ))) * Real.sin φ * Real.cos φ := by
  have hc : Continuous fun φ : ℝ => w * Real.sin φ - z * Real.cos φ -
      e2 * (ea / Real.sqrt (1 - e2 * (Real.sin φ * Real.sin φ))) * Real.sin φ * Real.cos φ := by
    have h1 : Continuous fun φ : ℝ => ea / Real.sqrt (1 - e2 * (Real.sin φ * Real.sin φ)) := by
      refine Continuous.div continuous_const ?_ fun φ => (Real.sqrt_pos.2 (gpos φ)).ne'
      exact Real.continuous_sqrt.comp (continuous_const.sub (continuous_const.mul
        (Real.continuous_sin.mul Real.continuous_sin)))
    exact ((continuous_const.mul Real.continuous_sin).sub (continuous_const.mul Real.continuous_cos)).sub
      (((continuous_const.mul h1).mul Real.continuous_sin).mul Real.continuous_cos)
  have hpi : (0 : ℝ) ≤ Real.pi / 2 := by linarith [Real.pi_pos]
  have h := intermediate_value_Icc hpi hc.continuousOn
  have h0 : (0 : ℝ) ∈ Set.Icc
      (w * Real.sin 0 - z * Real.cos 0 -
        e2 * (ea / Real.sqrt (1 - e2 * (Real.sin 0 * Real.sin 0))) * Real.sin 0 * Real.cos 0)
      (w * Real.sin (Real.pi / 2) - z * Real.cos (Real.pi / 2) -
        e2 * (ea / Real.sqrt (1 - e2 * (Real.sin (Real.pi / 2) * Real.sin (Real.pi / 2)))) *
          Real.sin (Real.pi / 2) * Real.cos (Real.pi / 2)) := by
    simp only [Real.sin_zero, Real.cos_zero, Real.sin_pi_div_two, Real.cos_pi_div_two]
    constructor <;> linarith
  obtain ⟨φ, ⟨h1, h2⟩, h3⟩ := h h0
  exact ⟨φ, h1, h2, by simp only at h3; linarith⟩

/-- The same, with the altitude. -/
theorem meridian {w z : ℝ} (hw : 0 ≤ w) (hz : 0 ≤ z)
    (ho : ea ^ 2 * (1 - e2) ≤ w ^ 2 * (1 - e2) + z ^ 2) :
    ∃ lat alt, 0 ≤ lat ∧ lat ≤ 90 ∧ 0 ≤ alt ∧ w = (nrad lat + alt) * cosd lat ∧
      z = (nrad lat * (1 - e2) + alt) * sind lat := by
  obtain ⟨φ, h0, h1, h⟩ := foot hw hz
  have hpi := Real.pi_pos
  have hd : φ * 180 / Real.pi * Real.pi / 180 = φ := by field_simp
  have hs : sind (φ * 180 / Real.pi) = Real.sin φ := by unfold sind; rw [hd]
  have hc : cosd (φ * 180 / Real.pi) = Real.cos φ := by unfold cosd; rw [hd]
  have hn : nrad (φ * 180 / Real.pi) = ea / Real.sqrt (1 - e2 * (Real.sin φ * Real.sin φ)) := by
    unfold nrad; rw [hs]
  have hS0 : 0 ≤ Real.sin φ := Real.sin_nonneg_of_nonneg_of_le_pi h0 (by linarith)
  have hC0 : 0 ≤ Real.cos φ := Real.cos_nonneg_of_mem_Icc ⟨by linarith, h1⟩
  have hSC := Real.sin_sq_add_cos_sq φ
  have hN0 : 0 < nrad (φ * 180 / Real.pi) := nrad_pos _
  have hNe : nrad (φ * 180 / Real.pi) ^ 2 * (1 - e2 * Real.sin φ ^ 2) = ea ^ 2 := by
    rw [hn, div_pow, Real.sq_sqrt (gpos φ).le, ← sq, div_mul_cancel₀]
    have := gpos φ
    rw [← sq] at this
    exact this.ne'
  rw [← hn] at h
  have he := e2_bounds
  refine ⟨φ * 180 / Real.pi, w * Real.cos φ + z * Real.sin φ -
    nrad (φ * 180 / Real.pi) * (1 - e2 * Real.sin φ ^ 2), by positivity, ?_, ?_, ?_, ?_⟩
  · rw [div_le_iff₀ hpi]; linarith
  · by_contra hneg
    push Not at hneg
    generalize nrad (φ * 180 / Real.pi) = N at *
    generalize Real.sin φ = S at *
    generalize Real.cos φ = C at *
    obtain ⟨a, ha⟩ : ∃ a, a = w * C + z * S - N * (1 - e2 * S ^ 2) := ⟨_, rfl⟩
    rw [← ha] at hneg
    have hwe : w = N * C + a * C := by
      rw [ha]
      linear_combination (-w) * hSC + S * h + e2 * N * C * S ^ 2 * 0
    have hze : z = N * (1 - e2) * S + a * S := by
      rw [ha]
      linear_combination (-z - e2 * N * S) * hSC + (-C) * h
    have hw1 : w ≤ N * C := by
      have := mul_nonneg (neg_pos.2 hneg).le hC0
      linarith
    have hz1 : z ≤ N * (1 - e2) * S := by
      have := mul_nonneg (neg_pos.2 hneg).le hS0
      linarith
    have hw2 : w ^ 2 ≤ (N * C) ^ 2 := pow_le_pow_left₀ hw hw1 2
    have hz2 : z ^ 2 ≤ (N * (1 - e2) * S) ^ 2 := pow_le_pow_left₀ hz hz1 2
    have hsum : (N * C) ^ 2 * (1 - e2) + (N * (1 - e2) * S) ^ 2 = ea ^ 2 * (1 - e2) := by
      linear_combination (1 - e2) * hNe + N ^ 2 * (1 - e2) * hSC
    have hw3 := mul_le_mul_of_nonneg_right hw2 (by linarith : (0 : ℝ) ≤ 1 - e2)
    have hweq : w ^ 2 = (N * C) ^ 2 := by
      have h1e : (0 : ℝ) < 1 - e2 := by linarith
      have : w ^ 2 * (1 - e2) = (N * C) ^ 2 * (1 - e2) := by linarith
      exact mul_right_cancel₀ h1e.ne' this
    have hzeq : z ^ 2 = (N * (1 - e2) * S) ^ 2 := by
      rw [hweq] at ho
      linarith
    have hk : 0 ≤ N * (1 - e2) := mul_nonneg hN0.le (by linarith)
    have hwq : w = N * C := (pow_left_inj₀ hw (mul_nonneg hN0.le hC0) two_ne_zero).1 hweq
    have hzq : z = N * (1 - e2) * S := (pow_left_inj₀ hz (mul_nonneg hk hS0) two_ne_zero).1 hzeq
    have haC : a * C = 0 := by linarith
    have haS : a * S = 0 := by linarith
    have : a ^ 2 = 0 := by linear_combination (-a ^ 2) * hSC + (a * C) * haC + (a * S) * haS
    have := pow_eq_zero_iff two_ne_zero |>.1 this
    linarith
  · rw [hc]
    linear_combination (-w) * hSC + Real.sin φ * h
  · rw [hs]
    linear_combination (-z - e2 * nrad (φ * 180 / Real.pi) * Real.sin φ) * hSC + (-Real.cos φ) * h

theorem sind_neg (a : ℝ) : sind (-a) = -sind a := by
  unfold sind; rw [neg_mul, neg_div, Real.sin_neg]

theorem cosd_neg (a : ℝ) : cosd (-a) = cosd a := by
  unfold cosd; rw [neg_mul, neg_div, Real.cos_neg]

theorem nrad_neg (a : ℝ) : nrad (-a) = nrad a := by
  unfold nrad; rw [sind_neg, neg_mul_neg]

/-- The longitude computed is right. -/
theorem polar (x y : ℝ) : ∃ w, w = Real.sqrt (x * x + y * y) ∧
    x = w * cosd (atan2 y x * 180 / Real.pi) ∧ y = w * sind (atan2 y x * 180 / Real.pi) := by
  have hpi := Real.pi_pos
  have hd : atan2 y x * 180 / Real.pi * Real.pi / 180 = atan2 y x := by field_simp
  have hw : ‖(⟨x, y⟩ : ℂ)‖ = Real.sqrt (x * x + y * y) := by
    rw [Complex.norm_def, Complex.normSq_mk]
  refine ⟨_, rfl, ?_, ?_⟩
  · unfold cosd
    rw [hd, ← hw]
    exact (Complex.norm_mul_cos_arg ⟨x, y⟩).symm
  · unfold sind
    rw [hd, ← hw]
    exact (Complex.norm_mul_sin_arg ⟨x, y⟩).symm

/-- C100: every point on or outside the ellipsoid is the image of geodetic coordinates, with the
longitude `ecef2lla` computes and a latitude and an altitude near the ones it computes. -/
theorem C100_onto (q : Fin 3 → ℝ)
    (ho : ea ^ 2 * (1 - e2) ≤ (q 0 ^ 2 + q 1 ^ 2) * (1 - e2) + q 2 ^ 2) :
    ∃ lat alt, -90 ≤ lat ∧ lat ≤ 90 ∧ 0 ≤ alt ∧ lla2ecef ![lat, ecef2lla q 1, alt] = q ∧
      |ecef2lla q 0 - lat| ≤ 2 / 10 ^ 10 ∧
      |ecef2lla q 2 - alt| ≤ 1 / 10 ^ 3 + alt / 10 ^ 15 := by
  have hex : ∃ lat alt, -90 ≤ lat ∧ lat ≤ 90 ∧ 0 ≤ alt ∧ lla2ecef ![lat, ecef2lla q 1, alt] = q := by
    have hl : ecef2lla q 1 = atan2 (q 1) (q 0) * 180 / Real.pi := rfl
    obtain ⟨w, hw, hx, hy⟩ := polar (q 0) (q 1)
    rw [← hl] at hx hy
    have hw0 : 0 ≤ w := hw ▸ Real.sqrt_nonneg _
    have hw2 : w ^ 2 = q 0 ^ 2 + q 1 ^ 2 := by
      rw [hw, Real.sq_sqrt (add_nonneg (mul_self_nonneg _) (mul_self_nonneg _))]; ring
    obtain ⟨lat, alt, h0, h1, h2, hwe, hze⟩ := meridian hw0 (abs_nonneg (q 2))
      (by rw [hw2, sq_abs]; exact ho)
    rcases le_or_gt 0 (q 2) with h | h
    · rw [abs_of_nonneg h] at hze
      refine ⟨lat, alt, by linarith, h1, h2, ?_⟩
      ext i
      fin_cases i
      · change (nrad lat + alt) * cosd lat * cosd (ecef2lla q 1) = q 0
        rw [← hwe, ← hx]
      · change (nrad lat + alt) * cosd lat * sind (ecef2lla q 1) = q 1
        rw [← hwe, ← hy]
      · exact hze.symm
    · rw [abs_of_neg h] at hze
      refine ⟨-lat, alt, by linarith, by linarith, h2, ?_⟩
      ext i
      fin_cases i
      · change (nrad (-lat) + alt) * cosd (-lat) * cosd (ecef2lla q 1) = q 0
        rw [nrad_neg, cosd_neg, ← hwe, ← hx]
      · change (nrad (-lat) + alt) * cosd (-lat) * sind (ecef2lla q 1) = q 1
        rw [nrad_neg, cosd_neg, ← hwe, ← hy]
      · change (nrad (-lat) * (1 - e2) + alt) * sind (-lat) = q 2
        rw [nrad_neg, sind_neg]
        linarith
  obtain ⟨lat, alt, h1, h2, h3, h4⟩ := hex
  have h := C100_position lat (ecef2lla q 1) alt h1 h2 (by linarith)
  rw [h4, abs_of_nonneg h3] at h
  exact ⟨lat, alt, h1, h2, h3, h4, h⟩

/-- How much the normal radius changes with the latitude. -/
theorem nrad_lip (a b : ℝ) : |nrad a - nrad b| ≤ 7 / 1000 * ea * |sind a - sind b| ∧
    ea ≤ nrad a ∧ nrad a ≤ 1004 / 1000 * ea := by
  have key : ∀ a : ℝ, ∃ N, nrad a = ea * N ∧ 0 < N ∧ N ^ 2 * (1 - e2 * sind a ^ 2) = 1 := by
    intro a
    have hg : 0 < 1 - e2 * (sind a * sind a) := gpos (a * Real.pi / 180)
    refine ⟨1 / Real.sqrt (1 - e2 * (sind a * sind a)), by unfold nrad; ring,
      one_div_pos.2 (Real.sqrt_pos.2 hg), ?_⟩
    have hg' : 1 - e2 * (sind a * sind a) ≠ 0 := hg.ne'
    rw [div_pow, Real.sq_sqrt hg.le, one_pow, one_div, sq, inv_mul_cancel₀ hg']
  obtain ⟨N, hN, hN0, hNe⟩ := key a
  obtain ⟨M, hM, hM0, hMe⟩ := key b
  have hSa : |sind a| ≤ 1 := Real.abs_sin_le_one _
  have hSb : |sind b| ≤ 1 := Real.abs_sin_le_one _
  obtain ⟨n1, n2⟩ := radius_bounds hN0 hSa hNe
  obtain ⟨m1, m2⟩ := radius_bounds hM0 hSb hMe
  have hea := ea_pos
  rw [hN, hM]
  refine ⟨?_, ?_, ?_⟩
  · rw [← mul_sub, abs_mul, abs_of_pos hea]
    have hNM : 0 < N + M := by linarith
    have e : (N - M) * (N + M) = e2 * ((sind a - sind b) * (sind a + sind b)) * (N * N * (M * M)) := by
      linear_combination (-N ^ 2) * hMe + M ^ 2 * hNe
    have aE : |(e2 : ℝ)| ≤ 67 / 10 ^ 4 := apos e2_bounds.1.le e2_bounds.2
    have aN : |N| ≤ 1004 / 1000 := apos hN0.le n2
    have aM : |M| ≤ 1004 / 1000 := apos hM0.le m2
    have := ab (ab aE (ab (le_refl |sind a - sind b|) (ad hSa hSb))) (ab (ab aN aN) (ab aM aM))
    rw [← e, abs_mul, abs_of_pos hNM] at this
    have h2 := mul_le_mul_of_nonneg_left (by linarith : 2 ≤ N + M) (abs_nonneg (N - M))
    have h3 := abs_nonneg (sind a - sind b)
    have h4 : |N - M| ≤ 7 / 1000 * |sind a - sind b| := by
      norm_num at this
      linarith
    have := mul_le_mul_of_nonneg_left h4 hea.le
    linarith
  · have := mul_le_mul_of_nonneg_left n1 hea.le
    linarith
  · have := mul_le_mul_of_nonneg_left n2 hea.le
    linarith

/-- A change of the latitude moves the point by the arc. -/
theorem lat_close {lat lat' δ : ℝ} (hδ : |lat' - lat| ≤ δ) :
    |sind lat' - sind lat| ≤ δ * (4 / 180) ∧ |cosd lat' - cosd lat| ≤ δ * (4 / 180) := by
  have hpi := Real.pi_pos
  have e : |lat' * Real.pi / 180 - lat * Real.pi / 180| ≤ δ * (4 / 180) := by
    rw [show lat' * Real.pi / 180 - lat * Real.pi / 180 = (lat' - lat) * (Real.pi / 180) from by ring]
    exact ab hδ (apos (by positivity) (by linarith [Real.pi_le_four]))
  exact ⟨(Real.abs_sin_sub_sin_le _ _).trans e, (Real.abs_cos_sub_cos_le _ _).trans e⟩

/-- The position moves little when the latitude and the altitude do. -/
theorem lla_close {lat lat' lon alt alt' δ A : ℝ} (hδ : |lat' - lat| ≤ δ) (hA : |alt' - alt| ≤ A)
    (i : Fin 3) :
    |lla2ecef ![lat', lon, alt'] i - lla2ecef ![lat, lon, alt] i| ≤
      A + δ * (4 / 180) * (102 / 100 * ea + |alt|) := by
  obtain ⟨hs, hc⟩ := lat_close hδ
  obtain ⟨d, hd⟩ : ∃ d, d = δ * (4 / 180) := ⟨_, rfl⟩
  rw [← hd] at hs hc ⊢
  have hd0 : 0 ≤ d := (abs_nonneg _).trans hs
  have hea := ea_pos
  obtain ⟨n1, n2, n3⟩ := nrad_lip lat' lat
  have m3 := (nrad_lip lat lat).2.2
  have hn : |nrad lat' - nrad lat| ≤ 7 / 1000 * ea * d :=
    n1.trans (mul_le_mul_of_nonneg_left hs (by positivity))
  have aN : |nrad lat| ≤ 1004 / 1000 * ea := apos (nrad_pos _).le m3
  have hS' : |sind lat'| ≤ 1 := Real.abs_sin_le_one _
  have hC' : |cosd lat'| ≤ 1 := Real.abs_cos_le_one _
  have key : ∀ {f f' k g : ℝ}, |f'| ≤ 1 → |f' - f| ≤ d → |k| ≤ 1 → |g| ≤ 1 →
      |(nrad lat' * k + alt') * f' * g - (nrad lat * k + alt) * f * g| ≤
        A + d * (102 / 100 * ea + |alt|) := by
    intro f f' k g h1 h2 h3 h4
    have e : (nrad lat' * k + alt') * f' * g - (nrad lat * k + alt) * f * g =
        (((nrad lat' - nrad lat) * k * f' + (alt' - alt) * f') + (nrad lat * k + alt) * (f' - f)) * g := by
      ring
    rw [e]
    have h5 := ab (ad (ad (ab (ab hn h3) h1) (ab hA h1)) (ab (ad (ab aN h3) (le_refl |alt|)) h2)) h4
    refine h5.trans ?_
    have := mul_nonneg hea.le hd0
    have := abs_nonneg alt
    linarith
  have one : |(1 : ℝ)| ≤ 1 := by norm_num
  have a1 : |(1 - e2 : ℝ)| ≤ 1 := apos (by linarith [e2_bounds.2]) (by linarith [e2_bounds.1])
  fin_cases i
  · have := key hC' hc one (Real.abs_cos_le_one (lon * Real.pi / 180))
    rw [mul_one, mul_one] at this
    exact this
  · have := key hC' hc one (Real.abs_sin_le_one (lon * Real.pi / 180))
    rw [mul_one, mul_one] at this
    exact this
  · have := key hS' hs a1 one
    rw [mul_one, mul_one] at this
    exact this

/-- C100: every point on or outside the ellipsoid comes back, within two millimetres and a part in
`10¹¹` of its distance from the centre. -/
theorem C100_back (q : Fin 3 → ℝ)
    (ho : ea ^ 2 * (1 - e2) ≤ (q 0 ^ 2 + q 1 ^ 2) * (1 - e2) + q 2 ^ 2) (i : Fin 3) :
    |lla2ecef (ecef2lla q) i - q i| ≤
      2 / 10 ^ 3 + Real.sqrt (q 0 ^ 2 + q 1 ^ 2 + q 2 ^ 2) / 10 ^ 11 := by
  obtain ⟨lat, alt, h1, h2, h3, h4, h5, h6⟩ := C100_onto q ho
  have hv : ecef2lla q = ![ecef2lla q 0, ecef2lla q 1, ecef2lla q 2] := by
    ext i; fin_cases i <;> rfl
  have h := lla_close (lon := ecef2lla q 1) h5 h6 i
  rw [h4, ← hv, abs_of_nonneg h3] at h
  refine h.trans ?_
  have hr : alt ≤ Real.sqrt (q 0 ^ 2 + q 1 ^ 2 + q 2 ^ 2) := by
    apply Real.le_sqrt_of_sq_le
    have e0 : q 0 = (nrad lat + alt) * cosd lat * cosd (ecef2lla q 1) := congrFun h4.symm 0
    have e1 : q 1 = (nrad lat + alt) * cosd lat * sind (ecef2lla q 1) := congrFun h4.symm 1
    have e3 : q 2 = (nrad lat * (1 - e2) + alt) * sind lat := congrFun h4.symm 2
    have hl := sq_sind_cosd (ecef2lla q 1)
    have hp := sq_sind_cosd lat
    have e : q 0 ^ 2 + q 1 ^ 2 + q 2 ^ 2 = ((nrad lat + alt) * cosd lat) ^ 2 +
        ((nrad lat * (1 - e2) + alt) * sind lat) ^ 2 := by
      rw [e3, e0, e1]
      linear_combination ((nrad lat + alt) * cosd lat) ^ 2 * hl
    rw [e, mul_pow, mul_pow]
    have hn := (nrad_pos lat).le
    have a1 : alt ^ 2 ≤ (nrad lat + alt) ^ 2 := pow_le_pow_left₀ h3 (by linarith) 2
    have a2 : alt ^ 2 ≤ (nrad lat * (1 - e2) + alt) ^ 2 :=
      pow_le_pow_left₀ h3 (by linarith [mul_nonneg hn (by linarith [e2_bounds.2] : (0 : ℝ) ≤ 1 - e2)]) 2
    have b1 := mul_le_mul_of_nonneg_right a1 (sq_nonneg (cosd lat))
    have b2 := mul_le_mul_of_nonneg_right a2 (sq_nonneg (sind lat))
    have : alt ^ 2 = alt ^ 2 * cosd lat ^ 2 + alt ^ 2 * sind lat ^ 2 := by
      linear_combination (-alt ^ 2) * hp
    linarith
  have hea : (ea : ℝ) = 6378137 := by unfold ea; norm_num
  rw [hea]
  linarith

/-- A satellite. -/
example (i : Fin 3) := C100_back ![7000000, 20000000, 15000000] (by
  have := e2_bounds
  unfold ea
  simp
  linarith) i

/-- C100: positions come back from local frames, with the longitude exact away from the poles. -/
theorem C100_local (lat lon alt : ℝ) (o : Fin 3 → ℝ) (h1 : -90 < lat) (h2 : lat < 90)
    (h3 : -180 < lon) (h4 : lon ≤ 180) (ha : -20000 ≤ alt) :
    |ned2lla (lla2ned ![lat, lon, alt] o) o 0 - lat| ≤ 2 / 10 ^ 10 ∧
    ned2lla (lla2ned ![lat, lon, alt] o) o 1 = lon ∧
    |ned2lla (lla2ned ![lat, lon, alt] o) o 2 - alt| ≤ 1 / 10 ^ 3 + |alt| / 10 ^ 15 := by
  have e : ned2lla (lla2ned ![lat, lon, alt] o) o = ecef2lla (lla2ecef ![lat, lon, alt]) := by
    unfold ned2lla lla2ned
    rw [(C49_inverse (lla2ecef ![lat, lon, alt]) 0 o).1]
  rw [e]
  have h := C100_position lat lon alt h1.le h2.le ha
  refine ⟨h.1, (C50_longitude lat lon alt h1 h2 h3 h4 ?_).1, h.2⟩
  have := (nrad_lip lat lat).2.1
  have hea : (ea : ℝ) = 6378137 := by unfold ea; norm_num
  rw [hea] at this
  linarith

/-- The values of the project's test of this pair, `tests/test_cf.cpp:36-42`. -/
example := C100_local 58.398566 15.577402 100 ![58.3887657, 15.6965082, 80] (by norm_num) (by norm_num)
  (by norm_num) (by norm_num) (by norm_num)

end Verif.CF

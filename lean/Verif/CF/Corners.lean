import Verif.BBox.Gauss
import Verif.CF.Boxes
import Verif.CF.Drift

/-!
# Property C102: latitudes of the corners of index boxes

With the geometry of C100 and C101 the latitudes of `llaabbox` (`include/bbox.hpp:91-96`) are known
as well as its longitudes (C81).
-/

namespace Verif.CF

open Verif.BBox Matrix

/-- How much further from the axis of the earth the point `n` metres north and `e` metres east of
the latitude `φ` on the tangent plane is than the point `n` metres north. -/
noncomputable def bulge (φ n e : ℝ) : ℝ := Real.sqrt (axisDist φ n ^ 2 + e ^ 2) - axisDist φ n

theorem upv_plane (φ l n e : ℝ) : upv φ l ⬝ᵥ ((nedrot φ l)ᵀ *ᵥ ![n, e, 0]) = 0 ∧
    len ((nedrot φ l)ᵀ *ᵥ ![n, e, 0]) ^ 2 = n ^ 2 + e ^ 2 := by
  have h1 := sq_sind_cosd φ
  have h2 := sq_sind_cosd l
  rw [len_sq]
  constructor <;>
    simp [nedrot, upv, mulVec, dotProduct, Fin.sum_univ_three, Matrix.vecHead, Matrix.vecTail] <;>
    generalize sind φ = a at * <;> generalize cosd φ = b at * <;>
    generalize sind l = c at * <;> generalize cosd l = d at *
  · linear_combination (- a * b * n) * h2
  · linear_combination n ^ 2 * h1 + (n ^ 2 * a ^ 2 + e ^ 2) * h2

/-- The latitude of a point of the tangent plane, and how high it is. -/
theorem plane_lat {φ l n e : ℝ} (D : ℝ) (hD0 : 0 ≤ D) (hD : n ^ 2 + e ^ 2 ≤ D ^ 2) :
    ∃ lat lon alt, -90 ≤ lat ∧ lat ≤ 90 ∧ 0 ≤ alt ∧ alt ≤ D ∧
      lla2ecef ![lat, lon, alt] = ll2ecef ![φ, l] + (nedrot φ l)ᵀ *ᵥ ![n, e, 0] ∧
      len (upv lat lon - upv φ l) * ((1 - e2) * ea) ≤ D ∧
      |ecef2ll (ll2ecef ![φ, l] + (nedrot φ l)ᵀ *ᵥ ![n, e, 0]) 0 - lat| ≤ 2 / 10 ^ 10 := by
  obtain ⟨v, hv⟩ : ∃ v, v = (nedrot φ l)ᵀ *ᵥ ![n, e, 0] := ⟨_, rfl⟩
  obtain ⟨q, hq⟩ : ∃ q, q = ll2ecef ![φ, l] + v := ⟨_, rfl⟩
  obtain ⟨hz, hl⟩ := upv_plane φ l n e
  rw [← hv] at hz hl
  have hlen : len v ≤ D := by
    refine (pow_le_pow_iff_left₀ (len_nonneg v) hD0 two_ne_zero).1 ?_
    rw [hl]; exact hD
  have hout : ea ^ 2 * (1 - e2) ≤ (q 0 ^ 2 + q 1 ^ 2) * (1 - e2) + q 2 ^ 2 := by
    have h := quad_add φ l v
    rw [← hq, hz, mul_zero, add_zero] at h
    have := quad_nonneg v
    unfold quad at h this
    linarith
  obtain ⟨lat, alt, h1, h2, h3, h4, h5, -⟩ := C100_onto q hout
  refine ⟨lat, ecef2lla q 1, alt, h1, h2, h3, ?_, ?_, ?_, ?_⟩
  · -- the foot is below the tangent plane
    have hd := depth_nonneg ![lat, ecef2lla q 1] ![φ, l]
    have hs := lla_split lat (ecef2lla q 1) alt
    have hc := dot_le_len v (upv lat (ecef2lla q 1))
    have hu : len (upv lat (ecef2lla q 1)) = 1 := by
      unfold len; rw [upv_unit, Real.sqrt_one]
    have e : v = (ll2ecef ![lat, ecef2lla q 1] - ll2ecef ![φ, l]) + alt • upv lat (ecef2lla q 1) := by
      rw [h4] at hs
      rw [show ll2ecef ![lat, ecef2lla q 1] - ll2ecef ![φ, l] + alt • upv lat (ecef2lla q 1) =
        ll2ecef ![lat, ecef2lla q 1] + alt • upv lat (ecef2lla q 1) - ll2ecef ![φ, l] from by abel, ← hs, hq]
      abel
    have e' : v ⬝ᵥ upv lat (ecef2lla q 1) =
        -(upv lat (ecef2lla q 1) ⬝ᵥ (ll2ecef ![φ, l] - ll2ecef ![lat, ecef2lla q 1]))
          + alt * (upv lat (ecef2lla q 1) ⬝ᵥ upv lat (ecef2lla q 1)) * 1 := by
      conv_lhs => rw [e]
      simp only [dot3, Pi.add_apply, Pi.sub_apply, Pi.smul_apply, smul_eq_mul]
      ring
    rw [upv_unit] at e'
    simp only [Matrix.cons_val_zero, Matrix.cons_val_one] at hd
    rw [hu] at hc
    linarith
  · rw [h4, hq, hv]
  · refine (upv_lip ![lat, ecef2lla q 1] ![φ, l]).trans ?_
    have h := nonexpansive ![lat, ecef2lla q 1] ![φ, l] h3 (le_refl (0 : ℝ))
    have e1 : ll2ecef ![lat, ecef2lla q 1] + alt • upv (![lat, ecef2lla q 1] 0) (![lat, ecef2lla q 1] 1) =
        q := (lla_split lat (ecef2lla q 1) alt).symm.trans h4
    rw [e1, zero_smul, add_zero] at h
    refine h.trans ?_
    rwa [hq, add_sub_cancel_left]
  · rw [← hv, ← hq]; exact h5

theorem cosd_nonneg {a : ℝ} (h1 : -90 ≤ a) (h2 : a ≤ 90) : 0 ≤ cosd a := by
  have hpi := Real.pi_pos
  refine Real.cos_nonneg_of_mem_Icc ⟨?_, ?_⟩
  · have := mul_le_mul_of_nonneg_right h1 hpi.le
    linarith
  · have := mul_le_mul_of_nonneg_right h2 hpi.le
    linarith

theorem half_angle (a b : ℝ) :
    (2 * Real.sin ((a - b) * Real.pi / 180 / 2)) ^ 2 = 2 - 2 * (cosd a * cosd b + sind a * sind b) ∧
    2 * Real.sin ((a - b) * Real.pi / 180 / 2) * Real.cos ((a - b) * Real.pi / 180 / 2) =
      sind a * cosd b - cosd a * sind b := by
  have h := Real.cos_sub (a * Real.pi / 180) (b * Real.pi / 180)
  have h' := Real.sin_sub (a * Real.pi / 180) (b * Real.pi / 180)
  have e : a * Real.pi / 180 - b * Real.pi / 180 = 2 * ((a - b) * Real.pi / 180 / 2) := by ring
  rw [e, Real.cos_two_mul] at h
  rw [e, Real.sin_two_mul] at h'
  have h2 := Real.sin_sq_add_cos_sq ((a - b) * Real.pi / 180 / 2)
  unfold sind cosd
  constructor
  · rw [← h]
    linear_combination 4 * h2
  · exact h'

/-- Latitudes near each other, from normals near each other. -/
theorem lat_near {lat lon φ l : ℝ} (h1 : -90 ≤ lat) (h2 : lat ≤ 90) (h3 : |φ| ≤ 90) :
    |2 * Real.sin ((lat - φ) * Real.pi / 180 / 2)| ≤ len (upv lat lon - upv φ l) := by
  have hc1 := cosd_nonneg h1 h2
  have hc2 := cosd_nonneg (abs_le.1 h3).1 (abs_le.1 h3).2
  refine abs_le_of_sq_le_sq ?_ (len_nonneg _)
  rw [len_sq]
  rw [(half_angle lat φ).1]
  have h4 := upv_unit lat lon
  have h5 := upv_unit φ l
  have e2 : (upv lat lon - upv φ l) ⬝ᵥ (upv lat lon - upv φ l) =
      2 - 2 * (upv lat lon ⬝ᵥ upv φ l) := by
    rw [sub_dotProduct, dotProduct_sub, dotProduct_sub, h4, h5, dotProduct_comm (upv φ l)]
    ring
  rw [e2]
  have e3 : upv lat lon ⬝ᵥ upv φ l = cosd lat * cosd φ * (cosd lon * cosd l + sind lon * sind l) +
      sind lat * sind φ := by
    rw [dot3]
    change cosd lat * cosd lon * (cosd φ * cosd l) + cosd lat * sind lon * (cosd φ * sind l) +
      sind lat * sind φ = _
    ring
  have e4 : cosd lon * cosd l + sind lon * sind l ≤ 1 := by
    have := sq_sind_cosd lon
    have := sq_sind_cosd l
    nlinarith [sq_nonneg (cosd lon - cosd l), sq_nonneg (sind lon - sind l)]
  have := mul_le_mul_of_nonneg_left e4 (mul_nonneg hc1 hc2)
  rw [e3]
  linarith

/-- How far north of the parallel of `φ` a point at another latitude is, measured along the tangent
plane in the meridian of the point. -/
theorem north_part {ψ φ alt : ℝ} (h1 : -90 ≤ ψ) (h2 : ψ ≤ 90) (h3 : |φ| ≤ 90) :
    |-sind φ * ((nrad ψ + alt) * cosd ψ - nrad φ * cosd φ) +
        cosd φ * ((nrad ψ * (1 - e2) + alt) * sind ψ - nrad φ * (1 - e2) * sind φ) -
      (nrad ψ + alt) * (2 * Real.sin ((ψ - φ) * Real.pi / 180 / 2) *
        Real.cos ((ψ - φ) * Real.pi / 180 / 2))| ≤
      68 / 10 ^ 4 * ea * |2 * Real.sin ((ψ - φ) * Real.pi / 180 / 2)| := by
  obtain ⟨ha, hb⟩ := half_angle ψ φ
  rw [hb]
  obtain ⟨n1, n2, n3⟩ := nrad_lip ψ φ
  have he := e2_bounds
  have hea := ea_pos
  have e : -sind φ * ((nrad ψ + alt) * cosd ψ - nrad φ * cosd φ) +
        cosd φ * ((nrad ψ * (1 - e2) + alt) * sind ψ - nrad φ * (1 - e2) * sind φ) -
      (nrad ψ + alt) * (sind ψ * cosd φ - cosd ψ * sind φ) =
      -(e2 * (cosd φ * (nrad ψ * (sind ψ - sind φ) + (nrad ψ - nrad φ) * sind φ))) := by ring
  rw [e, abs_neg, abs_mul, abs_of_pos he.1, abs_mul]
  obtain ⟨H, hH⟩ : ∃ H, H = 2 * Real.sin ((ψ - φ) * Real.pi / 180 / 2) := ⟨_, rfl⟩
  rw [← hH] at ha ⊢
  have hs : |sind ψ - sind φ| ≤ |H| := by
    refine sq_le_sq.1 ?_
    rw [ha]
    have := sq_sind_cosd ψ
    have := sq_sind_cosd φ
    linarith [sq_nonneg (cosd ψ - cosd φ)]
  have k1 : |nrad ψ * (sind ψ - sind φ)| ≤ 1004 / 1000 * ea * |H| := by
    rw [abs_mul, abs_of_pos (nrad_pos ψ)]
    exact mul_le_mul n3 hs (abs_nonneg _) (by positivity)
  have k2 : |(nrad ψ - nrad φ) * sind φ| ≤ 7 / 1000 * ea * |H| := by
    rw [abs_mul]
    have := mul_le_mul (n1.trans (mul_le_mul_of_nonneg_left hs (by positivity))) (abs_sind_le φ)
      (abs_nonneg _) (by positivity)
    linarith
  have k3 := abs_add_le (nrad ψ * (sind ψ - sind φ)) ((nrad ψ - nrad φ) * sind φ)
  have k4 := mul_le_mul (abs_cosd_le φ) (k3.trans (add_le_add k1 k2)) (abs_nonneg _) zero_le_one
  have k5 := mul_le_mul he.2 k4 (by positivity) (by norm_num)
  refine k5.trans ?_
  have := mul_nonneg hea.le (abs_nonneg H)
  linarith

/-- Angles of at most a few degrees and twice the sine of their halves. -/
theorem small_angle {x : ℝ} (h1 : -Real.pi ≤ x) (h2 : x ≤ Real.pi)
    (h : |2 * Real.sin (x / 2)| ≤ 225 / 10 ^ 4) :
    |x - 2 * Real.sin (x / 2)| ≤ 1 / 10 ^ 4 * |2 * Real.sin (x / 2)| ∧
    9998 / 10 ^ 4 ≤ Real.cos (x / 2) := by
  have hpi := Real.pi_pos
  have hc : 0 ≤ Real.cos (x / 2) := Real.cos_nonneg_of_mem_Icc ⟨by linarith, by linarith⟩
  constructor
  · have pos : ∀ y, 0 ≤ y → y ≤ Real.pi → |2 * Real.sin (y / 2)| ≤ 225 / 10 ^ 4 →
        |y - 2 * Real.sin (y / 2)| ≤ 1 / 10 ^ 4 * |2 * Real.sin (y / 2)| := by
      intro y h0 hy hh
      have hj := Real.mul_le_sin (x := y / 2) (by linarith) (by linarith)
      have hs0 : 0 ≤ Real.sin (y / 2) := Real.sin_nonneg_of_nonneg_of_le_pi (by linarith) (by linarith)
      have hle := Real.sin_le (x := y / 2) (by linarith)
      rw [abs_of_nonneg (by linarith)] at hh ⊢
      rw [abs_of_nonneg (by linarith)]
      have hp4 := Real.pi_lt_four
      have hy2 : y / 2 ≤ 225 / 10 ^ 4 := by
        have : y / 2 = Real.pi / 2 * (2 / Real.pi * (y / 2)) := by field_simp
        rw [this]
        have := mul_le_mul (show Real.pi / 2 ≤ 2 by linarith) hj
          (mul_nonneg (by positivity) (by linarith)) (by norm_num)
        linarith
      rcases h0.lt_or_eq with h | h
      · have h3 := Real.sin_gt_sub_cube (x := y / 2) (by linarith)
        have h4 : (y / 2) ^ 3 ≤ (225 / 10 ^ 4) ^ 2 * (y / 2) := by
          rw [pow_succ]
          exact mul_le_mul_of_nonneg_right (pow_le_pow_left₀ (by linarith) hy2 2) (by linarith)
        norm_num at h4 ⊢
        linarith
      · rw [← h]; simp
    rcases le_total 0 x with h0 | h0
    · exact pos x h0 h2 h
    · have := pos (-x) (by linarith) (by linarith) (by
        rw [neg_div, Real.sin_neg, mul_neg, abs_neg]; exact h)
      rw [neg_div, Real.sin_neg, mul_neg, abs_neg, ← abs_neg] at this
      rwa [show -(-x - -(2 * Real.sin (x / 2))) = x - 2 * Real.sin (x / 2) from by ring] at this
  · have h3 := Real.sin_sq_add_cos_sq (x / 2)
    have h4 := sq_le_sq' (abs_le.1 h).1 (abs_le.1 h).2
    by_contra hn
    have h5 := pow_le_pow_left₀ hc (not_le.1 hn).le 2
    norm_num at h4 h5
    linarith

/-- The coordinates of a point of the tangent plane in its meridian. -/
theorem plane_meridian {φ l n e lat lon alt : ℝ} (h1 : -90 ≤ lat) (h2 : lat ≤ 90) (h3 : 0 ≤ alt)
    (h : lla2ecef ![lat, lon, alt] = ll2ecef ![φ, l] + (nedrot φ l)ᵀ *ᵥ ![n, e, 0]) :
    -sind φ * ((nrad lat + alt) * cosd lat - nrad φ * cosd φ) +
        cosd φ * ((nrad lat * (1 - e2) + alt) * sind lat - nrad φ * (1 - e2) * sind φ) =
      n - sind φ * bulge φ n e := by
  rw [nePoint] at h
  have hx : (nrad lat + alt) * cosd lat * cosd lon = axisDist φ n * cosd l - e * sind l := congrFun h 0
  have hy : (nrad lat + alt) * cosd lat * sind lon = axisDist φ n * sind l + e * cosd l := congrFun h 1
  have hz : (nrad lat * (1 - e2) + alt) * sind lat = nrad φ * (1 - e2) * sind φ + n * cosd φ :=
    congrFun h 2
  have hw : (nrad lat + alt) * cosd lat = Real.sqrt (axisDist φ n ^ 2 + e ^ 2) := by
    have h0 : 0 ≤ (nrad lat + alt) * cosd lat :=
      mul_nonneg (by linarith [nrad_pos lat]) (cosd_nonneg h1 h2)
    rw [← Real.sqrt_sq h0]
    congr 1
    have t1 := sq_sind_cosd lon
    have t2 := sq_sind_cosd l
    have t3 := congrArg (· ^ 2) hx
    have t4 := congrArg (· ^ 2) hy
    linear_combination t3 + t4 - ((nrad lat + alt) * cosd lat) ^ 2 * t1 +
      (axisDist φ n ^ 2 + e ^ 2) * t2
  have hs := sq_sind_cosd φ
  rw [hz, hw]
  unfold bulge
  have ha : axisDist φ n = nrad φ * cosd φ - n * sind φ := rfl
  linear_combination n * hs - sind φ * ha

/-- C102: the latitude of a point of a tangent plane.  `n` metres north and `e` metres east of a
place at latitude `φ` is `n` metres north of it, less what the distance to the axis grows by going
east, seen from the slope of the plane: the parallel through the place bends away from the plane. -/
theorem C102_latitude {φ l n e : ℝ} (h : |φ| ≤ 80) (hn : |n| ≤ 100000) (he : |e| ≤ 100000) :
    |(ne2ll ![n, e] ![φ, l] 0 - φ) * Real.pi / 180 * ea - (n - sind φ * bulge φ n e)| ≤
      |n - sind φ * bulge φ n e| / 25 + 1 / 10 ^ 4 := by
  have hpi := Real.pi_pos
  have hp4 := Real.pi_lt_four
  have hee := e2_bounds
  have hea := ea_pos
  have hea' : (ea : ℝ) = 6378137 := by unfold ea; norm_num
  have hD : n ^ 2 + e ^ 2 ≤ 141422 ^ 2 := by
    have h1 := sq_le_sq' (abs_le.1 hn).1 (abs_le.1 hn).2
    have h2 := sq_le_sq' (abs_le.1 he).1 (abs_le.1 he).2
    norm_num at h1 h2 ⊢
    linarith
  obtain ⟨lat, lon, alt, h1, h2, h3, h4, h5, h6, h7⟩ := plane_lat (φ := φ) (l := l) 141422
    (by norm_num) hD
  have hφ : |φ| ≤ 90 := h.trans (by norm_num)
  have hH : |2 * Real.sin ((lat - φ) * Real.pi / 180 / 2)| ≤ 225 / 10 ^ 4 := by
    refine (lat_near (lon := lon) (l := l) h1 h2 hφ).trans ?_
    by_contra hx
    have := mul_lt_mul_of_pos_right (not_le.1 hx) (show 0 < (1 - e2) * ea from mul_pos (by linarith) hea)
    have hk : (6335000 : ℝ) ≤ (1 - e2) * ea := by unfold ea e2; norm_num
    linarith
  have hx1 : -Real.pi ≤ (lat - φ) * Real.pi / 180 := by
    have := mul_le_mul_of_nonneg_right (show -180 ≤ lat - φ by linarith [(abs_le.1 hφ).2]) hpi.le
    linarith
  have hx2 : (lat - φ) * Real.pi / 180 ≤ Real.pi := by
    have := mul_le_mul_of_nonneg_right (show lat - φ ≤ 180 by linarith [(abs_le.1 hφ).1]) hpi.le
    linarith
  obtain ⟨hs, hc⟩ := small_angle hx1 hx2 hH
  have hnp := north_part (alt := alt) h1 h2 hφ
  rw [plane_meridian h1 h2 h3 h5] at hnp
  -- the latitude is away from the poles
  have hsmall : |(lat - φ) * Real.pi / 180| ≤ 3 / 100 := by
    have := abs_sub_abs_le_abs_sub ((lat - φ) * Real.pi / 180)
      (2 * Real.sin ((lat - φ) * Real.pi / 180 / 2))
    linarith
  have hdeg : |lat - φ| ≤ 2 := by
    rw [abs_div, abs_mul, abs_of_pos hpi, abs_of_pos (by norm_num : (0 : ℝ) < 180)] at hsmall
    by_contra hx
    have := mul_lt_mul_of_pos_right (not_le.1 hx) hpi
    have := Real.pi_gt_three
    linarith
  -- the second conversion
  have hne : |ne2ll ![n, e] ![φ, l] 0 - lat| ≤ 4 / 10 ^ 10 := by
    obtain ⟨q, hq⟩ : ∃ q, q = ll2ecef ![φ, l] + (nedrot φ l)ᵀ *ᵥ ![n, e, 0] := ⟨_, rfl⟩
    rw [← hq] at h7
    have hne : ne2ll ![n, e] ![φ, l] = ecef2ll (ll2ecef (ecef2ll q)) := by rw [hq]; rfl
    obtain ⟨a1, a2⟩ := abs_le.1 h7
    obtain ⟨a3, a4⟩ := abs_le.1 hdeg
    obtain ⟨a5, a6⟩ := abs_le.1 h
    norm_num at a1 a2
    have hC := (C100_position (ecef2ll q 0) (ecef2ll q 1) 0 (by linarith) (by linarith) (by norm_num)).1
    rw [(C50_agree _ _ 0).1, ll_eta] at hC
    have e0 : ecef2ll (ll2ecef (ecef2ll q)) 0 = ecef2lla (ll2ecef (ecef2ll q)) 0 := rfl
    rw [hne, e0]
    have := abs_sub_le (ecef2lla (ll2ecef (ecef2ll q)) 0) (ecef2ll q 0) lat
    norm_num at this hC h7 ⊢
    linarith
  obtain ⟨ν, hν⟩ : ∃ ν, ν = n - sind φ * bulge φ n e := ⟨_, rfl⟩
  obtain ⟨δ, hδ⟩ : ∃ δ, δ = (lat - φ) * Real.pi / 180 := ⟨_, rfl⟩
  rw [← hν, ← hδ] at hnp
  rw [← hδ] at hs hc hH
  rw [← hν]
  obtain ⟨H, hHe⟩ : ∃ H, H = 2 * Real.sin (δ / 2) := ⟨_, rfl⟩
  rw [← hHe] at hs hH hnp
  obtain ⟨c, hce⟩ : ∃ c, c = Real.cos (δ / 2) := ⟨_, rfl⟩
  rw [← hce] at hc hnp
  have hc1 : c ≤ 1 := hce ▸ Real.cos_le_one _
  obtain ⟨-, n2, n3⟩ := nrad_lip lat lat
  have hk1 : 9998 / 10 ^ 4 * ea ≤ (nrad lat + alt) * c := by
    have := mul_le_mul (show ea ≤ nrad lat + alt by linarith) hc (by norm_num) (by linarith)
    linarith
  have hk2 : (nrad lat + alt) * c ≤ 10263 / 10 ^ 4 * ea := by
    have := mul_le_mul_of_nonneg_left hc1 (show 0 ≤ nrad lat + alt by linarith)
    rw [hea'] at n3 ⊢
    norm_num at n3 ⊢
    linarith
  obtain ⟨K, hK⟩ : ∃ K, K = (nrad lat + alt) * c := ⟨_, rfl⟩
  rw [← hK] at hk1 hk2
  have hnp' : |ν - K * H| ≤ 68 / 10 ^ 4 * ea * |H| := by
    rw [hK, mul_assoc, mul_comm c H]; exact hnp
  have hH0 := mul_nonneg hea.le (abs_nonneg H)
  have b1 : 99 / 100 * (ea * |H|) ≤ |ν| := by
    have t1 := abs_sub_abs_le_abs_sub (K * H) ν
    rw [abs_sub_comm] at t1
    have t2 : 9998 / 10 ^ 4 * ea * |H| ≤ |K * H| := by
      rw [abs_mul, abs_of_nonneg (show 0 ≤ K by linarith)]
      exact mul_le_mul_of_nonneg_right hk1 (abs_nonneg _)
    norm_num at *
    linarith
  have b2 : |δ * ea - ν| ≤ 333 / 10 ^ 4 * (ea * |H|) := by
    have t : δ * ea - ν = ea * (δ - H) + ((ea - K) * H + -(ν - K * H)) := by ring
    have t1 : |ea * (δ - H)| ≤ 1 / 10 ^ 4 * (ea * |H|) := by
      rw [abs_mul, abs_of_pos hea]
      have := mul_le_mul_of_nonneg_left hs hea.le
      linarith
    have t2 : |(ea - K) * H| ≤ 264 / 10 ^ 4 * (ea * |H|) := by
      rw [abs_mul]
      have : |ea - K| ≤ 264 / 10 ^ 4 * ea := by
        rw [abs_le]
        constructor <;> linarith
      have := mul_le_mul_of_nonneg_right this (abs_nonneg H)
      linarith
    rw [t]
    refine (abs_add_le _ _).trans ((add_le_add le_rfl (abs_add_le _ _)).trans ?_)
    rw [abs_neg]
    norm_num at *
    linarith
  have b3 : |(ne2ll ![n, e] ![φ, l] 0 - lat) * Real.pi / 180 * ea| ≤ 1 / 10 ^ 4 := by
    rw [abs_mul, abs_div, abs_mul, abs_of_pos hpi, abs_of_pos hea, abs_of_pos (by norm_num : (0 : ℝ) < 180)]
    have := mul_le_mul hne (show Real.pi ≤ 3.15 by linarith [Real.pi_lt_d2]) hpi.le (by norm_num)
    have := mul_le_mul_of_nonneg_right (div_le_div_of_nonneg_right this (show (0 : ℝ) ≤ 180 by norm_num))
      hea.le
    refine this.trans ?_
    rw [hea']
    norm_num
  have e : (ne2ll ![n, e] ![φ, l] 0 - φ) * Real.pi / 180 * ea - ν =
      (δ * ea - ν) + (ne2ll ![n, e] ![φ, l] 0 - lat) * Real.pi / 180 * ea := by rw [hδ]; ring
  rw [e]
  refine (abs_add_le _ _).trans ?_
  linarith

/-- Ten kilometres north-east of Linköping. -/
example := C102_latitude (φ := 58.4) (l := 15.6) (n := 10000) (e := 10000)
  (by rw [abs_le]; norm_num) (by norm_num) (by norm_num)

/-! ## How much the parallel bends -/

theorem bulge_bounds {φ n e : ℝ} (h : |φ| ≤ 75) (hn : |n| ≤ 100000) (he : |e| ≤ 100000) :
    e ^ 2 / 13100000 ≤ bulge φ n e ∧ bulge φ n e ≤ e ^ 2 / 1920000 := by
  have hA := axisDist_ge h hn
  have hA0 : 0 < axisDist φ n := by linarith
  have hN := nrad_range φ
  have hea : (ea : ℝ) = 6378137 := by unfold ea; norm_num
  have hA2 : axisDist φ n ≤ 6503652 := by
    unfold axisDist
    have h1 := abs_mul_le hn (abs_sind_le φ)
    have h2 := mul_le_mul_of_nonneg_left ((le_abs_self _).trans (abs_cosd_le φ)) (nrad_pos φ).le
    have h3 := neg_le_of_abs_le h1
    have h4 := hN.2
    rw [hea] at h4
    norm_num at h4
    linarith
  have hs := Real.sq_sqrt (show 0 ≤ axisDist φ n ^ 2 + e ^ 2 by positivity)
  have hs0 := Real.sqrt_nonneg (axisDist φ n ^ 2 + e ^ 2)
  unfold bulge
  generalize hr : Real.sqrt (axisDist φ n ^ 2 + e ^ 2) = r at *
  generalize axisDist φ n = A at *
  have hrA : A ≤ r := by
    by_contra hx
    have := pow_lt_pow_left₀ (not_le.1 hx) hs0 two_ne_zero
    linarith [sq_nonneg e]
  have he2 : e ^ 2 ≤ 100000 ^ 2 := sq_le_sq' (abs_le.1 he).1 (abs_le.1 he).2
  have hr2 : r ≤ 6596348 := by
    by_contra hx
    have h1 := pow_lt_pow_left₀ (not_le.1 hx) (by norm_num) two_ne_zero
    have h2 := pow_le_pow_left₀ hA0.le hA2 2
    norm_num at h1 h2 he2
    linarith
  have hp : (r - A) * (r + A) = e ^ 2 := by linear_combination hs
  constructor
  · rw [div_le_iff₀ (by norm_num), ← hp]
    exact mul_le_mul_of_nonneg_left (by linarith) (by linarith)
  · rw [le_div_iff₀ (by norm_num), ← hp]
    exact mul_le_mul_of_nonneg_left (by linarith) (by linarith)

/-- The latitudes of points north and south of the place the plane touches. -/
theorem lat_north {φ l n e : ℝ} (h : |φ| ≤ 75) (hn : |n| ≤ 100000) (he : |e| ≤ 100000)
    (hb : 2 / 10 ^ 4 ≤ n - sind φ * bulge φ n e) : φ < ne2ll ![n, e] ![φ, l] 0 := by
  have hC := C102_latitude (l := l) (h.trans (by norm_num)) hn he
  have hk : 0 < Real.pi / 180 * ea := mul_pos (by positivity) ea_pos
  rw [abs_of_nonneg ((by norm_num : (0 : ℝ) ≤ 2 / 10 ^ 4).trans hb)] at hC
  have := (abs_le.1 hC).1
  have h2 : 0 < (ne2ll ![n, e] ![φ, l] 0 - φ) * (Real.pi / 180 * ea) := by
    norm_num at *
    linarith
  linarith [(mul_pos_iff_of_pos_right hk).1 h2]

theorem lat_south {φ l n e : ℝ} (h : |φ| ≤ 75) (hn : |n| ≤ 100000) (he : |e| ≤ 100000)
    (hb : n - sind φ * bulge φ n e ≤ -(2 / 10 ^ 4)) : ne2ll ![n, e] ![φ, l] 0 < φ := by
  have hC := C102_latitude (l := l) (h.trans (by norm_num)) hn he
  have hk : 0 < Real.pi / 180 * ea := mul_pos (by positivity) ea_pos
  rw [abs_of_nonpos (hb.trans (by norm_num))] at hC
  have := (abs_le.1 hC).2
  have h2 : 0 < (φ - ne2ll ![n, e] ![φ, l] 0) * (Real.pi / 180 * ea) := by
    norm_num at *
    linarith
  linarith [(mul_pos_iff_of_pos_right hk).1 h2]

/-- A box at least four millimetres tall to each side and not more than eighteen times as wide. -/
structure Stout (b : AABB ℝ) : Prop where
  north : 4 / 10 ^ 3 ≤ b.x1
  south : b.x0 ≤ -(4 / 10 ^ 3)
  east : b.y1 ≤ 18 * b.x1
  west : 18 * b.x0 ≤ b.y0

theorem stout_lat {φ l : ℝ} {b : AABB ℝ} (h : |φ| ≤ 75) (hb : Local b) (hs : Stout b) :
    ne2ll ![b.x0, b.y0] ![φ, l] 0 < φ ∧ φ < ne2ll ![b.x1, b.y1] ![φ, l] 0 := by
  have key : ∀ n e : ℝ, |n| ≤ 100000 → |e| ≤ 100000 → |e| ≤ 18 * |n| →
      |sind φ * bulge φ n e| ≤ 15 / 16 * |n| := by
    intro n e hn he hne
    have hB := bulge_bounds h hn he
    have h0 : 0 ≤ bulge φ n e := (by positivity : 0 ≤ e ^ 2 / 13100000).trans hB.1
    rw [abs_mul, abs_of_nonneg h0]
    have h1 := mul_le_mul (abs_sind_le φ) hB.2 h0 zero_le_one
    have h2 : e ^ 2 ≤ 100000 * (18 * |n|) := by
      rw [← sq_abs, sq]
      exact mul_le_mul he hne (abs_nonneg _) (by norm_num)
    have h3 := div_le_div_of_nonneg_right h2 (show (0 : ℝ) ≤ 1920000 by norm_num)
    linarith
  have hn0 : |b.x0| = -b.x0 := abs_of_nonpos (hs.south.trans (by norm_num))
  have hn1 : |b.x1| = b.x1 := abs_of_nonneg ((by norm_num : (0 : ℝ) ≤ _).trans hs.north)
  have k0 := key b.x0 b.y0 hb.x0 hb.y0 (by rw [hn0, abs_of_neg hb.west]; linarith [hs.west])
  have k1 := key b.x1 b.y1 hb.x1 hb.y1 (by rw [hn1, abs_of_pos hb.east]; exact hs.east)
  rw [hn0] at k0
  rw [hn1] at k1
  have s0 := hs.south
  have s1 := hs.north
  norm_num at s0 s1
  constructor
  · refine lat_south h hb.x0 hb.y0 ?_
    have := (abs_le.1 k0).1
    norm_num
    linarith
  · refine lat_north h hb.x1 hb.y1 ?_
    have := (abs_le.1 k1).2
    norm_num
    linarith

theorem llaabbox_x (b : AABB ℝ) (o : Fin 2 → ℝ) :
    (llaabbox b o).x0 = min (ne2ll ![b.x0, b.y0] o 0) (ne2ll ![b.x1, b.y1] o 0) ∧
    (llaabbox b o).x1 = max (ne2ll ![b.x0, b.y0] o 0) (ne2ll ![b.x1, b.y1] o 0) := ⟨rfl, rfl⟩

/-- C102: an index box that does not cross the antimeridian and is not too flat contains the place it
is relative to, strictly inside. -/
theorem C102_covers {φ l : ℝ} {b : AABB ℝ} (h : |φ| ≤ 75) (h1 : -180 < l) (h2 : l ≤ 180)
    (hb : Local b) (hs : Stout b) (hw : -180 < l + lonShift φ b.x0 b.y0)
    (he : l + lonShift φ b.x1 b.y1 ≤ 180) :
    (llaabbox b ![φ, l]).x0 < φ ∧ φ < (llaabbox b ![φ, l]).x1 ∧
    (llaabbox b ![φ, l]).y0 < l ∧ l < (llaabbox b ![φ, l]).y1 ∧
    (llaabbox b ![φ, l]).within (φ, l) = true := by
  obtain ⟨a1, a2⟩ := stout_lat (l := l) h hb hs
  obtain ⟨-, -, a3, a4⟩ := C81_longitude_range h h1 h2 hb hw he
  have x0 : (llaabbox b ![φ, l]).x0 < φ := by
    rw [(llaabbox_x b _).1]; exact (min_le_left _ _).trans_lt a1
  have x1 : φ < (llaabbox b ![φ, l]).x1 := by
    rw [(llaabbox_x b _).2]; exact a2.trans_le (le_max_right _ _)
  refine ⟨x0, x1, a3, a4, ?_⟩
  simp only [AABB.within, Bool.not_eq_true', Bool.or_eq_false_iff, decide_eq_false_iff_not, not_lt]
  exact ⟨⟨⟨x0.le, x1.le⟩, a3.le⟩, a4.le⟩

/-- C102: so a target and a report whose boxes are made at the same place find each other in the
index. -/
theorem C102_found {φ l : ℝ} {b r : AABB ℝ} (h : |φ| ≤ 75) (h1 : -180 < l) (h2 : l ≤ 180)
    (hb : Local b) (hs : Stout b) (hw : -180 < l + lonShift φ b.x0 b.y0)
    (he : l + lonShift φ b.x1 b.y1 ≤ 180)
    (hb' : Local r) (hs' : Stout r) (hw' : -180 < l + lonShift φ r.x0 r.y0)
    (he' : l + lonShift φ r.x1 r.y1 ≤ 180) :
    (llaabbox b ![φ, l]).intersects (llaabbox r ![φ, l]) = true := by
  obtain ⟨a1, a2, a3, a4, -⟩ := C102_covers h h1 h2 hb hs hw he
  obtain ⟨c1, c2, c3, c4, -⟩ := C102_covers h h1 h2 hb' hs' hw' he'
  simp only [AABB.intersects, Bool.not_eq_true', Bool.or_eq_false_iff, decide_eq_false_iff_not, not_lt]
  exact ⟨⟨⟨(c1.trans a2).le, (a1.trans c2).le⟩, (a3.trans c4).le⟩, (c3.trans a4).le⟩

theorem exStout : Local ⟨-50, -200, 60, 210⟩ ∧ Stout ⟨-50, -200, 60, 210⟩ := by
  refine ⟨⟨?_, ?_, ?_, ?_, ?_, ?_, ?_⟩, ⟨?_, ?_, ?_, ?_⟩⟩ <;> norm_num [abs_le]

/-- A box of some hundred metres at 60 degrees. -/
example : (llaabbox ⟨-50, -200, 60, 210⟩ ![60, 15]).within (60, 15) = true := by
  have h : |(60 : ℝ)| ≤ 75 := by norm_num [abs_le]
  have a := abs_lt.1 (lonShift_range h exStout.1.x0 exStout.1.y0)
  have b := abs_lt.1 (lonShift_range h exStout.1.x1 exStout.1.y1)
  simp only at a b
  exact (C102_covers h (by norm_num) (by norm_num) exStout.1 exStout.2 (by simp only; linarith)
    (by simp only; linarith)).2.2.2.2

/-! ## Boxes that miss -/

/-- The latitude of a point, as metres along the meridian, at most and at least. -/
theorem lat_le {φ l n e u : ℝ} (h : |φ| ≤ 75) (hn : |n| ≤ 100000) (he : |e| ≤ 100000)
    (hu : n - sind φ * bulge φ n e ≤ u) :
    (ne2ll ![n, e] ![φ, l] 0 - φ) * (Real.pi / 180 * ea) ≤ max (24 / 25 * u) (26 / 25 * u) + 1 / 10 ^ 4 := by
  have hC := (abs_le.1 (C102_latitude (l := l) (h.trans (by norm_num)) hn he)).2
  have m1 := le_max_left (24 / 25 * u) (26 / 25 * u)
  have m2 := le_max_right (24 / 25 * u) (26 / 25 * u)
  rcases le_total 0 (n - sind φ * bulge φ n e) with h0 | h0
  · rw [abs_of_nonneg h0] at hC
    linarith
  · rw [abs_of_nonpos h0] at hC
    linarith

theorem lat_ge {φ l n e u : ℝ} (h : |φ| ≤ 75) (hn : |n| ≤ 100000) (he : |e| ≤ 100000)
    (hu : -u ≤ n - sind φ * bulge φ n e) :
    -(max (24 / 25 * u) (26 / 25 * u) + 1 / 10 ^ 4) ≤
      (ne2ll ![n, e] ![φ, l] 0 - φ) * (Real.pi / 180 * ea) := by
  have hC := (abs_le.1 (C102_latitude (l := l) (h.trans (by norm_num)) hn he)).1
  have m1 := le_max_left (24 / 25 * u) (26 / 25 * u)
  have m2 := le_max_right (24 / 25 * u) (26 / 25 * u)
  rcases le_total 0 (n - sind φ * bulge φ n e) with h0 | h0
  · rw [abs_of_nonneg h0] at hC
    linarith
  · rw [abs_of_nonpos h0] at hC
    linarith

theorem sind_half {φ : ℝ} (h0 : 30 ≤ φ) (h : φ ≤ 75) : 1 / 2 ≤ sind φ := by
  have hpi := Real.pi_pos
  rw [← Real.sin_pi_div_six]
  refine Real.sin_le_sin_of_le_of_le_pi_div_two (by linarith) ?_ ?_
  · have := mul_le_mul_of_nonneg_right h hpi.le
    linarith
  · have := mul_le_mul_of_nonneg_right h0 hpi.le
    linarith

/-- Two boxes, all points of one north of all points of the other. -/
theorem not_intersects {a b : AABB ℝ} (h : a.x1 < b.x0) : a.intersects b = false := by
  simp [AABB.intersects, h]

/-- C102, refuted claim: a report at exactly the place of a target is offered that target.  North of
30 degrees the two corners of the box of a target that is a kilometre or more uncertain to the east
and accurate to the north are both south of the target, and of the whole box of the report. -/
theorem C102_flat_refuted {φ l dx dy rx ry : ℝ} (h0 : 30 ≤ φ) (h : φ ≤ 75) (hdx : 0 ≤ dx)
    (hdy : 1000 ≤ dy) (hdy' : dy ≤ 100000) (hrx : 0 ≤ rx) (hry : 0 ≤ ry) (hry' : ry ≤ dy / 10)
    (hsum : dx + rx ≤ dy ^ 2 / (4 * 10 ^ 7)) :
    (llaabbox ⟨-dx, -dy, dx, dy⟩ ![φ, l]).intersects (llaabbox ⟨-rx, -ry, rx, ry⟩ ![φ, l]) = false := by
  have hφ : |φ| ≤ 75 := by rw [abs_le]; constructor <;> linarith
  have hdy2 : dy ^ 2 ≤ 100000 ^ 2 := pow_le_pow_left₀ (by linarith) hdy' 2
  have hdy3 : 1000 ^ 2 ≤ dy ^ 2 := pow_le_pow_left₀ (by norm_num) hdy 2
  have hry2 : ry ^ 2 ≤ (dy / 10) ^ 2 := pow_le_pow_left₀ hry hry' 2
  have hs := sind_half h0 h
  have hs1 := (le_abs_self _).trans (abs_sind_le φ)
  have hk : 0 < Real.pi / 180 * ea := mul_pos (by positivity) ea_pos
  norm_num at hsum hdy2 hdy3
  have key1 : ∀ n e : ℝ, (n = -dx ∧ e = -dy) ∨ (n = dx ∧ e = dy) →
      (ne2ll ![n, e] ![φ, l] 0 - φ) * (Real.pi / 180 * ea) ≤
        24 / 25 * (dx - dy ^ 2 / 26200000) + 1 / 10 ^ 4 := by
    intro n e hne
    have hn : |n| ≤ 100000 := by
      rcases hne with ⟨rfl, -⟩ | ⟨rfl, -⟩ <;> rw [abs_le] <;> constructor <;> linarith
    have he : |e| ≤ 100000 := by
      rcases hne with ⟨-, rfl⟩ | ⟨-, rfl⟩ <;> rw [abs_le] <;> constructor <;> linarith
    have hn' : n ≤ dx := by rcases hne with ⟨rfl, -⟩ | ⟨rfl, -⟩ <;> linarith
    have he' : e ^ 2 = dy ^ 2 := by rcases hne with ⟨-, rfl⟩ | ⟨-, rfl⟩ <;> ring
    have hb := (bulge_bounds hφ hn he).1
    rw [he'] at hb
    have hm := mul_le_mul hs hb (by positivity) (by linarith)
    have := lat_le (l := l) hφ hn he (u := dx - dy ^ 2 / 26200000) (by linarith)
    rwa [max_eq_left (by linarith)] at this
  have key2 : ∀ n e : ℝ, (n = -rx ∧ e = -ry) ∨ (n = rx ∧ e = ry) →
      -(26 / 25 * (rx + dy ^ 2 / 192000000) + 1 / 10 ^ 4) ≤
        (ne2ll ![n, e] ![φ, l] 0 - φ) * (Real.pi / 180 * ea) := by
    intro n e hne
    have hn : |n| ≤ 100000 := by
      rcases hne with ⟨rfl, -⟩ | ⟨rfl, -⟩ <;> rw [abs_le] <;> constructor <;> linarith
    have he : |e| ≤ 100000 := by
      rcases hne with ⟨-, rfl⟩ | ⟨-, rfl⟩ <;> rw [abs_le] <;> constructor <;> linarith
    have hn' : -rx ≤ n := by rcases hne with ⟨rfl, -⟩ | ⟨rfl, -⟩ <;> linarith
    have he' : e ^ 2 = ry ^ 2 := by rcases hne with ⟨-, rfl⟩ | ⟨-, rfl⟩ <;> ring
    have hb := bulge_bounds hφ hn he
    rw [he'] at hb
    have hm := mul_le_mul hs1 hb.2 ((by positivity : 0 ≤ ry ^ 2 / 13100000).trans hb.1) zero_le_one
    have hd := sq_nonneg dy
    have := lat_ge (l := l) hφ hn he (u := rx + dy ^ 2 / 192000000) (by linarith)
    rwa [max_eq_right (by linarith)] at this
  refine not_intersects ?_
  rw [(llaabbox_x _ _).2, (llaabbox_x _ _).1]
  have a1 := key1 (-dx) (-dy) (Or.inl ⟨rfl, rfl⟩)
  have a2 := key1 dx dy (Or.inr ⟨rfl, rfl⟩)
  have b1 := key2 (-rx) (-ry) (Or.inl ⟨rfl, rfl⟩)
  have b2 := key2 rx ry (Or.inr ⟨rfl, rfl⟩)
  have fin : 24 / 25 * (dx - dy ^ 2 / 26200000) + 1 / 10 ^ 4 <
      -(26 / 25 * (rx + dy ^ 2 / 192000000) + 1 / 10 ^ 4) := by
    norm_num
    linarith
  have cmp : ∀ x y : ℝ, (x - φ) * (Real.pi / 180 * ea) < (y - φ) * (Real.pi / 180 * ea) → x < y := by
    intro x y hxy
    have := lt_of_mul_lt_mul_right hxy hk.le
    linarith
  exact max_lt (lt_min (cmp _ _ (a1.trans_lt (fin.trans_le b1))) (cmp _ _ (a1.trans_lt (fin.trans_le b2))))
    (lt_min (cmp _ _ (a2.trans_lt (fin.trans_le b1))) (cmp _ _ (a2.trans_lt (fin.trans_le b2))))

/-- A target known to a metre to the north and to ten kilometres to the east, and a report that is
accurate to a metre, both at 60 degrees. -/
example (l : ℝ) : (llaabbox ⟨-1, -10000, 1, 10000⟩ ![60, l]).intersects
    (llaabbox ⟨-1, -1, 1, 1⟩ ![60, l]) = false :=
  C102_flat_refuted (by norm_num) (by norm_num) (by norm_num) (by norm_num) (by norm_num) (by norm_num)
    (by norm_num) (by norm_num) (by norm_num)

/-- The half widths of the box of a Gaussian that is uncertain by `a` to the north and `b` to the
east: those of the other axis (C47). -/
theorem fromGaussian_diag {a b nstd : ℝ} (ha : 0 < a) (hb : 0 < b) (hn : 0 ≤ nstd)
    {U : Matrix (Fin 2) (Fin 2) ℝ} {lam : Fin 2 → ℝ} (h : EigOk (Matrix.diagonal ![a ^ 2, b ^ 2]) U lam) :
    AABB.fromGaussian ![0, 0] U lam nstd = ⟨-(nstd * b), -(nstd * a), nstd * b, nstd * a⟩ := by
  have hP : (Matrix.diagonal ![a ^ 2, b ^ 2]).PosDef := by
    apply Matrix.PosDef.diagonal
    intro i
    fin_cases i
    · exact pow_pos ha 2
    · exact pow_pos hb 2
  rw [C47_aabb_widths h hP _ _ hn]
  simp [Real.sqrt_sq ha.le, Real.sqrt_sq hb.le]

/-- C102, refuted claim: a report within half a standard deviation of a target is offered that target.
The box of the target is of `s` standard deviations (`params.nstd`, 1.9), that of the report of 2
(`report.hpp:45-47`).  The target, at `![φ, l]`, is known to `a` metres to the north and `b` metres to the east; the report,
of a sensor accurate to `r` and `t` metres, is `n ≤ a / 2` metres north of it. -/
theorem C102_elongated_refuted {φ l n a b r t s : ℝ} (h : |φ| ≤ 70) (hs : 0 < s) (hs' : s ≤ 2) (hb : 0 < b)
    (ha' : a ≤ 50000) (hr : 0 < r) (hr' : r ≤ 50000) (ht : 0 < t)
    (hn : 3 * (b + t) + (a ^ 2 + r ^ 2) / 400000 + 1 / 1000 ≤ n)
    (hna : n ≤ a / 2) {U V : Matrix (Fin 2) (Fin 2) ℝ} {lam mu : Fin 2 → ℝ}
    (hU : EigOk (Matrix.diagonal ![a ^ 2, b ^ 2]) U lam)
    (hV : EigOk (Matrix.diagonal ![r ^ 2, t ^ 2]) V mu) :
    InEllipse ![0, 0] (Matrix.diagonal ![a ^ 2, b ^ 2]) (1 / 2) ![n, 0] ∧
    (llaabbox (AABB.fromGaussian ![0, 0] U lam s) ![φ, l]).intersects
      (llaabbox (AABB.fromGaussian ![0, 0] V mu 2) (ne2ll ![n, 0] ![φ, l])) = false := by
  have hsq : 0 ≤ (a ^ 2 + r ^ 2) / 400000 := by positivity
  have ha : 0 < a := by linarith
  constructor
  · unfold InEllipse
    have hinv : (Matrix.diagonal ![a ^ 2, b ^ 2])⁻¹ = Matrix.diagonal ![(a ^ 2)⁻¹, (b ^ 2)⁻¹] := by
      rw [Matrix.inv_eq_right_inv]
      rw [Matrix.diagonal_mul_diagonal, ← Matrix.diagonal_one]
      congr 1
      funext i
      fin_cases i
      · exact mul_inv_cancel₀ (pow_pos ha 2).ne'
      · exact mul_inv_cancel₀ (pow_pos hb 2).ne'
    rw [hinv]
    simp [Matrix.mulVec_diagonal, dotProduct, Fin.sum_univ_two]
    have h2 : n ^ 2 ≤ (a / 2) ^ 2 := pow_le_pow_left₀ (by linarith) hna 2
    rw [show n * ((a ^ 2)⁻¹ * n) = n ^ 2 / a ^ 2 from by rw [div_eq_mul_inv]; ring,
      div_le_iff₀ (pow_pos ha 2)]
    linarith
  rw [fromGaussian_diag ha hb hs.le hU, fromGaussian_diag hr ht (by norm_num) hV]
  have hφ : |φ| ≤ 75 := h.trans (by norm_num)
  have hk : 0 < Real.pi / 180 * ea := mul_pos (by positivity) ea_pos
  have hkv : 110000 ≤ Real.pi / 180 * ea := by
    have h3 := Real.pi_gt_d2
    have hea : (ea : ℝ) = 6378137 := by unfold ea; norm_num
    rw [hea]
    norm_num at h3 ⊢
    linarith
  -- the latitude of the report
  have hb0 : bulge φ n 0 = 0 := by
    unfold bulge
    have := axisDist_ge hφ (n := n) (by rw [abs_le]; constructor <;> linarith)
    rw [zero_pow two_ne_zero, add_zero, Real.sqrt_sq (by linarith), sub_self]
  have hn5 : |n| ≤ 100000 := by rw [abs_le]; constructor <;> linarith
  have hR := C102_latitude (l := l) (h.trans (by norm_num)) hn5 (e := 0) (by simp)
  rw [hb0, mul_zero, sub_zero, abs_of_nonneg (show 0 ≤ n by linarith)] at hR
  obtain ⟨r1, r2⟩ := abs_le.1 hR
  obtain ⟨φ', hφ'⟩ : ∃ φ', φ' = ne2ll ![n, 0] ![φ, l] 0 := ⟨_, rfl⟩
  obtain ⟨l', hl'⟩ : ∃ l', l' = ne2ll ![n, 0] ![φ, l] 1 := ⟨_, rfl⟩
  have hp : ne2ll ![n, 0] ![φ, l] = ![φ', l'] := by rw [hφ', hl', ll_eta]
  rw [← hφ'] at r1 r2
  rw [hp]
  norm_num at r1 r2
  have hφ2 : |φ'| ≤ 75 := by
    have h1 := abs_le.1 h
    have hlo : φ ≤ φ' := by
      by_contra hx
      have := mul_neg_of_neg_of_pos (show φ' - φ < 0 by linarith) hk
      linarith
    have hhi : φ' ≤ φ + 1 := by
      by_contra hx
      have := mul_lt_mul_of_pos_right (show 1 < φ' - φ by linarith) hk
      linarith
    rw [abs_le]
    constructor <;> linarith
  have key : ∀ {ψ x y : ℝ}, |ψ| ≤ 75 → |x| ≤ 100000 → |y| ≤ 100000 →
      |x - sind ψ * bulge ψ x y| ≤ |x| + y ^ 2 / 1920000 := by
    intro ψ x y hψ hx hy
    have hB := bulge_bounds hψ hx hy
    have h0 : 0 ≤ bulge ψ x y := (by positivity : 0 ≤ y ^ 2 / 13100000).trans hB.1
    have hm := mul_le_mul (abs_sind_le ψ) hB.2 h0 zero_le_one
    have := abs_sub x (sind ψ * bulge ψ x y)
    rw [abs_mul (sind ψ), abs_of_nonneg h0] at this
    linarith
  have bound : ∀ {ψ m x y : ℝ}, |ψ| ≤ 75 → |x| ≤ 100000 → |y| ≤ 100000 →
      |(ne2ll ![x, y] ![ψ, m] 0 - ψ) * (Real.pi / 180 * ea)| ≤
        26 / 25 * (|x| + y ^ 2 / 1920000) + 1 / 10 ^ 4 := by
    intro ψ m x y hψ hx hy
    have h1 := C102_latitude (l := m) (hψ.trans (by norm_num)) hx hy
    have h2 := key hψ hx hy
    have h3 := abs_sub_abs_le_abs_sub ((ne2ll ![x, y] ![ψ, m] 0 - ψ) * Real.pi / 180 * ea)
      (x - sind ψ * bulge ψ x y)
    rw [show (ne2ll ![x, y] ![ψ, m] 0 - ψ) * (Real.pi / 180 * ea) =
      (ne2ll ![x, y] ![ψ, m] 0 - ψ) * Real.pi / 180 * ea from by ring]
    linarith
  have hsb := mul_le_mul_of_nonneg_right hs' hb.le
  have hsa := mul_le_mul_of_nonneg_right hs' ha.le
  have hsb0 := mul_pos hs hb
  have hsa0 := mul_pos hs ha
  have hsa2 : (s * a) ^ 2 ≤ (2 * a) ^ 2 := pow_le_pow_left₀ hsa0.le hsa 2
  have h2b : |s * b| ≤ 100000 := by rw [abs_of_pos hsb0]; linarith
  have h2a : |s * a| ≤ 100000 := by rw [abs_of_pos hsa0]; linarith
  have h2r : |2 * r| ≤ 100000 := by rw [abs_of_pos (by linarith)]; linarith
  have h2t : |2 * t| ≤ 100000 := by rw [abs_of_pos (by linarith)]; linarith
  have a1 := (abs_le.1 (bound (m := l) hφ ((abs_neg _).trans_le h2b) ((abs_neg _).trans_le h2a))).2
  have a2 := (abs_le.1 (bound (m := l) hφ h2b h2a)).2
  have b1 := (abs_le.1 (bound (m := l') hφ2 ((abs_neg _).trans_le h2t) ((abs_neg _).trans_le h2r))).1
  have b2 := (abs_le.1 (bound (m := l') hφ2 h2t h2r)).1
  rw [abs_neg, neg_sq, abs_of_pos hsb0] at a1
  rw [abs_of_pos hsb0] at a2
  rw [abs_neg, neg_sq, abs_of_pos (show 0 < 2 * t by linarith)] at b1
  rw [abs_of_pos (show 0 < 2 * t by linarith)] at b2
  have fin : 26 / 25 * (s * b + (s * a) ^ 2 / 1920000) + 1 / 10 ^ 4 <
      (φ' - φ) * (Real.pi / 180 * ea) - (26 / 25 * (2 * t + (2 * r) ^ 2 / 1920000) + 1 / 10 ^ 4) := by
    have := sq_nonneg a
    have := sq_nonneg r
    norm_num
    linarith
  have cmp : ∀ x y : ℝ, (x - φ) * (Real.pi / 180 * ea) < (y - φ') * (Real.pi / 180 * ea) +
      (φ' - φ) * (Real.pi / 180 * ea) → x < y := by
    intro x y hxy
    rw [← add_mul] at hxy
    have := lt_of_mul_lt_mul_right hxy hk.le
    linarith
  refine not_intersects ?_
  rw [(llaabbox_x _ _).2, (llaabbox_x _ _).1]
  exact max_lt (lt_min (cmp _ _ (by linarith)) (cmp _ _ (by linarith)))
    (lt_min (cmp _ _ (by linarith)) (cmp _ _ (by linarith)))

theorem exDiag {a b : ℝ} (_ : 0 < a) (_ : 0 < b) :
    EigOk (Matrix.diagonal ![a ^ 2, b ^ 2]) !![0, 1; 1, 0] ![b ^ 2, a ^ 2] := by
  constructor
  · ext i j
    fin_cases i <;> fin_cases j <;> simp [Matrix.mul_apply, Fin.sum_univ_two]
  · ext i j
    fin_cases i <;> fin_cases j <;>
      simp [Matrix.mul_apply, Matrix.vecMul, dotProduct, Fin.sum_univ_two, Matrix.diagonal_apply]

/-- A target known to 200 metres to the north and to 5 to the east, and an accurate report half a
standard deviation away, at 60 degrees. -/
example := C102_elongated_refuted (φ := 60) (l := 15) (n := 100) (a := 200) (b := 5) (r := 1) (t := 1)
  (s := 1.9) (by norm_num [abs_le]) (by norm_num) (by norm_num) (by norm_num) (by norm_num) (by norm_num) (by norm_num) (by norm_num)
  (by norm_num) (by norm_num) (exDiag (by norm_num) (by norm_num)) (exDiag (by norm_num) (by norm_num))

end Verif.CF

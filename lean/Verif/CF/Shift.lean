import Verif.CF.Corners

/-!
# C128: the conversions do not depend on where longitudes are counted from
-/

namespace Verif.CF

open Matrix

theorem cosd_add (a b : ℝ) : cosd (a + b) = cosd a * cosd b - sind a * sind b := by
  unfold cosd sind
  rw [add_mul, add_div, Real.cos_add]

theorem sind_add (a b : ℝ) : sind (a + b) = sind a * cosd b + cosd a * sind b := by
  unfold cosd sind
  rw [add_mul, add_div, Real.sin_add]

/-- A rotation of the earth by `d` degrees. -/
noncomputable def turn (d : ℝ) (v : Fin 3 → ℝ) : Fin 3 → ℝ :=
  ![cosd d * v 0 - sind d * v 1, sind d * v 0 + cosd d * v 1, v 2]

theorem turn_ll (d lat lon : ℝ) : ll2ecef ![lat, lon + d] = turn d (ll2ecef ![lat, lon]) := by
  ext i
  fin_cases i
  · show nrad lat * cosd lat * cosd (lon + d) = cosd d * (nrad lat * cosd lat * cosd lon) -
      sind d * (nrad lat * cosd lat * sind lon)
    rw [cosd_add]
    ring
  · show nrad lat * cosd lat * sind (lon + d) = sind d * (nrad lat * cosd lat * cosd lon) +
      cosd d * (nrad lat * cosd lat * sind lon)
    rw [sind_add]
    ring
  · rfl

/-- **C128, to a local frame** The metres north and east of an origin do not change if the longitudes of both are
counted from another meridian. -/
theorem C128_local (d lat lon lat0 lon0 : ℝ) :
    ll2ne ![lat, lon + d] ![lat0, lon0 + d] = ll2ne ![lat, lon] ![lat0, lon0] := by
  have h := sq_sind_cosd d
  unfold ll2ne ecef2ne
  rw [turn_ll, turn_ll]
  obtain ⟨v, hv⟩ : ∃ v, v = ll2ecef ![lat, lon] := ⟨_, rfl⟩
  obtain ⟨u, hu⟩ : ∃ u, u = ll2ecef ![lat0, lon0] := ⟨_, rfl⟩
  rw [← hv, ← hu]
  ext i
  fin_cases i <;>
    simp [nerot, turn, mulVec, dotProduct, Fin.sum_univ_three, cosd_add, sind_add, Matrix.vecHead, Matrix.vecTail] <;>
    generalize sind d = s at * <;> generalize cosd d = c at * <;>
    generalize sind lat0 = a at * <;> generalize cosd lon0 = x at * <;> generalize sind lon0 = y at *
  · linear_combination (-a * (x * (v 0 - u 0) + y * (v 1 - u 1))) * h
  · linear_combination (-y * (v 0 - u 0) + x * (v 1 - u 1)) * h

theorem turn_plane (d lat lon n e : ℝ) : ll2ecef ![lat, lon + d] + (nedrot lat (lon + d))ᵀ *ᵥ ![n, e, 0] =
    turn d (ll2ecef ![lat, lon] + (nedrot lat lon)ᵀ *ᵥ ![n, e, 0]) := by
  rw [turn_ll]
  ext i
  fin_cases i <;>
    simp [nedrot, turn, mulVec, dotProduct, Fin.sum_univ_three, cosd_add, sind_add, Matrix.vecHead, Matrix.vecTail] <;>
    ring

theorem turn_lat (d : ℝ) (q : Fin 3 → ℝ) : ecef2ll (turn d q) 0 = ecef2ll q 0 := by
  have h := sq_sind_cosd d
  have e : q = ![q 0, q 1, q 2] := by ext i; fin_cases i <;> rfl
  have e1 : (cosd d * q 0 - sind d * q 1) * (cosd d * q 0 - sind d * q 1) +
      (sind d * q 0 + cosd d * q 1) * (sind d * q 0 + cosd d * q 1) = q 0 * q 0 + q 1 * q 1 := by
    linear_combination (q 0 ^ 2 + q 1 ^ 2) * h
  conv_rhs => rw [e, ecef2ll_lat]
  unfold turn
  rw [ecef2ll_lat, e1]

theorem turn_lon (d : ℝ) (q : Fin 3 → ℝ) (h : 0 < q 0 ^ 2 + q 1 ^ 2) :
    cosd (ecef2ll (turn d q) 1) = cosd (ecef2ll q 1 + d) ∧ sind (ecef2ll (turn d q) 1) = sind (ecef2ll q 1 + d) := by
  obtain ⟨w, hw, hx, hy⟩ := polar (q 0) (q 1)
  obtain ⟨w', hw', hx', hy'⟩ := polar (turn d q 0) (turn d q 1)
  have e1 : ecef2ll q 1 = atan2 (q 1) (q 0) * 180 / Real.pi := rfl
  have e2 : ecef2ll (turn d q) 1 = atan2 (turn d q 1) (turn d q 0) * 180 / Real.pi := rfl
  rw [← e1] at hx hy
  rw [← e2] at hx' hy'
  have hd := sq_sind_cosd d
  have t0 : turn d q 0 = cosd d * q 0 - sind d * q 1 := rfl
  have t1 : turn d q 1 = sind d * q 0 + cosd d * q 1 := rfl
  have ww : w' = w := by
    rw [hw, hw', t0, t1]
    congr 1
    linear_combination (q 0 ^ 2 + q 1 ^ 2) * hd
  have hw0 : w ≠ 0 := by
    rw [hw]
    exact (Real.sqrt_pos.2 (by nlinarith)).ne'
  rw [ww] at hx' hy'
  rw [cosd_add, sind_add]
  constructor
  · apply mul_left_cancel₀ hw0
    rw [← hx', t0]
    linear_combination cosd d * hx - sind d * hy
  · apply mul_left_cancel₀ hw0
    rw [← hy', t1]
    linear_combination sind d * hx + cosd d * hy

theorem same_angle {a b : ℝ} (hc : cosd a = cosd b) (hs : sind a = sind b) : ∃ k : ℤ, a = b + 360 * k := by
  have hp := Real.pi_pos
  have h : ((a * Real.pi / 180 : ℝ) : Real.Angle) = ((b * Real.pi / 180 : ℝ) : Real.Angle) :=
    Real.Angle.cos_sin_inj hc hs
  obtain ⟨k, hk⟩ := Real.Angle.angle_eq_iff_two_pi_dvd_sub.1 h
  refine ⟨k, ?_⟩
  have : (a - b - 360 * k) * Real.pi = 0 := by linear_combination 180 * hk
  rcases mul_eq_zero.1 this with h | h
  · linarith
  · exact absurd h hp.ne'

/-- What `ecef2ll` makes of a point of the tangent plane that is not on the axis is not on the axis. -/
theorem off_axis {φ l n e : ℝ} (hn : n ^ 2 + e ^ 2 ≤ (10 ^ 6) ^ 2)
    (hX : 1 ≤ (nrad φ * cosd φ - n * sind φ) ^ 2 + e ^ 2) :
    1 ≤ (ll2ecef ![φ, l] + (nedrot φ l)ᵀ *ᵥ ![n, e, 0]) 0 ^ 2 + (ll2ecef ![φ, l] + (nedrot φ l)ᵀ *ᵥ ![n, e, 0]) 1 ^ 2 ∧
    0 < cosd (ecef2ll (ll2ecef ![φ, l] + (nedrot φ l)ᵀ *ᵥ ![n, e, 0]) 0) := by
  obtain ⟨lat, lon, alt, a1, a2, a3, a4, a5, _, a6⟩ := plane_lat (φ := φ) (l := l) (n := n) (e := e) (10 ^ 6)
    (by norm_num) hn
  obtain ⟨q, hq⟩ : ∃ q, q = ll2ecef ![φ, l] + (nedrot φ l)ᵀ *ᵥ ![n, e, 0] := ⟨_, rfl⟩
  rw [← hq] at a5 a6 ⊢
  have hl := sq_sind_cosd l
  have q0 : q 0 = (nrad φ * cosd φ - n * sind φ) * cosd l - e * sind l := by
    rw [hq]
    simp [ll2ecef, nedrot, Matrix.mulVec, dotProduct, Fin.sum_univ_three]
    ring
  have q1 : q 1 = (nrad φ * cosd φ - n * sind φ) * sind l + e * cosd l := by
    rw [hq]
    simp [ll2ecef, nedrot, Matrix.mulVec, dotProduct, Fin.sum_univ_three]
    ring
  have hq01 : q 0 ^ 2 + q 1 ^ 2 = (nrad φ * cosd φ - n * sind φ) ^ 2 + e ^ 2 := by
    rw [q0, q1]
    linear_combination ((nrad φ * cosd φ - n * sind φ) ^ 2 + e ^ 2) * hl
  refine ⟨hq01 ▸ hX, ?_⟩
  have b0 : (nrad lat + alt) * cosd lat * cosd lon = q 0 := congrFun a5 0
  have b1 : (nrad lat + alt) * cosd lat * sind lon = q 1 := congrFun a5 1
  have hlon := sq_sind_cosd lon
  obtain ⟨_, r1, r2⟩ := nrad_lip lat lat
  have hea : (ea : ℝ) = 6378137 := by unfold ea; norm_num
  rw [hea] at r1 r2
  have hc0 : 0 ≤ cosd lat := by
    unfold cosd
    have := Real.pi_pos
    refine Real.cos_nonneg_of_mem_Icc ⟨?_, ?_⟩
    · rw [le_div_iff₀ (by norm_num)]; nlinarith
    · rw [div_le_iff₀ (by norm_num)]; nlinarith
  have h2 : 0 ≤ (nrad lat + alt) * cosd lat := mul_nonneg (by linarith) hc0
  have h3 : 1 ≤ (nrad lat + alt) * cosd lat := by
    have : ((nrad lat + alt) * cosd lat) ^ 2 = q 0 ^ 2 + q 1 ^ 2 := by
      rw [← b0, ← b1]
      linear_combination (-((nrad lat + alt) * cosd lat) ^ 2) * hlon
    have h : 1 ^ 2 ≤ ((nrad lat + alt) * cosd lat) ^ 2 := by rw [this, hq01]; linarith
    exact (pow_le_pow_iff_left₀ (by norm_num) h2 two_ne_zero).1 h
  have h4 : (nrad lat + alt) * cosd lat ≤ (8 * 10 ^ 6) * cosd lat := by
    refine mul_le_mul_of_nonneg_right ?_ hc0
    norm_num at r2 a4 ⊢
    linarith
  have pc := (abs_le.1 (lat_close a6).2).1
  norm_num at pc h4
  linarith

/-- **C128, from a local frame** If the longitude of the origin is counted from another meridian, a position within
1000 km of it and at least a metre from the axis of the earth has the same latitude, and a longitude that differs by
the same angle, up to a multiple of 360 degrees. -/
theorem C128_global (d lat0 lon0 n e : ℝ) (hn : n ^ 2 + e ^ 2 ≤ (10 ^ 6) ^ 2)
    (hX : 1 ≤ (nrad lat0 * cosd lat0 - n * sind lat0) ^ 2 + e ^ 2) :
    ne2ll ![n, e] ![lat0, lon0 + d] 0 = ne2ll ![n, e] ![lat0, lon0] 0 ∧
    ∃ k : ℤ, ne2ll ![n, e] ![lat0, lon0 + d] 1 = ne2ll ![n, e] ![lat0, lon0] 1 + d + 360 * k := by
  obtain ⟨h1, h2⟩ := off_axis (l := lon0) hn hX
  obtain ⟨q, hq⟩ : ∃ q, q = ll2ecef ![lat0, lon0] + (nedrot lat0 lon0)ᵀ *ᵥ ![n, e, 0] := ⟨_, rfl⟩
  rw [← hq] at h1 h2
  have e0 : ne2ll ![n, e] ![lat0, lon0] = ecef2ll (ll2ecef (ecef2ll q)) := by rw [hq]; rfl
  have e1 : ne2ll ![n, e] ![lat0, lon0 + d] = ecef2ll (ll2ecef (ecef2ll (turn d q))) := by
    rw [hq, ← turn_plane]; rfl
  have e2 : ll2ecef (ecef2ll (turn d q)) = turn d (ll2ecef (ecef2ll q)) := by
    obtain ⟨l1, l2⟩ := turn_lon d q (by linarith)
    have : ll2ecef (ecef2ll (turn d q)) = ll2ecef ![ecef2ll q 0, ecef2ll q 1 + d] := by
      have h0 := turn_lat d q
      ext i
      fin_cases i
      · show nrad (ecef2ll (turn d q) 0) * cosd (ecef2ll (turn d q) 0) * cosd (ecef2ll (turn d q) 1) = _
        rw [h0, l1]; rfl
      · show nrad (ecef2ll (turn d q) 0) * cosd (ecef2ll (turn d q) 0) * sind (ecef2ll (turn d q) 1) = _
        rw [h0, l2]; rfl
      · show nrad (ecef2ll (turn d q) 0) * (1 - e2) * sind (ecef2ll (turn d q) 0) = _
        rw [h0]; rfl
    rw [this, turn_ll, ll_eta]
  rw [e0, e1, e2]
  refine ⟨turn_lat d _, ?_⟩
  obtain ⟨l1, l2⟩ := turn_lon d (ll2ecef (ecef2ll q)) (by
    have hh := sq_sind_cosd (ecef2ll q 1)
    have : ll2ecef (ecef2ll q) 0 ^ 2 + ll2ecef (ecef2ll q) 1 ^ 2 =
        (nrad (ecef2ll q 0) * cosd (ecef2ll q 0)) ^ 2 := by
      show (nrad (ecef2ll q 0) * cosd (ecef2ll q 0) * cosd (ecef2ll q 1)) ^ 2 +
        (nrad (ecef2ll q 0) * cosd (ecef2ll q 0) * sind (ecef2ll q 1)) ^ 2 = _
      linear_combination (nrad (ecef2ll q 0) * cosd (ecef2ll q 0)) ^ 2 * hh
    rw [this]
    exact pow_pos (mul_pos (nrad_pos _) h2) 2)
  exact same_angle l1 l2

/-- A kilometre north and two kilometres east of a point of the equator. -/
example (d : ℝ) : ∃ k : ℤ, ne2ll ![1000, 2000] ![0, 15 + d] 1 = ne2ll ![1000, 2000] ![0, 15] 1 + d + 360 * k :=
  (C128_global d 0 15 1000 2000 (by norm_num) (by
    have := sq_nonneg (nrad 0 * cosd 0 - 1000 * sind 0)
    linarith)).2

end Verif.CF

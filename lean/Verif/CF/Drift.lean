import Mathlib.Analysis.InnerProductSpace.PiL2
import Verif.CF.Onto

/-!
# Property C101: how far a query moves a target

The point of the tangent plane a position is taken to lies over the ellipsoid, and the foot of its
normal is near: projecting onto a convex body shortens distances.
-/

namespace Verif.CF

open Matrix

/-- The length of a vector (not code; for the statements). -/
noncomputable def len (v : Fin 3 → ℝ) : ℝ := Real.sqrt (v ⬝ᵥ v)

theorem dot3 (u v : Fin 3 → ℝ) : u ⬝ᵥ v = u 0 * v 0 + u 1 * v 1 + u 2 * v 2 := by
  simp [dotProduct, Fin.sum_univ_three]

theorem len_norm (v : Fin 3 → ℝ) : len v = ‖(WithLp.toLp 2 v : EuclideanSpace ℝ (Fin 3))‖ := by
  rw [EuclideanSpace.norm_eq]
  unfold len
  congr 1
  simp [dotProduct, sq]

theorem len_nonneg (v : Fin 3 → ℝ) : 0 ≤ len v := Real.sqrt_nonneg _

theorem len_sq (v : Fin 3 → ℝ) : len v ^ 2 = v ⬝ᵥ v := by
  apply Real.sq_sqrt
  rw [dot3]
  exact add_nonneg (add_nonneg (mul_self_nonneg _) (mul_self_nonneg _)) (mul_self_nonneg _)

theorem len_add (u v : Fin 3 → ℝ) : len (u + v) ≤ len u + len v := by
  rw [len_norm, len_norm, len_norm, WithLp.toLp_add]
  exact norm_add_le _ _

theorem dot_le_len (u v : Fin 3 → ℝ) : u ⬝ᵥ v ≤ len u * len v := by
  have h : (u ⬝ᵥ v) ^ 2 ≤ (len u * len v) ^ 2 := by
    rw [mul_pow, len_sq, len_sq, dot3, dot3, dot3]
    nlinarith [sq_nonneg (u 0 * v 1 - u 1 * v 0), sq_nonneg (u 0 * v 2 - u 2 * v 0),
      sq_nonneg (u 1 * v 2 - u 2 * v 1)]
  exact le_of_sq_le_sq h (mul_nonneg (len_nonneg u) (len_nonneg v))
where
  le_of_sq_le_sq {a b : ℝ} (h : a ^ 2 ≤ b ^ 2) (hb : 0 ≤ b) : a ≤ b :=
    (le_abs_self a).trans (abs_le_of_sq_le_sq h hb)

theorem len_of_components {v : Fin 3 → ℝ} {a b : ℝ} (ha : 0 ≤ a) (h : ∀ i, |v i| ≤ a)
    (hb : 0 ≤ b) (hab : 3 * a ^ 2 ≤ b ^ 2) : len v ≤ b := by
  unfold len
  apply Real.sqrt_le_iff.2 ⟨hb, ?_⟩
  rw [dot3]
  have k : ∀ i, v i * v i ≤ a ^ 2 := by
    intro i
    rw [← sq, ← sq_abs]
    exact pow_le_pow_left₀ (abs_nonneg _) (h i) 2
  linarith [k 0, k 1, k 2]

/-- The direction up at a position: the normal of the ellipsoid, minus the third row of `nedrot`,
`cf.hpp:18-35`. -/
noncomputable def upv (lat lon : ℝ) : Fin 3 → ℝ :=
  ![cosd lat * cosd lon, cosd lat * sind lon, sind lat]

/-- The quadratic form of the ellipsoid (not code; for the proofs). -/
noncomputable def quad (v : Fin 3 → ℝ) : ℝ := (v 0 ^ 2 + v 1 ^ 2) * (1 - e2) + v 2 ^ 2

theorem upv_unit (lat lon : ℝ) : upv lat lon ⬝ᵥ upv lat lon = 1 := by
  rw [dot3]
  change cosd lat * cosd lon * (cosd lat * cosd lon) + cosd lat * sind lon * (cosd lat * sind lon) +
    sind lat * sind lat = 1
  linear_combination cosd lat ^ 2 * sq_sind_cosd lon + sq_sind_cosd lat

theorem quad_nonneg (v : Fin 3 → ℝ) : 0 ≤ quad v := by
  unfold quad
  have : (0 : ℝ) ≤ 1 - e2 := by linarith [e2_bounds.2]
  positivity

theorem quad_le (v : Fin 3 → ℝ) : quad v ≤ v ⬝ᵥ v := by
  unfold quad
  rw [dot3]
  have := mul_nonneg (add_nonneg (sq_nonneg (v 0)) (sq_nonneg (v 1))) e2_bounds.1.le
  linarith

theorem nrad_sq (lat : ℝ) : nrad lat ^ 2 * (1 - e2 * sind lat ^ 2) = ea ^ 2 := by
  have hg : 0 < 1 - e2 * (sind lat * sind lat) := gpos (lat * Real.pi / 180)
  unfold nrad
  rw [div_pow, Real.sq_sqrt hg.le, sq (sind lat), div_mul_cancel₀ _ hg.ne']

theorem quad_ll (lat lon : ℝ) : quad (ll2ecef ![lat, lon]) = ea ^ 2 * (1 - e2) := by
  change ((nrad lat * cosd lat * cosd lon) ^ 2 + (nrad lat * cosd lat * sind lon) ^ 2) * (1 - e2) +
    (nrad lat * (1 - e2) * sind lat) ^ 2 = _
  linear_combination (1 - e2) * nrad_sq lat + (1 - e2) * nrad lat ^ 2 * cosd lat ^ 2 * sq_sind_cosd lon +
    (1 - e2) * nrad lat ^ 2 * sq_sind_cosd lat

/-- The form about a point of the ellipsoid. -/
theorem quad_add (lat lon : ℝ) (v : Fin 3 → ℝ) : quad (ll2ecef ![lat, lon] + v) =
    ea ^ 2 * (1 - e2) + 2 * (1 - e2) * nrad lat * (upv lat lon ⬝ᵥ v) + quad v := by
  rw [← quad_ll lat lon, dot3]
  change ((nrad lat * cosd lat * cosd lon + v 0) ^ 2 + (nrad lat * cosd lat * sind lon + v 1) ^ 2) *
      (1 - e2) + (nrad lat * (1 - e2) * sind lat + v 2) ^ 2 =
    ((nrad lat * cosd lat * cosd lon) ^ 2 + (nrad lat * cosd lat * sind lon) ^ 2) * (1 - e2) +
      (nrad lat * (1 - e2) * sind lat) ^ 2 +
    2 * (1 - e2) * nrad lat * (cosd lat * cosd lon * v 0 + cosd lat * sind lon * v 1 + sind lat * v 2) +
    ((v 0 ^ 2 + v 1 ^ 2) * (1 - e2) + v 2 ^ 2)
  ring

theorem ll_eta (p : Fin 2 → ℝ) : ![p 0, p 1] = p := by
  ext i; fin_cases i <;> rfl

/-- The depth of one point of the ellipsoid under the tangent plane of another. -/
theorem depth (a b : Fin 2 → ℝ) :
    -(upv (a 0) (a 1) ⬝ᵥ (ll2ecef b - ll2ecef a)) * (2 * (1 - e2) * nrad (a 0)) =
      quad (ll2ecef b - ll2ecef a) := by
  have h1 := quad_add (a 0) (a 1) (ll2ecef b - ll2ecef a)
  have h2 := quad_ll (b 0) (b 1)
  rw [ll_eta] at h1 h2
  rw [add_sub_cancel, h2] at h1
  linarith

theorem depth_nonneg (a b : Fin 2 → ℝ) :
    0 ≤ -(upv (a 0) (a 1) ⬝ᵥ (ll2ecef b - ll2ecef a)) := by
  have h := depth a b
  have hk : 0 < 2 * (1 - e2) * nrad (a 0) :=
    mul_pos (by linarith [e2_bounds.2]) (nrad_pos _)
  by_contra hn
  have := mul_neg_of_neg_of_pos (not_le.1 hn) hk
  linarith [quad_nonneg (ll2ecef b - ll2ecef a)]

/-- Feet of normals are no further from each other than the points over them. -/
theorem nonexpansive (a b : Fin 2 → ℝ) {α β : ℝ} (hα : 0 ≤ α) (hβ : 0 ≤ β) :
    len (ll2ecef a - ll2ecef b) ≤
      len ((ll2ecef a + α • upv (a 0) (a 1)) - (ll2ecef b + β • upv (b 0) (b 1))) := by
  obtain ⟨x, hx⟩ : ∃ x, x = ll2ecef a - ll2ecef b := ⟨_, rfl⟩
  have h1 := mul_nonneg hα (depth_nonneg a b)
  have h2 := mul_nonneg hβ (depth_nonneg b a)
  have e : ((ll2ecef a + α • upv (a 0) (a 1)) - (ll2ecef b + β • upv (b 0) (b 1))) ⬝ᵥ x =
      x ⬝ᵥ x + α * -(upv (a 0) (a 1) ⬝ᵥ (ll2ecef b - ll2ecef a)) +
        β * -(upv (b 0) (b 1) ⬝ᵥ (ll2ecef a - ll2ecef b)) := by
    rw [hx]
    simp only [dot3, Pi.add_apply, Pi.sub_apply, Pi.smul_apply, smul_eq_mul]
    ring
  have h3 := dot_le_len ((ll2ecef a + α • upv (a 0) (a 1)) - (ll2ecef b + β • upv (b 0) (b 1))) x
  rw [e, ← len_sq x] at h3
  rw [← hx]
  rcases (len_nonneg x).lt_or_eq with h | h
  · have : len x * len x ≤
        len ((ll2ecef a + α • upv (a 0) (a 1)) - (ll2ecef b + β • upv (b 0) (b 1))) * len x := by
      rw [← sq]; linarith
    exact le_of_mul_le_mul_right this h
  · rw [← h]; exact len_nonneg _

/-- The normals at two points differ no more than the points, in units of the radius. -/
theorem upv_lip (a b : Fin 2 → ℝ) :
    len (upv (a 0) (a 1) - upv (b 0) (b 1)) * ((1 - e2) * ea) ≤ len (ll2ecef a - ll2ecef b) := by
  have he := e2_bounds
  have hea := ea_pos
  have hk : 0 ≤ (1 - e2) * ea := mul_nonneg (by linarith) hea.le
  have hA := (nrad_lip (a 0) (a 0)).2.1
  have hB := (nrad_lip (b 0) (b 0)).2.1
  have u1 := upv_unit (a 0) (a 1)
  have u2 := upv_unit (b 0) (b 1)
  have e0 : ∀ p : Fin 2 → ℝ, ll2ecef p 0 = nrad (p 0) * upv (p 0) (p 1) 0 := fun p => by
    change nrad (p 0) * cosd (p 0) * cosd (p 1) = nrad (p 0) * (cosd (p 0) * cosd (p 1)); ring
  have e1 : ∀ p : Fin 2 → ℝ, ll2ecef p 1 = nrad (p 0) * upv (p 0) (p 1) 1 := fun p => by
    change nrad (p 0) * cosd (p 0) * sind (p 1) = nrad (p 0) * (cosd (p 0) * sind (p 1)); ring
  have e3 : ∀ p : Fin 2 → ℝ, ll2ecef p 2 = (1 - e2) * (nrad (p 0) * upv (p 0) (p 1) 2) := fun p => by
    change nrad (p 0) * (1 - e2) * sind (p 0) = (1 - e2) * (nrad (p 0) * sind (p 0)); ring
  apply (pow_le_pow_iff_left₀ (mul_nonneg (len_nonneg _) hk) (len_nonneg _) two_ne_zero).1
  rw [mul_pow, len_sq, len_sq]
  simp only [dot3, Pi.sub_apply, e0, e1, e3] at u1 u2 ⊢
  generalize upv (a 0) (a 1) 0 = x0 at *
  generalize upv (a 0) (a 1) 1 = x1 at *
  generalize upv (a 0) (a 1) 2 = x2 at *
  generalize upv (b 0) (b 1) 0 = y0 at *
  generalize upv (b 0) (b 1) 1 = y1 at *
  generalize upv (b 0) (b 1) 2 = y2 at *
  generalize nrad (a 0) = A at *
  generalize nrad (b 0) = B at *
  clear e0 e1 e3
  obtain ⟨t, ht⟩ : ∃ t, t = (x0 - y0) * (x0 - y0) + (x1 - y1) * (x1 - y1) + (x2 - y2) * (x2 - y2) :=
    ⟨_, rfl⟩
  rw [← ht]
  have ht0 : 0 ≤ t := by
    rw [ht]
    exact add_nonneg (add_nonneg (mul_self_nonneg _) (mul_self_nonneg _)) (mul_self_nonneg _)
  have hAB : ea * ea ≤ A * B := mul_le_mul hA hB hea.le (by linarith)
  have h1 : t * (ea * ea) ≤ (A - B) ^ 2 + A * B * t := by
    have := mul_le_mul_of_nonneg_left hAB ht0
    linarith [sq_nonneg (A - B)]
  have h2 : (A - B) ^ 2 + A * B * t = (A * x0 - B * y0) ^ 2 + (A * x1 - B * y1) ^ 2 +
      (A * x2 - B * y2) ^ 2 := by
    rw [ht]
    linear_combination (A * B - A ^ 2) * u1 + (A * B - B ^ 2) * u2
  have h3 : (1 - e2) ^ 2 * ((A * x0 - B * y0) ^ 2 + (A * x1 - B * y1) ^ 2) ≤
      1 * ((A * x0 - B * y0) ^ 2 + (A * x1 - B * y1) ^ 2) :=
    mul_le_mul_of_nonneg_right (pow_le_one₀ (by linarith) (by linarith)) (by positivity)
  have h4 := mul_le_mul_of_nonneg_left (h1.trans h2.le) (sq_nonneg (1 - e2))
  linarith

/-- The altitude is measured along the normal. -/
theorem lla_split (lat lon alt : ℝ) :
    lla2ecef ![lat, lon, alt] = ll2ecef ![lat, lon] + alt • upv lat lon := by
  ext i
  fin_cases i
  · change (nrad lat + alt) * cosd lat * cosd lon =
      nrad lat * cosd lat * cosd lon + alt * (cosd lat * cosd lon)
    ring
  · change (nrad lat + alt) * cosd lat * sind lon =
      nrad lat * cosd lat * sind lon + alt * (cosd lat * sind lon)
    ring
  · change (nrad lat * (1 - e2) + alt) * sind lat = nrad lat * (1 - e2) * sind lat + alt * sind lat
    ring

/-- On the ellipsoid the altitude is 0 and the two-dimensional conversion returns the point. -/
theorem surface_back (p : Fin 2 → ℝ) :
    len (ll2ecef (ecef2ll (ll2ecef p)) - ll2ecef p) ≤ 6 / 10 ^ 5 := by
  have hq := quad_ll (p 0) (p 1)
  rw [ll_eta] at hq
  obtain ⟨lat, alt, h1, h2, h3, h4, h5, -⟩ := C100_onto (ll2ecef p) (by rw [← hq]; exact le_rfl)
  have hl := lla_split lat (ecef2lla (ll2ecef p) 1) alt
  have h0 : alt = 0 := by
    have h := quad_add lat (ecef2lla (ll2ecef p) 1) (alt • upv lat (ecef2lla (ll2ecef p) 1))
    rw [← hl, h4, hq, dotProduct_smul, upv_unit, smul_eq_mul, mul_one] at h
    have hk : 0 < 2 * (1 - e2) * nrad lat := mul_pos (by linarith [e2_bounds.2]) (nrad_pos _)
    have hn := quad_nonneg (alt • upv lat (ecef2lla (ll2ecef p) 1))
    by_contra hne
    have := mul_pos hk (lt_of_le_of_ne h3 (Ne.symm hne))
    linarith
  rw [h0] at h4
  have hv : ecef2ll (ll2ecef p) = ![ecef2lla (ll2ecef p) 0, ecef2lla (ll2ecef p) 1] := by
    ext i; fin_cases i <;> rfl
  refine len_of_components (a := 3 / 10 ^ 5) (by norm_num) (fun i => ?_) (by norm_num) (by norm_num)
  have hc := lla_close (lon := ecef2lla (ll2ecef p) 1) (alt := 0) (alt' := 0) h5
    (A := 0) (by simp) i
  rw [h4, (C50_agree _ _ 0).1, ← hv] at hc
  refine hc.trans ?_
  have hea : (ea : ℝ) = 6378137 := by unfold ea; norm_num
  rw [hea]
  norm_num

/-- The point of the tangent plane of `o` over or under a position. -/
theorem plane_point (o p : Fin 2 → ℝ) :
    ll2ecef o + (nedrot (o 0) (o 1))ᵀ *ᵥ ![ll2ne p o 0, ll2ne p o 1, 0] =
      ll2ecef p + (-(upv (o 0) (o 1) ⬝ᵥ (ll2ecef p - ll2ecef o))) • upv (o 0) (o 1) := by
  have h1 := sq_sind_cosd (o 0)
  have h2 := sq_sind_cosd (o 1)
  have hn : ∀ i : Fin 2, ll2ne p o i = (nerot (o 0) (o 1) *ᵥ (ll2ecef p - ll2ecef o)) i := fun i => rfl
  obtain ⟨v, hv⟩ : ∃ v, v = ll2ecef p - ll2ecef o := ⟨_, rfl⟩
  have hp : ll2ecef p = ll2ecef o + v := by rw [hv]; abel
  rw [hn, hn, ← hv, hp, add_assoc]
  congr 1
  ext i
  fin_cases i <;>
    simp [nedrot, nerot, upv, mulVec, dotProduct, Fin.sum_univ_three, Matrix.vecHead,
      Matrix.vecTail] <;>
    generalize sind (o 0) = a at * <;> generalize cosd (o 0) = b at * <;>
    generalize sind (o 1) = c at * <;> generalize cosd (o 1) = d at * <;>
    generalize v 0 = x at * <;> generalize v 1 = y at * <;> generalize v 2 = z at *
  · linear_combination (d * (d * x + c * y)) * h1 + x * h2
  · linear_combination (c * (d * x + c * y)) * h1 + y * h2
  · linear_combination z * h1

/-- C101: a position taken to the local frame of any origin and back, as every target is by a query
in metres, moves by at most the cube of its distance from the origin, divided by twice the square of
the radius, and a fifth of a millimetre. -/
theorem C101_drift (o p : Fin 2 → ℝ) :
    len (ll2ecef (roundTrip o p) - ll2ecef p) ≤
      len (ll2ecef p - ll2ecef o) ^ 3 / (2 * ((1 - e2) * ea) ^ 2) + 2 / 10 ^ 4 := by
  have he := e2_bounds
  have hea := ea_pos
  have hk : 0 < (1 - e2) * ea := mul_pos (by linarith) hea
  obtain ⟨δ, hδ⟩ : ∃ δ, δ = -(upv (o 0) (o 1) ⬝ᵥ (ll2ecef p - ll2ecef o)) := ⟨_, rfl⟩
  have hδ0 : 0 ≤ δ := hδ ▸ depth_nonneg o p
  obtain ⟨d, hd⟩ : ∃ d, d = len (ll2ecef p - ll2ecef o) := ⟨_, rfl⟩
  have hd0 : 0 ≤ d := hd ▸ len_nonneg _
  -- the point of the tangent plane
  obtain ⟨q, hq⟩ : ∃ q, q = ll2ecef o + (nedrot (o 0) (o 1))ᵀ *ᵥ ![ll2ne p o 0, ll2ne p o 1, 0] :=
    ⟨_, rfl⟩
  have hqp : q = ll2ecef p + δ • upv (o 0) (o 1) := by rw [hq, hδ]; exact plane_point o p
  have hout : ea ^ 2 * (1 - e2) ≤ (q 0 ^ 2 + q 1 ^ 2) * (1 - e2) + q 2 ^ 2 := by
    have h := quad_add (o 0) (o 1) (q - ll2ecef o)
    have hz : upv (o 0) (o 1) ⬝ᵥ (q - ll2ecef o) = 0 := by
      rw [hqp, show ll2ecef p + δ • upv (o 0) (o 1) - ll2ecef o =
        (ll2ecef p - ll2ecef o) + δ • upv (o 0) (o 1) from by abel, dotProduct_add, dotProduct_smul,
        upv_unit, hδ]
      simp
    rw [ll_eta, add_sub_cancel, hz, mul_zero, add_zero] at h
    have := quad_nonneg (q - ll2ecef o)
    unfold quad at h this
    linarith
  obtain ⟨lat, alt, -, -, h3, h4, h5, -⟩ := C100_onto q hout
  -- its foot is near the position
  have hfoot : len (ll2ecef ![lat, ecef2lla q 1] - ll2ecef p) ≤ d ^ 3 / (2 * ((1 - e2) * ea) ^ 2) := by
    have h := nonexpansive ![lat, ecef2lla q 1] p h3 hδ0
    have e1 : ll2ecef ![lat, ecef2lla q 1] + alt • upv (![lat, ecef2lla q 1] 0) (![lat, ecef2lla q 1] 1) =
        q := (lla_split lat (ecef2lla q 1) alt).symm.trans h4
    rw [e1, hqp, add_sub_add_left_eq_sub, ← smul_sub] at h
    have e2' : len (δ • (upv (o 0) (o 1) - upv (p 0) (p 1))) =
        δ * len (upv (o 0) (o 1) - upv (p 0) (p 1)) := by
      rw [len_norm, WithLp.toLp_smul, norm_smul, Real.norm_of_nonneg hδ0, ← len_norm]
    rw [← hqp] at h
    rw [e2'] at h
    refine h.trans ?_
    have h6 := upv_lip o p
    have h7 : len (ll2ecef o - ll2ecef p) = d := by
      rw [hd, len_norm, len_norm, ← neg_sub, WithLp.toLp_neg, norm_neg]
    rw [h7] at h6
    have h8 : δ * (2 * ((1 - e2) * ea)) ≤ d ^ 2 := by
      have h9 := depth o p
      rw [← hδ] at h9
      have h10 := quad_le (ll2ecef p - ll2ecef o)
      rw [← len_sq, ← hd] at h10
      have hA := (nrad_lip (o 0) (o 0)).2.1
      have h11 : δ * (2 * (1 - e2)) * ea ≤ δ * (2 * (1 - e2)) * nrad (o 0) :=
        mul_le_mul_of_nonneg_left hA (mul_nonneg hδ0 (by linarith))
      linarith
    rw [le_div_iff₀ (by positivity)]
    have h12 := mul_le_mul h8 h6 (mul_nonneg (len_nonneg _) hk.le) (sq_nonneg d)
    calc δ * len (upv (o 0) (o 1) - upv (p 0) (p 1)) * (2 * ((1 - e2) * ea) ^ 2) =
        δ * (2 * ((1 - e2) * ea)) * (len (upv (o 0) (o 1) - upv (p 0) (p 1)) * ((1 - e2) * ea)) := by ring
      _ ≤ d ^ 2 * d := h12
      _ = d ^ 3 := by ring
  -- the first conversion to the ellipsoid
  have hv : ecef2ll q = ![ecef2lla q 0, ecef2lla q 1] := by
    ext i; fin_cases i <;> rfl
  have hone : len (ll2ecef (ecef2ll q) - ll2ecef ![lat, ecef2lla q 1]) ≤ 6 / 10 ^ 5 := by
    refine len_of_components (a := 3 / 10 ^ 5) (by norm_num) (fun i => ?_) (by norm_num) (by norm_num)
    have hc := lla_close (lon := ecef2lla q 1) (alt := 0) (alt' := 0) h5 (A := 0) (by simp) i
    rw [(C50_agree _ _ 0).1, (C50_agree _ _ 0).1, ← hv] at hc
    refine hc.trans ?_
    have hea : (ea : ℝ) = 6378137 := by unfold ea; norm_num
    rw [hea]
    norm_num
  -- the second
  have hrt : roundTrip o p = ecef2ll (ll2ecef (ecef2ll q)) := by rw [hq]; rfl
  have htwo := surface_back (ecef2ll q)
  rw [hrt, ← hd]
  have e : ll2ecef (ecef2ll (ll2ecef (ecef2ll q))) - ll2ecef p =
      (ll2ecef (ecef2ll (ll2ecef (ecef2ll q))) - ll2ecef (ecef2ll q)) +
      ((ll2ecef (ecef2ll q) - ll2ecef ![lat, ecef2lla q 1]) + (ll2ecef ![lat, ecef2lla q 1] - ll2ecef p)) := by
    abel
  rw [e]
  refine (len_add _ _).trans ((add_le_add le_rfl (len_add _ _)).trans ?_)
  linarith

/-- Any two positions. -/
example := C101_drift ![58.4, 15.6] ![58.3, 15.9]

/-- C101: a target within a hundred metres of the origin of a query moves by less than a millimetre,
one within ten kilometres by less than two centimetres. -/
theorem C101_near (o p : Fin 2 → ℝ) :
    (len (ll2ecef p - ll2ecef o) ≤ 100 → len (ll2ecef (roundTrip o p) - ll2ecef p) ≤ 1 / 10 ^ 3) ∧
    (len (ll2ecef p - ll2ecef o) ≤ 10000 → len (ll2ecef (roundTrip o p) - ll2ecef p) ≤ 2 / 10 ^ 2) := by
  have h := C101_drift o p
  have h0 := len_nonneg (ll2ecef p - ll2ecef o)
  have hk : (6000000 : ℝ) ≤ (1 - e2) * ea := by unfold ea e2; norm_num
  have hk2 : (2 * 6000000 ^ 2 : ℝ) ≤ 2 * ((1 - e2) * ea) ^ 2 := by
    have := pow_le_pow_left₀ (by norm_num) hk 2
    linarith
  have key : ∀ D : ℝ, len (ll2ecef p - ll2ecef o) ≤ D →
      len (ll2ecef (roundTrip o p) - ll2ecef p) ≤ D ^ 3 / (2 * 6000000 ^ 2) + 2 / 10 ^ 4 := by
    intro D hD
    refine h.trans (add_le_add ?_ le_rfl)
    exact div_le_div₀ (pow_nonneg (h0.trans hD) 3) (pow_le_pow_left₀ h0 hD 3) (by norm_num) hk2
  constructor
  · intro hD
    exact (key 100 hD).trans (by norm_num)
  · intro hD
    exact (key 10000 hD).trans (by norm_num)

/-- C101: over any sequence of queries the target moves by at most the sum of the bounds. -/
theorem C101_repeated (os : List (Fin 2 → ℝ)) (p : Fin 2 → ℝ) (D : ℝ)
    (hD : ∀ (l : List (Fin 2 → ℝ)) (o : Fin 2 → ℝ), l ++ [o] <+: os →
      len (ll2ecef (l.foldl (fun x o => roundTrip o x) p) - ll2ecef o) ≤ D) :
    len (ll2ecef (os.foldl (fun x o => roundTrip o x) p) - ll2ecef p) ≤
      os.length * (D ^ 3 / (2 * ((1 - e2) * ea) ^ 2) + 2 / 10 ^ 4) := by
  induction os using List.reverseRecOn with
  | nil =>
    simp [len]
  | append_singleton l o ih =>
    have h1 := ih fun l' o' hl' => hD l' o' (hl'.trans (List.prefix_append _ _))
    have h2 := hD l o (List.prefix_refl _)
    have h3 := C101_drift o (l.foldl (fun x o => roundTrip o x) p)
    rw [List.foldl_append, List.foldl_cons, List.foldl_nil, List.length_append, List.length_singleton]
    have h0 := len_nonneg (ll2ecef (l.foldl (fun x o => roundTrip o x) p) - ll2ecef o)
    have h4 : len (ll2ecef (l.foldl (fun x o => roundTrip o x) p) - ll2ecef o) ^ 3 /
        (2 * ((1 - e2) * ea) ^ 2) ≤ D ^ 3 / (2 * ((1 - e2) * ea) ^ 2) :=
      div_le_div_of_nonneg_right (pow_le_pow_left₀ h0 h2 3) (by positivity)
    have h5 := len_add (ll2ecef (roundTrip o (l.foldl (fun x o => roundTrip o x) p)) -
      ll2ecef (l.foldl (fun x o => roundTrip o x) p)) (ll2ecef (l.foldl (fun x o => roundTrip o x) p) -
      ll2ecef p)
    rw [sub_add_sub_cancel] at h5
    push_cast
    linarith

/-- No two positions are further apart than three radii. -/
theorem len_ll_le (a b : Fin 2 → ℝ) : len (ll2ecef a - ll2ecef b) ≤ 3 * ea := by
  have hea := ea_pos
  have key : ∀ a : Fin 2 → ℝ, len (ll2ecef a) ≤ 1004 / 1000 * ea := by
    intro a
    have hn := (nrad_lip (a 0) (a 0)).2.2
    have hp := (nrad_pos (a 0)).le
    unfold len
    refine Real.sqrt_le_iff.2 ⟨by positivity, ?_⟩
    rw [dot3]
    change nrad (a 0) * cosd (a 0) * cosd (a 1) * (nrad (a 0) * cosd (a 0) * cosd (a 1)) +
      nrad (a 0) * cosd (a 0) * sind (a 1) * (nrad (a 0) * cosd (a 0) * sind (a 1)) +
      nrad (a 0) * (1 - e2) * sind (a 0) * (nrad (a 0) * (1 - e2) * sind (a 0)) ≤ _
    have h1 := sq_sind_cosd (a 0)
    have h2 := sq_sind_cosd (a 1)
    have h3 : (1 - e2) ^ 2 ≤ (1 : ℝ) := pow_le_one₀ (by linarith [e2_bounds.2]) (by linarith [e2_bounds.1])
    have h4 := mul_le_mul_of_nonneg_left h3 (mul_nonneg (sq_nonneg (nrad (a 0))) (sq_nonneg (sind (a 0))))
    have h5 := pow_le_pow_left₀ hp hn 2
    have e : nrad (a 0) * cosd (a 0) * cosd (a 1) * (nrad (a 0) * cosd (a 0) * cosd (a 1)) +
      nrad (a 0) * cosd (a 0) * sind (a 1) * (nrad (a 0) * cosd (a 0) * sind (a 1)) =
        nrad (a 0) ^ 2 * cosd (a 0) ^ 2 := by
      linear_combination (nrad (a 0) ^ 2 * cosd (a 0) ^ 2) * h2
    have e' : nrad (a 0) ^ 2 * cosd (a 0) ^ 2 + nrad (a 0) ^ 2 * sind (a 0) ^ 2 = nrad (a 0) ^ 2 := by
      linear_combination (nrad (a 0) ^ 2) * h1
    rw [e]
    linarith
  have h := len_add (ll2ecef a) (-ll2ecef b)
  have hneg : len (-ll2ecef b) = len (ll2ecef b) := by
    rw [len_norm, len_norm, WithLp.toLp_neg, norm_neg]
  rw [hneg, ← sub_eq_add_neg] at h
  linarith [key a, key b]

/-- Queries anywhere. -/
example (os : List (Fin 2 → ℝ)) (p : Fin 2 → ℝ) :=
  C101_repeated os p (3 * ea) fun _ _ _ => len_ll_le _ _

end Verif.CF

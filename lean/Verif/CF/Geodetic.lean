import Verif.CF.Props
import Mathlib.Tactic.FieldSimp

/-! # Geodetic coordinates mean what they say (C49, C67) -/

namespace Verif.CF

open Matrix

/-- **C49, altitude** Points with the same latitude and longitude are above one another: seen from
one of them, the other is straight down, by the difference of the altitudes; and going down by `d`
subtracts `d` from the altitude. -/
theorem C49_altitude (lat lon h h0 d : ℝ) :
    lla2ned ![lat, lon, h] ![lat, lon, h0] = ![0, 0, h0 - h] ∧
    ned2ecef ![0, 0, d] ![lat, lon, h0] = lla2ecef ![lat, lon, h0 - d] := by
  have h1 := sq_sind_cosd lat
  have h2 := sq_sind_cosd lon
  constructor
  · ext i
    fin_cases i <;>
      simp [lla2ned, ecef2ned, lla2ecef, nedrot, mulVec, dotProduct, Fin.sum_univ_three]
    · linear_combination (-(h - h0) * sind lat * cosd lat) * h2
    · ring
    · linear_combination (-(h - h0) * cosd lat ^ 2) * h2 - (h - h0) * h1
  · ext i
    fin_cases i <;>
      simp [ned2ecef, lla2ecef, nedrot, mulVec, dotProduct, Fin.sum_univ_three] <;> ring

example := C49_altitude 58 15 120 20 (-3)

/-- **C67** The point that `ll2ecef` returns for a latitude and a longitude lies on the ellipsoid
with half axes `a` and `b = a √(1-e²)`; the meridian plane of the longitude
contains it; and the outward normal there, the gradient of the equation of the ellipsoid, is a
positive multiple of the vertical `(cos φ cos λ, cos φ sin λ, sin φ)`, which is what geodetic latitude
means.  `lla2ecef` goes from that point along the unit vertical by the altitude. -/
theorem C67_geodetic (lat lon alt : ℝ) :
    let p := ll2ecef ![lat, lon]
    let up : Fin 3 → ℝ := ![cosd lat * cosd lon, cosd lat * sind lon, sind lat]
    (p 0 ^ 2 + p 1 ^ 2) / ea ^ 2 + p 2 ^ 2 / (ea ^ 2 * (1 - e2)) = 1 ∧
    p 0 * sind lon = p 1 * cosd lon ∧
    (∃ c : ℝ, 0 < c ∧ ![p 0 / ea ^ 2, p 1 / ea ^ 2, p 2 / (ea ^ 2 * (1 - e2))] = c • up) ∧
    up ⬝ᵥ up = 1 ∧ lla2ecef ![lat, lon, alt] = p + alt • up ∧
    nedrot lat lon *ᵥ up = ![0, 0, -1] := by
  have h1 := sq_sind_cosd lat
  have h2 := sq_sind_cosd lon
  have he : (0 : ℝ) < 1 - e2 := by unfold e2; norm_num
  have ha : (0 : ℝ) < ea := by unfold ea; norm_num
  have hd : 0 < 1 - e2 * (sind lat * sind lat) := by
    have : sind lat * sind lat ≤ 1 := by nlinarith [sq_nonneg (cosd lat)]
    have h0 : (0 : ℝ) < e2 := by unfold e2; norm_num
    nlinarith
  have hn : nrad lat ^ 2 * (1 - e2 * (sind lat * sind lat)) = ea ^ 2 := by
    unfold nrad
    rw [div_pow, Real.sq_sqrt hd.le, div_mul_cancel₀ _ hd.ne']
  refine ⟨?_, ?_, ⟨nrad lat / ea ^ 2, div_pos (nrad_pos lat) (by positivity), ?_⟩, ?_, ?_, ?_⟩
  · simp only [ll2ecef, cons_val_zero, cons_val_one, cons_val]
    rw [div_add_div _ _ (by positivity) (by positivity), div_eq_one_iff_eq (by positivity)]
    linear_combination (nrad lat ^ 2 * cosd lat ^ 2 * ea ^ 2 * (1 - e2)) * h2 +
      (nrad lat ^ 2 * ea ^ 2 * (1 - e2)) * h1 + (ea ^ 2 * (1 - e2)) * hn
  · simp only [ll2ecef, cons_val_zero, cons_val_one, cons_val]
    ring
  · ext i
    fin_cases i <;> simp [ll2ecef] <;> field_simp
  · simp [dotProduct, Fin.sum_univ_three]
    linear_combination (cosd lat ^ 2) * h2 + h1
  · ext i
    fin_cases i <;> simp [ll2ecef, lla2ecef] <;> ring
  · ext i
    fin_cases i <;> simp [nedrot, mulVec, dotProduct, Fin.sum_univ_three]
    · linear_combination (-(sind lat * cosd lat)) * h2
    · ring
    · linear_combination (-(cosd lat ^ 2)) * h2 - h1

example := C67_geodetic 58 15 120

end Verif.CF

import Mathlib.Analysis.SpecialFunctions.Complex.Arg
import Mathlib.Analysis.SpecialFunctions.Trigonometric.Inverse
import Mathlib.LinearAlgebra.Matrix.Notation

/-!
# Coordinate frames, `include/cf.hpp`

Over the reals: decimal constants are taken exactly, rounding is not modelled.  A division by zero
(the centre of the earth in `ecef2lla`) gives NaN in the code and 0 here; theorems that depend on it
exclude that point.
-/

namespace Verif.CF

open Matrix

/-- `sind`, `cf.hpp:15`. -/
noncomputable def sind (deg : ℝ) : ℝ := Real.sin (deg * Real.pi / 180)
/-- `cosd`, `cf.hpp:16`. -/
noncomputable def cosd (deg : ℝ) : ℝ := Real.cos (deg * Real.pi / 180)

/-- `std::atan2`, `cf.hpp:163,228`. -/
noncomputable def atan2 (y x : ℝ) : ℝ := Complex.arg ⟨x, y⟩

/-- `nedrot`, `cf.hpp:18-35`, from the first two coordinates of the origin. -/
noncomputable def nedrot (lat lon : ℝ) : Matrix (Fin 3) (Fin 3) ℝ :=
  !![-sind lat * cosd lon, -sind lat * sind lon, cosd lat;
     -sind lon, cosd lon, 0;
     -cosd lat * cosd lon, -cosd lat * sind lon, -sind lat]

/-- `nerot`, `cf.hpp:37-53`. -/
noncomputable def nerot (lat lon : ℝ) : Matrix (Fin 2) (Fin 3) ℝ :=
  !![-sind lat * cosd lon, -sind lat * sind lon, cosd lat;
     -sind lon, cosd lon, 0]

/-- The semi-major axis, `cf.hpp:57,85,140,205`. -/
noncomputable def ea : ℝ := 6378137
/-- The eccentricity squared, `cf.hpp:58,86,141,206`. -/
noncomputable def e2 : ℝ := 66943799901377997 / 10 ^ 19

/-- `n`, `cf.hpp:72,99`. -/
noncomputable def nrad (lat : ℝ) : ℝ := ea / Real.sqrt (1 - e2 * (sind lat * sind lat))

/-- `lla2ecef`, `cf.hpp:55-81`. -/
noncomputable def lla2ecef (lla : Fin 3 → ℝ) : Fin 3 → ℝ :=
  ![(nrad (lla 0) + lla 2) * cosd (lla 0) * cosd (lla 1),
    (nrad (lla 0) + lla 2) * cosd (lla 0) * sind (lla 1),
    (nrad (lla 0) * (1 - e2) + lla 2) * sind (lla 0)]

/-- `ll2ecef`, `cf.hpp:83-107`. -/
noncomputable def ll2ecef (ll : Fin 2 → ℝ) : Fin 3 → ℝ :=
  ![nrad (ll 0) * cosd (ll 0) * cosd (ll 1), nrad (ll 0) * cosd (ll 0) * sind (ll 1),
    nrad (ll 0) * (1 - e2) * sind (ll 0)]

/-- `ecef2ned`, `cf.hpp:109-113`. -/
noncomputable def ecef2ned (ecef o : Fin 3 → ℝ) : Fin 3 → ℝ :=
  nedrot (o 0) (o 1) *ᵥ (ecef - lla2ecef o)

/-- `ecef2ne`, `cf.hpp:115-119`. -/
noncomputable def ecef2ne (ecef : Fin 3 → ℝ) (o : Fin 2 → ℝ) : Fin 2 → ℝ :=
  nerot (o 0) (o 1) *ᵥ (ecef - ll2ecef o)

/-- `lla2ned`, `cf.hpp:121-125`. -/
noncomputable def lla2ned (lla o : Fin 3 → ℝ) : Fin 3 → ℝ := ecef2ned (lla2ecef lla) o

/-- `ll2ne`, `cf.hpp:127-131`. -/
noncomputable def ll2ne (ll o : Fin 2 → ℝ) : Fin 2 → ℝ := ecef2ne (ll2ecef ll) o

/-- The constants of `ecef2lla` and `ecef2ll`, `cf.hpp:142-147,207-212`. -/
noncomputable def k1 : ℝ := 42697672707157535 / 10 ^ 12
/-- See `k1`. -/
noncomputable def k2 : ℝ := 18230912546075455 / 10 ^ 7
/-- See `k1`. -/
noncomputable def k3 : ℝ := 14291722289812413 / 10 ^ 14
/-- See `k1`. -/
noncomputable def k4 : ℝ := 45577281365188637 / 10 ^ 7
/-- See `k1`. -/
noncomputable def k5 : ℝ := 42840589930055659 / 10 ^ 12
/-- See `k1`. -/
noncomputable def k6 : ℝ := 99330562000986220 / 10 ^ 17

/-- `ecef2lla`, `cf.hpp:133-196`. -/
noncomputable def ecef2lla (q : Fin 3 → ℝ) : Fin 3 → ℝ :=
  let x := q 0
  let y := q 1
  let z := q 2
  let zp := |z|
  let w2 := x * x + y * y
  let w := Real.sqrt w2
  let z2 := z * z
  let r2 := w2 + z2
  let r := Real.sqrt r2
  let lon := atan2 y x
  let s2 := z2 / r2
  let c2 := w2 / r2
  let u := k2 / r
  let v := k3 - k4 / r
  let s := if 0.3 < c2 then (zp / r) * (1 + c2 * (k1 + u + s2 * v) / r)
    else Real.sqrt (1 - ((w / r) * (1 - s2 * (k5 - u - c2 * v) / r)) *
      ((w / r) * (1 - s2 * (k5 - u - c2 * v) / r)))
  let c := if 0.3 < c2 then Real.sqrt (1 - s * s)
    else (w / r) * (1 - s2 * (k5 - u - c2 * v) / r)
  let lat := if 0.3 < c2 then Real.arcsin s else Real.arccos c
  let ss := if 0.3 < c2 then s * s else 1 - c * c
  let g := 1 - e2 * ss
  let rg := ea / Real.sqrt g
  let rf := k6 * rg
  let u := w - rg * c
  let v := zp - rf * s
  let f := c * u + s * v
  let m := c * v - s * u
  let p := m / (rf / g + f)
  let lat := lat + p
  let alt := f + m * p / 2
  let lat := if z < 0 then -lat else lat
  ![lat * 180 / Real.pi, lon * 180 / Real.pi, alt]

/-- `ecef2ll`, `cf.hpp:198-259`. -/
noncomputable def ecef2ll (q : Fin 3 → ℝ) : Fin 2 → ℝ :=
  let x := q 0
  let y := q 1
  let z := q 2
  let zp := |z|
  let w2 := x * x + y * y
  let w := Real.sqrt w2
  let z2 := z * z
  let r2 := w2 + z2
  let r := Real.sqrt r2
  let lon := atan2 y x
  let s2 := z2 / r2
  let c2 := w2 / r2
  let u := k2 / r
  let v := k3 - k4 / r
  let s := if 0.3 < c2 then (zp / r) * (1 + c2 * (k1 + u + s2 * v) / r)
    else Real.sqrt (1 - ((w / r) * (1 - s2 * (k5 - u - c2 * v) / r)) *
      ((w / r) * (1 - s2 * (k5 - u - c2 * v) / r)))
  let c := if 0.3 < c2 then Real.sqrt (1 - s * s)
    else (w / r) * (1 - s2 * (k5 - u - c2 * v) / r)
  let lat := if 0.3 < c2 then Real.arcsin s else Real.arccos c
  let ss := if 0.3 < c2 then s * s else 1 - c * c
  let g := 1 - e2 * ss
  let rg := ea / Real.sqrt g
  let rf := k6 * rg
  let u := w - rg * c
  let v := zp - rf * s
  let f := c * u + s * v
  let m := c * v - s * u
  let p := m / (rf / g + f)
  let lat := lat + p
  let lat := if z < 0 then -lat else lat
  ![lat * 180 / Real.pi, lon * 180 / Real.pi]

/-- `ned2ecef`, `cf.hpp:261-265`. -/
noncomputable def ned2ecef (ned o : Fin 3 → ℝ) : Fin 3 → ℝ :=
  lla2ecef o + (nedrot (o 0) (o 1))ᵀ *ᵥ ned

/-- `ne2ecef`, `cf.hpp:267-274`. -/
noncomputable def ne2ecef (ne o : Fin 2 → ℝ) : Fin 3 → ℝ :=
  ll2ecef (ecef2ll (ll2ecef o + (nedrot (o 0) (o 1))ᵀ *ᵥ ![ne 0, ne 1, 0]))

/-- `ned2lla`, `cf.hpp:276-280`. -/
noncomputable def ned2lla (ned o : Fin 3 → ℝ) : Fin 3 → ℝ := ecef2lla (ned2ecef ned o)

/-- `ne2ll`, `cf.hpp:282-286`. -/
noncomputable def ne2ll (ne o : Fin 2 → ℝ) : Fin 2 → ℝ := ecef2ll (ne2ecef ne o)

/-- What a target's component or a report goes through in `transform_to_local` and
`transform_to_global`, `gaussian.hpp:158-164`, `cf.hpp:288-297`. -/
noncomputable def roundTrip (o p : Fin 2 → ℝ) : Fin 2 → ℝ := ne2ll (ll2ne p o) o

end Verif.CF

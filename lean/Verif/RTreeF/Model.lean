import Verif.RTree.Model
import Verif.LapF.Binary64
import Mathlib.Analysis.Real.Sqrt

/-!
# The R-tree `include/RTree.h` with areas computed in `double`

`Verif/RTree/Model.lean` takes the arithmetic on areas as a parameter.  Here that arithmetic is the
one of the instantiation used by clmb (`include/targettree.hpp:24`: `ELEMTYPE = double`, hence
`ELEMTYPEREAL = double`, `RTree.h:44-46`): every operation is rounded to the nearest binary64
number, overflows to an infinity, and yields NaN where IEEE 754 says so.  Coordinates are only
compared and copied by the rest of the code, which is exact.
`std::sqrt` is any function that returns a `double` nearest to the real square root
(`CorrectSqrt`, what IEEE 754 requires).  Signed zeros are not modelled: no operation below
distinguishes them.
-/

namespace Verif.RTreeF

open Verif.Lap Verif.LapF
open Verif.RTree (Rect Areas)

/-- `a * b` on `double`, `RTree.h:1153-1166`. -/
def mul64 : XR → XR → XR
  | .fin a, .fin b => round64 (a * b)
  | .fin a, .pinf => if a = 0 then .nan else if a < 0 then .ninf else .pinf
  | .pinf, .fin a => if a = 0 then .nan else if a < 0 then .ninf else .pinf
  | .fin a, .ninf => if a = 0 then .nan else if a < 0 then .pinf else .ninf
  | .ninf, .fin a => if a = 0 then .nan else if a < 0 then .pinf else .ninf
  | .pinf, .pinf => .pinf
  | .ninf, .ninf => .pinf
  | .pinf, .ninf => .ninf
  | .ninf, .pinf => .ninf
  | _, _ => .nan

/-- `-a` on `double`, `RTree.h:1260`, `1359`. -/
def neg64 : XR → XR
  | .fin a => .fin (-a)
  | .pinf => .ninf
  | .ninf => .pinf
  | .nan => .nan

/-- `sqrt`, `RTree.h:1157`; `sq` is its value on finite non-negative numbers. -/
def sqrt64 (sq : ℚ → ℚ) : XR → XR
  | .fin a => if a < 0 then .nan else .fin (sq a)
  | .pinf => .pinf
  | _ => .nan

/-- IEEE 754 `squareRoot`: a `double` nearest to the real square root (`RTree.h:1157`). -/
def CorrectSqrt (sq : ℚ → ℚ) : Prop :=
  ∀ x, IsDouble x → 0 ≤ x → IsDouble (sq x) ∧
    ∀ d, IsDouble d → |(sq x : ℝ) - Real.sqrt x| ≤ |(d : ℝ) - Real.sqrt x|

/-- `halfExtent` for one dimension, `RTree.h:1153`. -/
def half64 (lo hi : ℚ) : XR := mul64 (b64.sub (.fin hi) (.fin lo)) (.fin (1 / 2))

/-- `RectSphericalVolume`, `RTree.h:1144-1172`. -/
def vol64 (sq : ℚ → ℚ) (r : Rect) : XR :=
  let h0 := half64 r.minx r.maxx
  let h1 := half64 r.miny r.maxy
  let s := b64.add (b64.add (.fin 0) (mul64 h0 h0)) (mul64 h1 h1)
  let radius := sqrt64 sq s
  mul64 (mul64 radius radius) (.fin RTree.unitSphereVolume)

/-- The area arithmetic of `RTree<…, double, 2>`, `RTree.h:44-46`, `1144-1184`. -/
def areas64 (sq : ℚ → ℚ) : Areas :=
  ⟨XR, vol64 sq, b64.sub, neg64, .fin 0, .fin 1, XR.lt, XR.feq⟩

end Verif.RTreeF

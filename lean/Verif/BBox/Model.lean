import Mathlib.Algebra.Order.Field.Basic
import Mathlib.Data.Fin.VecNotation

/-!
# Bounding boxes, `include/bbox.hpp`

Coordinates are elements of an ordered field (exact arithmetic, no NaN).  The construction from a
Gaussian, `from_gaussian`, is in `Verif.BBox.Gauss`.
-/

namespace Verif.BBox

variable {K : Type*} [Field K] [LinearOrder K]

/-- A point: `x[0]`, `x[1]` (also `x.x()`, `x.y()`), `bbox.hpp:83,217`. -/
abbrev Pt (K : Type*) := K × K

/-- `AABBox`, `bbox.hpp:12-14`: `min[0]`, `min[1]`, `max[0]`, `max[1]`. -/
structure AABB (K : Type*) where
  x0 : K
  y0 : K
  x1 : K
  y1 : K
  deriving DecidableEq

/-- The constructor from two corners, `bbox.hpp:30-33`. -/
def AABB.mk4 (x1 y1 x2 y2 : K) : AABB K := ⟨min x1 x2, min y1 y2, max x1 x2, max y1 y2⟩

/-- `AABBox::from_points`, `bbox.hpp:68-75`; `minCoeff` of no points is undefined. -/
def AABB.fromPoints : List (Pt K) → Option (AABB K)
  | [] => none
  | p :: l => some (l.foldl
      (fun b q => ⟨min b.x0 q.1, min b.y0 q.2, max b.x1 q.1, max b.y1 q.2⟩)
      ⟨p.1, p.2, p.1, p.2⟩)

/-- `AABBox::intersects`, `bbox.hpp:77-80`. -/
def AABB.intersects (a b : AABB K) : Bool :=
  !(decide (a.x1 < b.x0) || decide (b.x1 < a.x0) || decide (b.y1 < a.y0) || decide (a.y1 < b.y0))

/-- `AABBox::within`, `bbox.hpp:82-85`. -/
def AABB.within (a : AABB K) (p : Pt K) : Bool :=
  !(decide (p.1 < a.x0) || decide (a.x1 < p.1) || decide (p.2 < a.y0) || decide (a.y1 < p.2))

/-- `BBox`, `bbox.hpp:111-113`: the columns of `corners`. -/
structure Box (K : Type*) where
  c0 : Pt K
  c1 : Pt K
  c2 : Pt K
  c3 : Pt K
  deriving DecidableEq

/-- The constructor from an `AABBox`, `bbox.hpp:124-127`. -/
def Box.ofAABB (b : AABB K) : Box K := ⟨(b.x1, b.y1), (b.x1, b.y0), (b.x0, b.y0), (b.x0, b.y1)⟩

/-- `BBox::aabbox`, `bbox.hpp:237-243`. -/
def Box.aabbox (b : Box K) : AABB K :=
  AABB.mk4 (min (min (min b.c0.1 b.c1.1) b.c2.1) b.c3.1) (min (min (min b.c0.2 b.c1.2) b.c2.2) b.c3.2)
    (max (max (max b.c0.1 b.c1.1) b.c2.1) b.c3.1) (max (max (max b.c0.2 b.c1.2) b.c2.2) b.c3.2)

/-- The condition inside the loop of `within`, `bbox.hpp:228-230`, for the corners `ci` and `cj`. -/
def toggles (ci cj p : Pt K) : Bool :=
  (decide (p.2 < ci.2) != decide (p.2 < cj.2)) &&
    decide (p.1 < (cj.1 - ci.1) * (p.2 - ci.2) / (cj.2 - ci.2) + ci.1)

/-- `BBox::within`, `bbox.hpp:216-235`: the loop's pairs `(i, j)` are `(0, 3)`, `(1, 0)`, `(2, 1)`
and `(3, 2)`. -/
def Box.within (b : Box K) (p : Pt K) : Bool :=
  if !b.aabbox.within p then false
  else
    let c := false
    let c := if toggles b.c0 b.c3 p then !c else c
    let c := if toggles b.c1 b.c0 p then !c else c
    let c := if toggles b.c2 b.c1 p then !c else c
    if toggles b.c3 b.c2 p then !c else c

/-- `denom`, `bbox.hpp:200`, from the corners 0 and 2 of both boxes. -/
def denom (a b : Box K) : K :=
  (a.c0.1 - a.c2.1) * (b.c0.2 - b.c2.2) - (a.c0.2 - a.c2.2) * (b.c0.1 - b.c2.1)

/-- `centerpoint`, `bbox.hpp:204-208`: where the diagonals meet. -/
def center (a b : Box K) : Pt K :=
  (((a.c0.1 * a.c2.2 - a.c0.2 * a.c2.1) * (b.c0.1 - b.c2.1) -
      (a.c0.1 - a.c2.1) * (b.c0.1 * b.c2.2 - b.c0.2 * b.c2.1)) / denom a b,
   ((a.c0.1 * a.c2.2 - a.c0.2 * a.c2.1) * (b.c0.2 - b.c2.2) -
      (a.c0.2 - a.c2.2) * (b.c0.1 * b.c2.2 - b.c0.2 * b.c2.1)) / denom a b)

/-- `BBox::intersects`, `bbox.hpp:173-210`. -/
def Box.intersects (a b : Box K) : Bool :=
  if b.within a.c0 then true else if b.within a.c1 then true
  else if b.within a.c2 then true else if b.within a.c3 then true
  else if a.within b.c0 then true else if a.within b.c1 then true
  else if a.within b.c2 then true else if a.within b.c3 then true
  else if a = b then true
  else if denom a b < 1 / 1000000000 then false
  else a.within (center a b)

/-- `BBox::intersects` with an `AABBox`, `bbox.hpp:212-214`. -/
def Box.intersectsAABB (a : Box K) (b : AABB K) : Bool := a.aabbox.intersects b

/-- The field of view of a new `PositionSensor`, `sensors.hpp:32-33`. -/
def defaultFov : Box K := ⟨(90, 180), (90, 0), (-90, 0), (-90, 180)⟩

/-- The axis-aligned box of a mixture, `gm.hpp:64-76`: `comps` are the positions `x[0], x[1]` of the
components with their boxes.  `none`: the mixture is empty and the box is left as it was
(`gm.hpp:58-60`). -/
def mixBox : List (Pt K × AABB K) → Option (AABB K)
  | [] => none
  | g :: l => some ((g :: l).foldl
      (fun b h => ⟨min b.x0 h.2.x0, min b.y0 h.2.y0, max b.x1 h.2.x1, max b.y1 h.2.y1⟩)
      ⟨g.1.1, g.1.2, g.1.1, g.1.2⟩)

/-- `Gaussian_::overlap`, `gaussian.hpp:122-148`, for the samples drawn; `ins` is `within` of the
box. -/
def overlap (ins : Pt K → Bool) (samples : List (Pt K)) : K :=
  (samples.foldl (fun n p => if ins p then n + 1 else n) 0) / samples.length

/-- `GM::overlap`, `gm.hpp:268-284`: weights and samples of the components.  The order of the
parallel reduction does not matter in exact arithmetic. -/
def mixOverlap (ins : Pt K → Bool) (comps : List (K × List (Pt K))) : K :=
  comps.foldl (fun r g => r + g.1 * overlap ins g.2) 0

/-- `PositionSensor::pD`, `sensors.hpp:43-46`. -/
def sensorPD (pD : K) (ins : Pt K → Bool) (comps : List (K × List (Pt K))) : K :=
  pD * mixOverlap ins comps

end Verif.BBox

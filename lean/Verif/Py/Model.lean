import Mathlib.Data.Fin.VecNotation
import Mathlib.Data.Nat.Log

/-!
# Pickling, `lmb/lmb.cpp`, and target summaries, `include/target.hpp`

`α` is the type of doubles; only its comparison is used.
-/

namespace Verif.Py

variable {α : Type}

/-- The Python values that occur in the state tuples: a float, an integer, a one-dimensional and a
two-dimensional array (`py::make_tuple`, `lmb/lmb.cpp:66,93,127,160`).  The interpreter's pickling
of these values themselves is taken to be faithful. -/
inductive PyVal (α : Type) where
  | flt (x : α)
  | int (n : Int)
  | vec (n : Nat) (f : Fin n → α)
  | mat (r c : Nat) (f : Fin r → Fin c → α)

/-- `cast<double>()`, `lmb/lmb.cpp:77-78,103-104`; `none` is an exception.  The conversion of an
integer to a double is not modelled. -/
def PyVal.toDouble : PyVal α → Option α
  | .flt x => some x
  | _ => none

/-- `cast<unsigned>()`, `lmb/lmb.cpp:140-141,172`: an exception if the number does not fit. -/
def PyVal.toUnsigned : PyVal α → Option (Fin (2 ^ 32))
  | .int n => if h : 0 ≤ n ∧ n < 2 ^ 32 then some ⟨n.toNat, by omega⟩ else none
  | _ => none

/-- The cast to a column vector, `lmb/lmb.cpp:137,169`: an exception if the shape differs.  (A
two-dimensional array of one column is accepted as well.) -/
def PyVal.toVec (n : Nat) : PyVal α → Option (Fin n → α)
  | .vec m f => if h : n = m then some fun i => f (Fin.cast h i) else none
  | .mat m 1 f => if h : n = m then some fun i => f (Fin.cast h i) 0 else none
  | _ => none

/-- The cast to a matrix, `lmb/lmb.cpp:138,170`. -/
def PyVal.toMat (n : Nat) : PyVal α → Option (Fin n → Fin n → α)
  | .mat m k f =>
    if h : n = m ∧ n = k then some fun i j => f (Fin.cast h.1 i) (Fin.cast h.2 j) else none
  | _ => none

/-- `BBox`: the entries of `corners`, `bbox.hpp:112-113`. -/
abbrev Corners (α : Type) := Fin 2 → Fin 4 → α

/-- `corners(k)`: Eigen stores matrices column by column, `lmb/lmb.cpp:66-67`. -/
def lin (c : Corners α) (k : Fin 8) : α := c ⟨k % 2, by omega⟩ ⟨k / 2, by omega⟩

/-- `__getstate__` of `BBox`, `lmb/lmb.cpp:64-69`. -/
def bboxGet (c : Corners α) : List (PyVal α) :=
  [.flt (lin c 0), .flt (lin c 1), .flt (lin c 2), .flt (lin c 3), .flt (lin c 4), .flt (lin c 5),
    .flt (lin c 6), .flt (lin c 7)]

/-- `__setstate__` of `BBox`, `lmb/lmb.cpp:70-79`: the comma initialiser goes row by row.  `none` is
an exception. -/
def bboxSet (t : List (PyVal α)) : Option (Corners α) :=
  match t with
  | [t0, t1, t2, t3, t4, t5, t6, t7] => do
    let a0 ← t0.toDouble
    let a2 ← t2.toDouble
    let a4 ← t4.toDouble
    let a6 ← t6.toDouble
    let a1 ← t1.toDouble
    let a3 ← t3.toDouble
    let a5 ← t5.toDouble
    let a7 ← t7.toDouble
    return ![![a0, a2, a4, a6], ![a1, a3, a5, a7]]
  | _ => none

/-- `AABBox`, `bbox.hpp:12-14`. -/
structure AABB (α : Type) where
  min0 : α
  min1 : α
  max0 : α
  max1 : α

/-- `std::min`, `bbox.hpp:31`, from the comparison of doubles (false if one is not a number). -/
def cmin (lt : α → α → Bool) (a b : α) : α := if lt b a then b else a

/-- `std::max`, `bbox.hpp:32`. -/
def cmax (lt : α → α → Bool) (a b : α) : α := if lt a b then b else a

/-- The constructor from two corners, `bbox.hpp:30-33`. -/
def aabbMk (lt : α → α → Bool) (x1 y1 x2 y2 : α) : AABB α :=
  ⟨cmin lt x1 x2, cmin lt y1 y2, cmax lt x1 x2, cmax lt y1 y2⟩

/-- `__getstate__` of `AABBox`, `lmb/lmb.cpp:91-96`. -/
def aabbGet (b : AABB α) : List (PyVal α) :=
  [.flt b.min0, .flt b.min1, .flt b.max0, .flt b.max1]

/-- `__setstate__` of `AABBox`, `lmb/lmb.cpp:97-105`. -/
def aabbSet (lt : α → α → Bool) (t : List (PyVal α)) : Option (AABB α) :=
  match t with
  | [t0, t1, t2, t3] => do
    let a0 ← t0.toDouble
    let a1 ← t1.toDouble
    let a2 ← t2.toDouble
    let a3 ← t3.toDouble
    return aabbMk lt a0 a1 a2 a3
  | _ => none

/-- `TargetSummary_` for `STATES` = 4, `target.hpp:20-31`, without the reference `r`. -/
structure Summary (α : Type) where
  x : Fin 4 → α
  P : Fin 4 → Fin 4 → α
  w : α
  id : Fin (2 ^ 32)
  cid : Fin (2 ^ 32)

/-- `__getstate__` of `Target`, `lmb/lmb.cpp:125-129`. -/
def sumGet (t : Summary α) : List (PyVal α) :=
  [.vec 4 t.x, .mat 4 4 t.P, .flt t.w, .int t.id.val, .int t.cid.val]

/-- `__setstate__` of `Target`, `lmb/lmb.cpp:130-142`. -/
def sumSet (t : List (PyVal α)) : Option (Summary α) :=
  match t with
  | [t0, t1, t2, t3, t4] => do
    let x ← t0.toVec 4
    let P ← t1.toMat 4
    let w ← t2.toDouble
    let id ← t3.toUnsigned
    let cid ← t4.toUnsigned
    return ⟨x, P, w, id, cid⟩
  | _ => none

/-- `GaussianReport_<2>`, `report.hpp:12-20`, `gaussian.hpp:18-20`; `rB` is `none` as long as nothing
has been assigned to it. -/
structure Report (α : Type) where
  x : Fin 2 → α
  P : Fin 2 → Fin 2 → α
  w : α
  rB : Option α
  kappa : α
  cid : Fin (2 ^ 32)

/-- The constructor from mean, covariance and `kappa`, `report.hpp:30-31`, with the default weight
1.0 (`gaussian.hpp:24`) and `cid` 0 (`report.hpp:20`). -/
def reportMk (one : α) (x : Fin 2 → α) (P : Fin 2 → Fin 2 → α) (kappa : α) : Report α :=
  ⟨x, P, one, none, kappa, 0⟩

/-- `__getstate__` of `GaussianReport`, `lmb/lmb.cpp:158-162`. -/
def repGet (r : Report α) : List (PyVal α) :=
  [.vec 2 r.x, .mat 2 2 r.P, .flt r.kappa, .int r.cid.val]

/-- `__setstate__` of `GaussianReport`, `lmb/lmb.cpp:163-174`. -/
def repSet (one : α) (t : List (PyVal α)) : Option (Report α) :=
  match t with
  | [t0, t1, t2, t3] => do
    let x ← t0.toVec 2
    let P ← t1.toMat 2
    let kappa ← t2.toDouble
    let cid ← t3.toUnsigned
    return { reportMk one x P kappa with cid := cid }
  | _ => none

/-! ## The list returned by `get_targets` -/

/-- An element of the vector: its weight and where the reference `r` points to (block of memory,
index), `target.hpp:26,30-31`. -/
structure Elem (α : Type) where
  w : α
  ref : Nat × Nat

/-- A `std::vector` of summaries: the number of its block of memory (blocks are numbered in the
order of allocation; only the last one is alive), its capacity and its elements. -/
structure Vec (α : Type) where
  block : Nat
  cap : Nat
  els : List (Elem α)

/-- The empty vector, `lmb.hpp:181,196`. -/
def Vec.empty : Vec α := ⟨0, 0, []⟩

/-- `emplace_back`, `lmb.hpp:185-189,200-204`.  A full vector moves to a larger block, of the capacity
that `grow` gives, with the implicit copy constructor of `TargetSummary_`, which copies the
reference: it still refers to the old block, which is freed. -/
def Vec.emplace (grow : Nat → Nat) (v : Vec α) (w : α) : Vec α :=
  if v.els.length < v.cap then { v with els := v.els ++ [⟨w, v.block, v.els.length⟩] }
  else ⟨v.block + 1, grow v.cap, v.els ++ [⟨w, v.block + 1, v.els.length⟩]⟩

/-- `get_targets`, `lmb.hpp:180-208`, for the probabilities of existence of the targets. -/
def getTargets (grow : Nat → Nat) (rs : List α) : Vec α := rs.foldl (Vec.emplace grow) Vec.empty

/-- Reading `r` of element `i`, `target.hpp:26`: undefined if it refers to a freed block. -/
def Vec.readR (v : Vec α) (i : Nat) : Option α :=
  match v.els[i]? with
  | none => none
  | some e => if e.ref.1 = v.block then (v.els[e.ref.2]?).map Elem.w else none

/-- The growth of libstdc++: twice the size, at least 1. -/
def dbl (n : Nat) : Nat := if n = 0 then 1 else 2 * n

end Verif.Py

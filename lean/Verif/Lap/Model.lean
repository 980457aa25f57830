import Verif.Lap.XR
import Mathlib.Data.List.FinRange
import Mathlib.Logic.Function.Basic

/-!
# Model of the linear assignment solver `include/rlapjv.h`

Rows are `Fin n`, columns `Fin m`.  Index arrays whose entries are written only with loop
variables or `-1` are typed `… → Option (Fin _)` (`none` is `-1`); using a `-1` as an index, and
reading a position outside an array, is undefined behaviour.  Every function returns `none` for
undefined behaviour, and also when a loop does not end within the given fuel.
The search `find_umins` for the two smallest reduced costs is an argument `fu` of the functions
that depend on it: without AVX2 (`rlapjv.h:254-256`, and in every build described by
`Tuprules.tup`) it is `find_umins_plain`, `findUmins` below; the AVX2 variants are in
`Verif/Lap/Avx.lean`.  The `omp simd` hints do not change the meaning.
-/

namespace Verif.Lap

variable {n m : Nat}

/-- `CostMatrix`, `rlapjv.h:10`. -/
abbrev Cost (n m : Nat) := Fin n → Fin m → XR

/-- Loop body of `find_umins_plain`, `rlapjv.h:37-55`, for `h = local_cost[j] - v[j]`;
state `(umin, usubmin, j1, j2)`. -/
def uminsStep (h : Fin m → XR) (s : XR × XR × Fin m × Option (Fin m)) (j : Fin m) :
    XR × XR × Fin m × Option (Fin m) :=
  if (h j).lt s.2.1 then
    if s.1.le (h j) then (s.1, h j, s.2.2.1, some j)
    else (h j, s.1, j, some s.2.2.1)
  else s

/-- `find_umins_plain`, `rlapjv.h:26-57`.  With no column, `local_cost[0]` is out of range. -/
def findUmins (crow v : Fin m → XR) : Option (XR × XR × Fin m × Option (Fin m)) :=
  match List.finRange m with
  | [] => none
  | j0 :: js =>
    let h := fun j => (crow j).sub (v j)
    some (js.foldl (uminsStep h) (h j0, XR.pinf, j0, none))

/-- Signature of `find_umins`, `rlapjv.h:26-30`, `66-70`, `160-164`, for the row `crow` of the cost
matrix.  `none` if it has undefined behaviour, or returns a negative `j1`, which the only caller uses
as an index (`317`). -/
abbrev FindUmins (m : Nat) :=
  (Fin m → XR) → (Fin m → XR) → Option (XR × XR × Fin m × Option (Fin m))

/-- `rowsol`, `colsol`, `v` of `rlap`, `rlapjv.h:270-273`. -/
structure St (n m : Nat) where
  rowsol : Fin n → Option (Fin m)
  colsol : Fin m → Option (Fin n)
  v : Fin m → XR

/-- What happens to the displaced row `i0`, `rlapjv.h:338-352`. -/
inductive Displaced (n : Nat) where
  | nothing
  | again (i0 : Fin n)
  | later (i0 : Fin n)

/-- Body of the augmenting row reduction for one row, `rlapjv.h:312-352`. -/
def arrStep (fu : FindUmins m) (C : Cost n m) (i : Fin n) (s : St n m) : Option (St n m × Displaced n) :=
  match fu (C i) s.v with
  | none => none
  | some (umin, usubmin, j1, j2) =>
    let vnew := (s.v j1).sub (usubmin.sub umin)
    if vnew.lt (s.v j1) then
      some (⟨Function.update s.rowsol i (some j1), Function.update s.colsol j1 (some i),
          Function.update s.v j1 vnew⟩,
        match s.colsol j1 with
        | none => .nothing
        | some i0 => .again i0)
    else
      match s.colsol j1 with
      | none =>
        some (⟨Function.update s.rowsol i (some j1), Function.update s.colsol j1 (some i), s.v⟩,
          .nothing)
      | some _ =>
        match j2 with
        | none => none
        | some j2 =>
          some (⟨Function.update s.rowsol i (some j2), Function.update s.colsol j2 (some i), s.v⟩,
            match s.colsol j2 with
            | none => .nothing
            | some i0 => .later i0)

/-- `while (k < prevnumfree)`, `rlapjv.h:308-353`, with fuel.  `free` is the array of length
`dim0`; the result contains the state, the array and `numfree`. -/
def arrLoop (fu : FindUmins m) (C : Cost n m) (pnf : Nat) : Nat → Nat → Nat → List (Fin n) → St n m →
    Option (St n m × List (Fin n) × Nat)
  | 0, _, _, _, _ => none
  | f + 1, k, numfree, free, s =>
    if k < pnf then
      match free[k]? with
      | none => none
      | some i =>
        match arrStep fu C i s with
        | none => none
        | some (s', .nothing) => arrLoop fu C pnf f (k + 1) numfree free s'
        | some (s', .again i0) => arrLoop fu C pnf f k numfree (free.set k i0) s'
        | some (s', .later i0) =>
          if numfree < free.length then
            arrLoop fu C pnf f (k + 1) (numfree + 1) (free.set numfree i0) s'
          else none
    else some (s, free, numfree)

/-- Search for the columns with minimal distance, `rlapjv.h:399-414`; the first argument is the
number of positions left.  Returns `up`, `min` and `collist`. -/
def minScan (d : Fin m → XR) (low : Nat) :
    Nat → Nat → Nat → XR → List (Fin m) → Option (Nat × XR × List (Fin m))
  | 0, _, up, mn, L => some (up, mn, L)
  | r + 1, k, up, mn, L =>
    match L[k]? with
    | none => none
    | some j =>
      if (d j).le mn then
        let up1 := if (d j).lt mn then low else up
        let mn1 := if (d j).lt mn then d j else mn
        match L[up1]? with
        | none => none
        | some a => minScan d low r (k + 1) (up1 + 1) mn1 ((L.set k a).set up1 j)
      else minScan d low r (k + 1) up mn L

/-- First unassigned column among the minimal ones, `rlapjv.h:418-426`.  Outer `none` is
undefined behaviour. -/
def firstFree (colsol : Fin m → Option (Fin n)) (L : List (Fin m)) :
    Nat → Nat → Option (Option (Fin m))
  | 0, _ => some none
  | r + 1, k =>
    match L[k]? with
    | none => none
    | some j => match colsol j with
      | none => some (some j)
      | some _ => firstFree colsol L r (k + 1)

/-- `d`, `pred`, `collist`, `up` and `endofpath` in the relaxation loop, `rlapjv.h:437-461`. -/
structure RelaxSt (n m : Nat) where
  d : Fin m → XR
  pred : Fin m → Fin n
  L : List (Fin m)
  up : Nat
  eop : Option (Fin m)

/-- Relaxation of the unscanned columns, `rlapjv.h:437-461`; the first argument is the number of
positions left. -/
def relax (crow v : Fin m → XR) (h mn : XR) (colsol : Fin m → Option (Fin n)) (i : Fin n) :
    Nat → Nat → RelaxSt n m → Option (RelaxSt n m)
  | 0, _, s => some s
  | r + 1, k, s =>
    match s.L[k]? with
    | none => none
    | some j =>
      let v2 := ((crow j).sub (v j)).sub h
      if v2.lt (s.d j) then
        let pred := Function.update s.pred j i
        if v2.feq mn then
          match colsol j with
          | none => some { s with pred := pred, eop := some j }
          | some _ =>
            match s.L[s.up]? with
            | none => none
            | some a =>
              relax crow v h mn colsol i r (k + 1)
                { s with pred := pred, d := Function.update s.d j v2,
                         L := (s.L.set k a).set s.up j, up := s.up + 1 }
        else
          relax crow v h mn colsol i r (k + 1)
            { s with pred := pred, d := Function.update s.d j v2 }
      else relax crow v h mn colsol i r (k + 1) s

/-- Local state of the shortest path search, `rlapjv.h:376-390`; `last1` is `last + 1`. -/
structure Dij (n m : Nat) where
  d : Fin m → XR
  pred : Fin m → Fin n
  L : List (Fin m)
  low : Nat
  up : Nat
  last1 : Nat
  mn : XR

/-- The part of the `do` loop executed when `up == low`, `rlapjv.h:393-427`. -/
def newMin (colsol : Fin m → Option (Fin n)) (s : Dij n m) :
    Option (Dij n m × Option (Fin m)) :=
  match s.L[s.up]? with
  | none => none
  | some j0 =>
    match minScan s.d s.low (m - (s.up + 1)) (s.up + 1) (s.up + 1) (s.d j0) s.L with
    | none => none
    | some (up, mn, L) =>
      match firstFree colsol L (up - s.low) s.low with
      | none => none
      | some e => some ({ s with last1 := s.low, up := up, mn := mn, L := L }, e)

/-- The part of the `do` loop executed while no unassigned column is found, `rlapjv.h:429-462`. -/
def scanCol (C : Cost n m) (v : Fin m → XR) (colsol : Fin m → Option (Fin n)) (s : Dij n m) :
    Option (Dij n m × Option (Fin m)) :=
  match s.L[s.low]? with
  | none => none
  | some j1 =>
    match colsol j1 with
    | none => none
    | some i =>
      let h := ((C i j1).sub (v j1)).sub s.mn
      match relax (C i) v h s.mn colsol i (m - s.up) s.up ⟨s.d, s.pred, s.L, s.up, none⟩ with
      | none => none
      | some r =>
        some ({ s with d := r.d, pred := r.pred, L := r.L, up := r.up, low := s.low + 1 }, r.eop)

/-- The `do … while (!unassigned_found)` loop, `rlapjv.h:391-463`, with fuel. -/
def dijkstra (C : Cost n m) (v : Fin m → XR) (colsol : Fin m → Option (Fin n)) :
    Nat → Dij n m → Option (Dij n m × Fin m)
  | 0, _ => none
  | f + 1, s =>
    match (if s.up = s.low then newMin colsol s else some (s, none)) with
    | none => none
    | some (s, some e) => some (s, e)
    | some (s, none) =>
      match scanCol C v colsol s with
      | none => none
      | some (s, some e) => some (s, e)
      | some (s, none) => dijkstra C v colsol f s

/-- Column price update, `rlapjv.h:469-473`. -/
def updatePrices (d : Fin m → XR) (mn : XR) (js : List (Fin m)) (v : Fin m → XR) : Fin m → XR :=
  js.foldl (fun v j => Function.update v j (((v j).add (d j)).sub mn)) v

/-- Reset of the assignments along the alternating path, `rlapjv.h:476-486`, with fuel. -/
def flip (pred : Fin m → Fin n) (freerow : Fin n) :
    Nat → (Fin n → Option (Fin m)) → (Fin m → Option (Fin n)) → Fin m →
    Option ((Fin n → Option (Fin m)) × (Fin m → Option (Fin n)))
  | 0, _, _, _ => none
  | f + 1, rowsol, colsol, e =>
    let i := pred e
    let colsol' := Function.update colsol e (some i)
    let rowsol' := Function.update rowsol i (some e)
    if i = freerow then some (rowsol', colsol')
    else
      match rowsol i with
      | none => none
      | some e' => flip pred freerow f rowsol' colsol' e'

/-- One augmentation, `rlapjv.h:363-487`. -/
def augment (C : Cost n m) (fuel : Nat) (freerow : Fin n) (s : St n m) : Option (St n m) :=
  let init : Dij n m := ⟨fun j => (C freerow j).sub (s.v j), fun _ => freerow, List.finRange m,
    0, 0, 0, XR.fin 0⟩
  match dijkstra C s.v s.colsol fuel init with
  | none => none
  | some (t, e) =>
    let v := updatePrices t.d t.mn (t.L.take t.last1) s.v
    match flip t.pred freerow fuel s.rowsol s.colsol e with
    | none => none
    | some (rowsol, colsol) => some ⟨rowsol, colsol, v⟩

/-- `for f < numfree`, `rlapjv.h:361-487`. -/
def augmentAll (C : Cost n m) (fuel : Nat) : List (Fin n) → St n m → Option (St n m)
  | [], s => some s
  | f :: fs, s => (augment C fuel f s).bind (augmentAll C fuel fs)

/-- Result of `rlap`: `rowsol`, `u`, `v` and the cost. -/
structure Sol (n m : Nat) where
  rowsol : Fin n → Option (Fin m)
  u : Fin n → XR
  v : Fin m → XR
  cost : XR

/-- Final loop, `rlapjv.h:494-508`; `u` keeps its initial value for an unassigned row. -/
def finish (C : Cost n m) (u0 : Fin n → XR) (s : St n m) : Sol n m where
  rowsol := s.rowsol
  u := fun i => match s.rowsol i with
    | none => u0 i
    | some j => (C i j).sub (s.v j)
  v := s.v
  cost := (List.finRange n).foldl (fun acc i => match s.rowsol i with
    | none => acc
    | some j => acc.add (C i j)) (XR.fin 0)

/-- `rlap`, `rlapjv.h:269-515`; `u0`, `v0` are the values on entry. -/
def rlapWith (fu : FindUmins m) (C : Cost n m) (fuel : Nat) (u0 : Fin n → XR) (v0 : Fin m → XR) :
    Option (Sol n m) :=
  match arrLoop fu C n fuel 0 0 (List.finRange n) ⟨fun _ => none, fun _ => none, v0⟩ with
  | none => none
  | some (s1, free1, nf1) =>
    match arrLoop fu C nf1 fuel 0 0 free1 s1 with
    | none => none
    | some (s2, free2, nf2) =>
      (augmentAll C fuel (free2.take nf2) s2).map (finish C u0)

/-- `rlap` with `find_umins_plain`, `rlapjv.h:269-515` and `256`. -/
abbrev rlap (C : Cost n m) (fuel : Nat) (u0 : Fin n → XR) (v0 : Fin m → XR) : Option (Sol n m) :=
  rlapWith findUmins C fuel u0 v0

/-- `__builtin_popcount` of a non-negative `int`, `rlapjv.h:517,533`. -/
def popcount (x : Nat) : Nat := (List.range 31).countP x.testBit

/-- Inner loop over rows, `rlapjv.h:535-544`: is there a row of the subset `x` with a finite entry
in column `col`?  `1 << row` with `row ≥ 32` is undefined; `1 << 31` is negative and has no bit in
common with a non-negative `int`. -/
def hasRow (C : Cost n m) (x : Nat) (col : Fin m) : List (Fin n) → Option Bool
  | [] => some false
  | row :: rows =>
    if 32 ≤ row.val then none
    else if row.val < 31 && x.testBit row.val && !(C row col).isInf then some true
    else hasRow C x col rows

/-- Loop over columns for the subset `x`, `rlapjv.h:532-546`: `some true` is `goto nextn`. -/
def hallSubset (C : Cost n m) (x pop : Nat) : List (Fin m) → Nat → Option Bool
  | [], _ => some false
  | col :: cols, nb =>
    match hasRow C x col (List.finRange n) with
    | none => none
    | some false => hallSubset C x pop cols nb
    | some true => if nb + 1 = pop then some true else hallSubset C x pop cols (nb + 1)

/-- Loop over subsets, `rlapjv.h:531-552`; the first argument is the number of `int` values left.
Incrementing `INT_MAX` is undefined: this happens for 31 or more rows. -/
def hallLoop (C : Cost n m) : Nat → Nat → Option Bool
  | 0, _ => if 31 ≤ n then none else some true
  | r + 1, x =>
    match hallSubset C x (popcount x) (List.finRange m) 0 with
    | none => none
    | some false => some false
    | some true => hallLoop C r (x + 1)

/-- The loop bound of `rlapjv.h:531`: `1 … min (2^rows, 2^31) - 1`. -/
def hallCheck (C : Cost n m) : Option Bool := hallLoop C (2 ^ min n 31 - 1) 1

/-- `lap(C, rowsol, u, v)`, `rlapjv.h:519-559`.  If it returns `false` early, all outputs are
zero (`524-527`). -/
def lapWith (fu : FindUmins m) (C : Cost n m) (fuel : Nat) : Option (Bool × Sol n m) :=
  match hallCheck C with
  | none => none
  | some false =>
    some (false, ⟨fun _ => if h : 0 < m then some ⟨0, h⟩ else none, fun _ => XR.fin 0,
      fun _ => XR.fin 0, XR.fin 0⟩)
  | some true =>
    (rlapWith fu C fuel (fun _ => XR.fin 0) (fun _ => XR.fin 0)).map fun s =>
      ((List.finRange n).all fun i => (s.rowsol i).isSome, s)

/-- `lap(C, rowsol, u, v)` with `find_umins_plain`, `rlapjv.h:519-559` and `256`. -/
abbrev lap (C : Cost n m) (fuel : Nat) : Option (Bool × Sol n m) := lapWith findUmins C fuel

end Verif.Lap

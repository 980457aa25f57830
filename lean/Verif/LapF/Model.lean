import Verif.Lap.Model

/-!
# The assignment solver `include/rlapjv.h` in rounded arithmetic

`Verif/Lap/Model.lean` computes with exact numbers.  Here the same functions are written once more
with the two arithmetic operations the code uses, `-` and `+` on `double`, as parameters: the
result of an operation on two finite numbers is whatever the arithmetic says, also an infinity or
NaN (overflow).  Comparisons are exact, as in IEEE 754.
Everything that does not compute (`uminsStep`, `minScan`, `firstFree`, `newMin`, `flip`,
`hallCheck`) is shared with the exact model; `lap_exact` (`Verif/LapF/Exact.lean`) says that the
two models agree for exact operations.
-/

namespace Verif.LapF

open Verif.Lap

variable {n m : Nat}

/-- What the machine does for `a - b` and `a + b` on finite `double`s, `rlapjv.h:33` and `472`. -/
structure Arith where
  rs : ℚ → ℚ → XR
  ra : ℚ → ℚ → XR

/-- Exact operations, as in `Verif/Lap/XR.lean` (`rlapjv.h:33`, `472`). -/
def Arith.exact : Arith := ⟨fun a b => .fin (a - b), fun a b => .fin (a + b)⟩

/-- IEEE `a - b` with rounding, as in `rlapjv.h:33`. -/
def Arith.sub (A : Arith) : XR → XR → XR
  | .fin a, .fin b => A.rs a b
  | x, y => x.sub y

/-- IEEE `a + b` with rounding, as in `rlapjv.h:472`. -/
def Arith.add (A : Arith) : XR → XR → XR
  | .fin a, .fin b => A.ra a b
  | x, y => x.add y

/-- `find_umins_plain`, `rlapjv.h:26-57`. -/
def findUmins (A : Arith) (crow v : Fin m → XR) : Option (XR × XR × Fin m × Option (Fin m)) :=
  match List.finRange m with
  | [] => none
  | j0 :: js =>
    let h := fun j => A.sub (crow j) (v j)
    some (js.foldl (uminsStep h) (h j0, XR.pinf, j0, none))

/-- Body of the augmenting row reduction for one row, `rlapjv.h:312-352`. -/
def arrStep (A : Arith) (C : Cost n m) (i : Fin n) (s : St n m) :
    Option (St n m × Displaced n) :=
  match findUmins A (C i) s.v with
  | none => none
  | some (umin, usubmin, j1, j2) =>
    let vnew := A.sub (s.v j1) (A.sub usubmin umin)
    if vnew.lt (s.v j1) then
      some (⟨Function.update s.rowsol i (some j1), Function.update s.colsol j1 (some i),
          Function.update s.v j1 vnew⟩,
        match s.colsol j1 with
        | none => .nothing
        | some i0 => .again i0)
    else
      match s.colsol j1 with
      | none =>
        some (⟨Function.update s.rowsol i (some j1), Function.update s.colsol j1 (some i), s.v⟩,
          .nothing)
      | some _ =>
        match j2 with
        | none => none
        | some j2 =>
          some (⟨Function.update s.rowsol i (some j2), Function.update s.colsol j2 (some i), s.v⟩,
            match s.colsol j2 with
            | none => .nothing
            | some i0 => .later i0)

/-- `while (k < prevnumfree)`, `rlapjv.h:308-353`, with fuel. -/
def arrLoop (A : Arith) (C : Cost n m) (pnf : Nat) :
    Nat → Nat → Nat → List (Fin n) → St n m → Option (St n m × List (Fin n) × Nat)
  | 0, _, _, _, _ => none
  | f + 1, k, numfree, free, s =>
    if k < pnf then
      match free[k]? with
      | none => none
      | some i =>
        match arrStep A C i s with
        | none => none
        | some (s', .nothing) => arrLoop A C pnf f (k + 1) numfree free s'
        | some (s', .again i0) => arrLoop A C pnf f k numfree (free.set k i0) s'
        | some (s', .later i0) =>
          if numfree < free.length then
            arrLoop A C pnf f (k + 1) (numfree + 1) (free.set numfree i0) s'
          else none
    else some (s, free, numfree)

/-- Relaxation of the unscanned columns, `rlapjv.h:437-461`; the first argument is the number of
positions left.  `v2 = local_cost[j] - v[j] - h` associates to the left (`440`). -/
def relax (A : Arith) (crow v : Fin m → XR) (h mn : XR) (colsol : Fin m → Option (Fin n))
    (i : Fin n) : Nat → Nat → RelaxSt n m → Option (RelaxSt n m)
  | 0, _, s => some s
  | r + 1, k, s =>
    match s.L[k]? with
    | none => none
    | some j =>
      let v2 := A.sub (A.sub (crow j) (v j)) h
      if v2.lt (s.d j) then
        let pred := Function.update s.pred j i
        if v2.feq mn then
          match colsol j with
          | none => some { s with pred := pred, eop := some j }
          | some _ =>
            match s.L[s.up]? with
            | none => none
            | some a =>
              relax A crow v h mn colsol i r (k + 1)
                { s with pred := pred, d := Function.update s.d j v2,
                         L := (s.L.set k a).set s.up j, up := s.up + 1 }
        else
          relax A crow v h mn colsol i r (k + 1)
            { s with pred := pred, d := Function.update s.d j v2 }
      else relax A crow v h mn colsol i r (k + 1) s

/-- The part of the `do` loop executed while no unassigned column is found, `rlapjv.h:429-462`. -/
def scanCol (A : Arith) (C : Cost n m) (v : Fin m → XR) (colsol : Fin m → Option (Fin n))
    (s : Dij n m) : Option (Dij n m × Option (Fin m)) :=
  match s.L[s.low]? with
  | none => none
  | some j1 =>
    match colsol j1 with
    | none => none
    | some i =>
      let h := A.sub (A.sub (C i j1) (v j1)) s.mn
      match relax A (C i) v h s.mn colsol i (m - s.up) s.up ⟨s.d, s.pred, s.L, s.up, none⟩ with
      | none => none
      | some r =>
        some ({ s with d := r.d, pred := r.pred, L := r.L, up := r.up, low := s.low + 1 }, r.eop)

/-- The `do … while (!unassigned_found)` loop, `rlapjv.h:391-463`, with fuel. -/
def dijkstra (A : Arith) (C : Cost n m) (v : Fin m → XR) (colsol : Fin m → Option (Fin n)) :
    Nat → Dij n m → Option (Dij n m × Fin m)
  | 0, _ => none
  | f + 1, s =>
    match (if s.up = s.low then newMin colsol s else some (s, none)) with
    | none => none
    | some (s, some e) => some (s, e)
    | some (s, none) =>
      match scanCol A C v colsol s with
      | none => none
      | some (s, some e) => some (s, e)
      | some (s, none) => dijkstra A C v colsol f s

/-- Column price update, `rlapjv.h:469-473`: `v[j1] = v[j1] + d[j1] - min`. -/
def updatePrices (A : Arith) (d : Fin m → XR) (mn : XR) (js : List (Fin m)) (v : Fin m → XR) :
    Fin m → XR :=
  js.foldl (fun v j => Function.update v j (A.sub (A.add (v j) (d j)) mn)) v

/-- One augmentation, `rlapjv.h:363-487`. -/
def augment (A : Arith) (C : Cost n m) (fuel : Nat) (freerow : Fin n) (s : St n m) :
    Option (St n m) :=
  let init : Dij n m := ⟨fun j => A.sub (C freerow j) (s.v j), fun _ => freerow, List.finRange m,
    0, 0, 0, XR.fin 0⟩
  match dijkstra A C s.v s.colsol fuel init with
  | none => none
  | some (t, e) =>
    let v := updatePrices A t.d t.mn (t.L.take t.last1) s.v
    match flip t.pred freerow fuel s.rowsol s.colsol e with
    | none => none
    | some (rowsol, colsol) => some ⟨rowsol, colsol, v⟩

/-- `for f < numfree`, `rlapjv.h:361-487`. -/
def augmentAll (A : Arith) (C : Cost n m) (fuel : Nat) : List (Fin n) → St n m → Option (St n m)
  | [], s => some s
  | f :: fs, s => (augment A C fuel f s).bind (augmentAll A C fuel fs)

/-- Final loop, `rlapjv.h:494-508`; `u` keeps its initial value for an unassigned row. -/
def finish (A : Arith) (C : Cost n m) (u0 : Fin n → XR) (s : St n m) : Sol n m where
  rowsol := s.rowsol
  u := fun i => match s.rowsol i with
    | none => u0 i
    | some j => A.sub (C i j) (s.v j)
  v := s.v
  cost := (List.finRange n).foldl (fun acc i => match s.rowsol i with
    | none => acc
    | some j => A.add acc (C i j)) (XR.fin 0)

/-- `rlap`, `rlapjv.h:269-515`, with `find_umins_plain`; `u0`, `v0` are the values on entry. -/
def rlap (A : Arith) (C : Cost n m) (fuel : Nat) (u0 : Fin n → XR) (v0 : Fin m → XR) :
    Option (Sol n m) :=
  match arrLoop A C n fuel 0 0 (List.finRange n) ⟨fun _ => none, fun _ => none, v0⟩ with
  | none => none
  | some (s1, free1, nf1) =>
    match arrLoop A C nf1 fuel 0 0 free1 s1 with
    | none => none
    | some (s2, free2, nf2) =>
      (augmentAll A C fuel (free2.take nf2) s2).map (finish A C u0)

/-- `lap(C, rowsol, u, v)`, `rlapjv.h:519-559`.  If it returns `false` early, all outputs are
zero (`524-527`). -/
def lap (A : Arith) (C : Cost n m) (fuel : Nat) : Option (Bool × Sol n m) :=
  match hallCheck C with
  | none => none
  | some false =>
    some (false, ⟨fun _ => if h : 0 < m then some ⟨0, h⟩ else none, fun _ => XR.fin 0,
      fun _ => XR.fin 0, XR.fin 0⟩)
  | some true =>
    (rlap A C fuel (fun _ => XR.fin 0) (fun _ => XR.fin 0)).map fun s =>
      ((List.finRange n).all fun i => (s.rowsol i).isSome, s)

end Verif.LapF

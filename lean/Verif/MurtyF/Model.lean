import Verif.Murty.Model
import Verif.LapF.Model

/-!
# Model of `include/murty.hpp` in rounded arithmetic

`Verif/Murty/Model.lean` computes with exact numbers.  Here the functions that compute are written
once more with the operations `-` and `+` on `double` as a parameter `ar` (`LapF.Arith`), and the
product in the constructor as a parameter `rm`.  The data structures, the comparisons and everything
that does not compute are shared with the exact model; `draws_exact` (`Verif/MurtyF/Exact.lean`)
says that the two models agree for exact operations.
-/

namespace Verif.MurtyF

open Verif.Lap Verif.LapF Verif.Murty

variable {n m r c : Nat} (ar : Arith)

/-- `partition_with`, `murty.hpp:115-127`, with `allbut`, `28-77`.  The new `res` is empty. -/
def partitionWith : Node n m → Nat → Nat → Option (Node n m)
  | ⟨r + 1, c + 1, C, u, v, cost, bound, _, sol, _, rmap, cmap⟩, i, j =>
    if h : i < r + 1 ∧ j < c + 1 then
      let i' : Fin (r + 1) := ⟨i, h.1⟩
      let j' : Fin (c + 1) := ⟨j, h.2⟩
      some ⟨r, c, fun a b => C (i'.succAbove a) (j'.succAbove b), u ∘ i'.succAbove,
        v ∘ j'.succAbove, cost, ar.add bound (C i' j'), false, sol, fun _ => none,
        rmap ∘ i'.succAbove, cmap ∘ j'.succAbove⟩
    else none
  | _, _, _ => none

/-- `partition_without` and `remove`, `murty.hpp:129-153`. -/
def partitionWithout (s : Node n m) (i j : Nat) (dual : XR) : Option (Node n m) :=
  if h : i < s.r ∧ j < s.c then
    some { s with
      C := fun a b => if a = ⟨i, h.1⟩ ∧ b = ⟨j, h.2⟩ then XR.pinf else s.C a b
      cost := ar.add s.cost dual
      solved := false
      res := fun _ => none }
  else none

/-- Body of the loop of `solve`, `murty.hpp:175-179`, on `solution` and `cost`. -/
def fill (C : Cost r c) (res : Fin r → Option (Fin c)) (rmap : Fin r → Fin n)
    (cmap : Fin c → Fin m) :
    List (Fin r) → (Fin n → Option (Fin m)) → XR → Option ((Fin n → Option (Fin m)) × XR)
  | [], sol, cost => some (sol, cost)
  | i :: is, sol, cost =>
    match res i with
    | none => none
    | some j => fill C res rmap cmap is (Function.update sol (rmap i) (some (cmap j)))
        (ar.add cost (C i j))

/-- `solve`, `murty.hpp:155-188`. -/
def solve (fuel : Nat) (s : Node n m) : Option (Node n m × Bool) :=
  match LapF.lap ar s.C fuel with
  | none => none
  | some (false, out) =>
    some ({ s with u := out.u, v := out.v, res := out.rowsol, solved := true }, false)
  | some (true, out) =>
    match fill ar s.C out.rowsol s.rmap s.cmap (List.finRange s.r) s.sol s.bound with
    | none => none
    | some (sol, cost) =>
      some ({ s with u := out.u, v := out.v, res := out.rowsol, solved := true, sol := sol,
                     cost := cost }, cost.lt XR.pinf)

/-- One row of `sort_by_dual`, `murty.hpp:201-215`, for `res[i] = j0`; `C(i,j) - u[i] - v[j]`
associates to the left (`210`). -/
def dualOf (s : Node n m) (i : Fin s.r) (j0 : Fin s.c) : XR :=
  (List.finRange s.c).foldl (fun acc j =>
    if j = j0 then acc
    else if XR.pinf.le (s.C i j) then acc
    else
      let h := ar.sub (ar.sub (s.C i j) (s.u i)) (s.v j)
      if h.lt acc then h else acc) XR.pinf

/-- The unsorted list of `sort_by_dual`, `murty.hpp:198-216`. -/
def duals (s : Node n m) : List (Fin s.r) → Option (List (DualEntry s.r s.c))
  | [] => some []
  | i :: is =>
    match s.res i, duals s is with
    | some j, some l => some ((dualOf ar s i j, i, j) :: l)
    | _, _ => none

/-- `sort_by_dual`, `murty.hpp:190-223`. -/
def sortByDual (s : Node n m) : Option (List (DualEntry s.r s.c)) :=
  (duals ar s (List.finRange s.r)).map sortDesc

/-- The partition loop of `draw`, `murty.hpp:316-324`. -/
def parts : List (DualEntry r c) → List (DualEntry r c) → Node n m → Option (List (Node n m))
  | _, [], _ => some []
  | before, p :: ps, node =>
    match partitionIndex before p with
    | none => none
    | some (i, j) =>
      match partitionWith ar node i j with
      | none => none
      | some node' =>
        match parts (before ++ [p]) ps node' with
        | none => none
        | some rest =>
          if p.1.lt XR.pinf then (partitionWithout ar node i j p.1).map (· :: rest) else some rest

/-- The loop `murty.hpp:281-291`, as in the exact model. -/
def drawTop (pick : List (Node n m) → Nat) (fuel : Nat) :
    Nat → List (Node n m) → Option (Option (Node n m × List (Node n m)))
  | 0, _ => none
  | k + 1, Q =>
    match Q[pick Q]? with
    | none => none
    | some s =>
      let Q' := Q.eraseIdx (pick Q)
      if s.solved then some (some (s, Q'))
      else
        match solve ar fuel s with
        | none => none
        | some (s', ok) =>
          let Q'' := if ok then s' :: Q' else Q'
          if Q''.isEmpty then some none else drawTop pick fuel k Q''

/-- `draw`, `murty.hpp:271-326`: `some (none, _)` is the result `false`. -/
def draw (pick : List (Node n m) → Nat) (fuel : Nat) (M : State n m) :
    Option (Option ((Fin n → Option (Fin m)) × XR) × State n m) :=
  if M.queue.isEmpty then some (none, M)
  else
    match drawTop ar pick fuel (M.queue.length + 1) M.queue with
    | none => none
    | some none => some (none, { M with queue := [] })
    | some (some (s, Q)) =>
      match sortByDual ar s with
      | none => none
      | some order =>
        match parts ar [] order s with
        | none => none
        | some new =>
          some (some (s.sol, ar.add s.cost M.offset), { M with queue := new ++ Q })

/-- `Murty(CostMatrix)`, `murty.hpp:244-252`; `rm` is the product of finite `double`s (`249`). -/
def init (rm : ℚ → ℚ → XR) (C : Cost n m) : Option (State n m) :=
  match minCoeff C with
  | none => none
  | some mn =>
    if mn.lt (XR.fin 0) then
      some ⟨match mn with
        | XR.fin q => rm q n
        | x => x, [root fun i j => ar.sub (C i j) mn]⟩
    else some ⟨XR.fin 0, [root C]⟩

/-- The results of `k` calls of `draw` (`murty.hpp:271`); `none` is the result `false`. -/
def draws (pick : List (Node n m) → Nat) (fuel : Nat) :
    Nat → State n m → Option (List (Option ((Fin n → Option (Fin m)) × XR)))
  | 0, _ => some []
  | k + 1, M =>
    match draw ar pick fuel M with
    | none => none
    | some (x, M') => (draws pick fuel k M').map (x :: ·)

end Verif.MurtyF

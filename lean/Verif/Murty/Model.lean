import Verif.Lap.Model

/-!
# Model of `include/murty.hpp`

The dimensions of the sub-problems are fields of the state, so that matrices, duals and index maps
are typed by them: `rmap`/`cmap` are functions instead of vectors, erasing position `i` is
composition with `Fin.succAbove i`.  An index that is out of range is undefined behaviour (`none`).
`std::shared_ptr` is dropped: a state is only changed by `solve`, when it is not in the queue.
-/

namespace Verif.Murty

open Verif.Lap

variable {n m : Nat}

/-- `MurtyState`, `murty.hpp:80-89`.  `sol k = none` is an uninitialised entry, `res a = none` is
`-1` or uninitialised. -/
structure Node (n m : Nat) where
  r : Nat
  c : Nat
  C : Cost r c
  u : Fin r → XR
  v : Fin c → XR
  cost : XR
  bound : XR
  solved : Bool
  sol : Fin n → Option (Fin m)
  res : Fin r → Option (Fin c)
  rmap : Fin r → Fin n
  cmap : Fin c → Fin m

/-- `MurtyState(const CostMatrix&)`, `murty.hpp:100-113`.  The uninitialised `u` is never read
before `lap` sets it. -/
def root (C : Cost n m) : Node n m :=
  ⟨n, m, C, fun _ => XR.nan, fun _ => XR.fin 0, XR.fin 0, XR.fin 0, false, fun _ => none,
    fun _ => none, id, id⟩

/-- `partition_with`, `murty.hpp:115-127`, with `allbut`, `28-77`.  The new `res` is empty. -/
def partitionWith : Node n m → Nat → Nat → Option (Node n m)
  | ⟨r + 1, c + 1, C, u, v, cost, bound, _, sol, _, rmap, cmap⟩, i, j =>
    if h : i < r + 1 ∧ j < c + 1 then
      let i' : Fin (r + 1) := ⟨i, h.1⟩
      let j' : Fin (c + 1) := ⟨j, h.2⟩
      some ⟨r, c, fun a b => C (i'.succAbove a) (j'.succAbove b), u ∘ i'.succAbove,
        v ∘ j'.succAbove, cost, bound.add (C i' j'), false, sol, fun _ => none,
        rmap ∘ i'.succAbove, cmap ∘ j'.succAbove⟩
    else none
  | _, _, _ => none

/-- `partition_without` and `remove`, `murty.hpp:129-153`. -/
def partitionWithout (s : Node n m) (i j : Nat) (dual : XR) : Option (Node n m) :=
  if h : i < s.r ∧ j < s.c then
    some { s with
      C := fun a b => if a = ⟨i, h.1⟩ ∧ b = ⟨j, h.2⟩ then XR.pinf else s.C a b
      cost := s.cost.add dual
      solved := false
      res := fun _ => none }
  else none

/-- Body of the loop of `solve`, `murty.hpp:175-179`, on `solution` and `cost`. -/
def fill (C : Cost r c) (res : Fin r → Option (Fin c)) (rmap : Fin r → Fin n)
    (cmap : Fin c → Fin m) :
    List (Fin r) → (Fin n → Option (Fin m)) → XR → Option ((Fin n → Option (Fin m)) × XR)
  | [], sol, cost => some (sol, cost)
  | i :: is, sol, cost =>
    match res i with
    | none => none
    | some j => fill C res rmap cmap is (Function.update sol (rmap i) (some (cmap j)))
        (cost.add (C i j))

/-- `solve`, `murty.hpp:155-188`. -/
def solve (fuel : Nat) (s : Node n m) : Option (Node n m × Bool) :=
  match lap s.C fuel with
  | none => none
  | some (false, out) =>
    some ({ s with u := out.u, v := out.v, res := out.rowsol, solved := true }, false)
  | some (true, out) =>
    match fill s.C out.rowsol s.rmap s.cmap (List.finRange s.r) s.sol s.bound with
    | none => none
    | some (sol, cost) =>
      some ({ s with u := out.u, v := out.v, res := out.rowsol, solved := true, sol := sol,
                     cost := cost }, cost.lt XR.pinf)

/-- One row of `sort_by_dual`, `murty.hpp:201-215`, for `res[i] = j0`. -/
def dualOf (s : Node n m) (i : Fin s.r) (j0 : Fin s.c) : XR :=
  (List.finRange s.c).foldl (fun acc j =>
    if j = j0 then acc
    else if XR.pinf.le (s.C i j) then acc
    else
      let h := ((s.C i j).sub (s.u i)).sub (s.v j)
      if h.lt acc then h else acc) XR.pinf

/-- An entry of `Duallist`, `murty.hpp:81`. -/
abbrev DualEntry (r c : Nat) := XR × Fin r × Fin c

/-- `std::tuple` comparison `a < b`. -/
def entryLt (a b : DualEntry r c) : Bool :=
  a.1.lt b.1 || (!b.1.lt a.1 && (decide (a.2.1 < b.2.1) ||
    (!decide (b.2.1 < a.2.1) && decide (a.2.2 < b.2.2))))

/-- Insertion into a descending list. -/
def insertDesc (a : DualEntry r c) : List (DualEntry r c) → List (DualEntry r c)
  | [] => [a]
  | b :: bs => if entryLt a b then b :: insertDesc a bs else a :: b :: bs

/-- `std::sort(mdual.rbegin(), mdual.rend())`, `murty.hpp:217`: descending order. -/
def sortDesc : List (DualEntry r c) → List (DualEntry r c)
  | [] => []
  | a :: as => insertDesc a (sortDesc as)

/-- The unsorted list of `sort_by_dual`, `murty.hpp:198-216`; an entry without `res[i]` would
later be used as an out-of-range index. -/
def duals (s : Node n m) : List (Fin s.r) → Option (List (DualEntry s.r s.c))
  | [] => some []
  | i :: is =>
    match s.res i, duals s is with
    | some j, some l => some ((dualOf s i j, i, j) :: l)
    | _, _ => none

/-- `sort_by_dual`, `murty.hpp:190-223`. -/
def sortByDual (s : Node n m) : Option (List (DualEntry s.r s.c)) :=
  (duals s (List.finRange s.r)).map sortDesc

/-- `get_partition_index`, `murty.hpp:254-261`; `before` are the entries before `p`.  Decrementing
an `unsigned` below zero would give an out-of-range index. -/
def partitionIndex (before : List (DualEntry r c)) (p : DualEntry r c) : Option (Nat × Nat) :=
  let ci := before.countP fun q => q.2.1 < p.2.1
  let cj := before.countP fun q => q.2.2 < p.2.2
  if ci ≤ p.2.1.val ∧ cj ≤ p.2.2.val then some (p.2.1.val - ci, p.2.2.val - cj) else none

/-- The partition loop of `draw`, `murty.hpp:316-324`: the states pushed to the queue, given the
entries already handled and those to come. -/
def parts : List (DualEntry r c) → List (DualEntry r c) → Node n m → Option (List (Node n m))
  | _, [], _ => some []
  | before, p :: ps, node =>
    match partitionIndex before p with
    | none => none
    | some (i, j) =>
      match partitionWith node i j with
      | none => none
      | some node' =>
        match parts (before ++ [p]) ps node' with
        | none => none
        | some rest =>
          if p.1.lt XR.pinf then (partitionWithout node i j p.1).map (· :: rest) else some rest

/-- `MurtyStatePtrCompare`, `murty.hpp:227-237`: `a` has lower priority than `b`. -/
def worse (a b : Node n m) : Bool :=
  if b.cost.lt a.cost then true
  else if a.cost.feq b.cost then decide (b.r < a.r)
  else false

/-- The loop `murty.hpp:281-291`, on the queue as an unordered list; `pick` gives the position of
`queue.top()`.  The counter bounds the iterations.  Returns the solved top state and the queue
without it, or `none` inside if the queue ran empty. -/
def drawTop (pick : List (Node n m) → Nat) (fuel : Nat) :
    Nat → List (Node n m) → Option (Option (Node n m × List (Node n m)))
  | 0, _ => none
  | k + 1, Q =>
    match Q[pick Q]? with
    | none => none
    | some s =>
      let Q' := Q.eraseIdx (pick Q)
      if s.solved then some (some (s, Q'))
      else
        match solve fuel s with
        | none => none
        | some (s', ok) =>
          let Q'' := if ok then s' :: Q' else Q'
          if Q''.isEmpty then some none else drawTop pick fuel k Q''

/-- `class Murty`, `murty.hpp:239-241,329`. -/
structure State (n m : Nat) where
  offset : XR
  queue : List (Node n m)

/-- `draw`, `murty.hpp:271-326`: `some (none, _)` is the result `false`. -/
def draw (pick : List (Node n m) → Nat) (fuel : Nat) (M : State n m) :
    Option (Option ((Fin n → Option (Fin m)) × XR) × State n m) :=
  if M.queue.isEmpty then some (none, M)
  else
    match drawTop pick fuel (M.queue.length + 1) M.queue with
    | none => none
    | some none => some (none, { M with queue := [] })
    | some (some (s, Q)) =>
      match sortByDual s with
      | none => none
      | some order =>
        match parts [] order s with
        | none => none
        | some new =>
          some (some (s.sol, s.cost.add M.offset), { M with queue := new ++ Q })

/-- `C.minCoeff()`, `murty.hpp:245`; not defined for an empty matrix. -/
def minCoeff (C : Cost n m) : Option XR :=
  match (List.finRange n).flatMap fun i => (List.finRange m).map (C i) with
  | [] => none
  | x :: xs => some (xs.foldl (fun a b => if b.lt a then b else a) x)

/-- `Murty(CostMatrix)`, `murty.hpp:244-252`. -/
def init (C : Cost n m) : Option (State n m) :=
  match minCoeff C with
  | none => none
  | some mn =>
    if mn.lt (XR.fin 0) then
      some ⟨match mn with
        | XR.fin q => XR.fin (q * n)
        | x => x, [root fun i j => (C i j).sub mn]⟩
    else some ⟨XR.fin 0, [root C]⟩

/-- The results of `k` calls of `draw` (`murty.hpp:271`); `none` is the result `false`. -/
def draws (pick : List (Node n m) → Nat) (fuel : Nat) :
    Nat → State n m → Option (List (Option ((Fin n → Option (Fin m)) × XR)))
  | 0, _ => some []
  | k + 1, M =>
    match draw pick fuel M with
    | none => none
    | some (x, M') => (draws pick fuel k M').map (x :: ·)

end Verif.Murty

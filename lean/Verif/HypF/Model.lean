import Verif.Hyp.Model
import Verif.MurtyF.Model
import Verif.LapF.Binary64
import Verif.MurtyF.Props

/-!
# Model of the hypothesis loop of `Cluster_::correct` in `double` arithmetic

`include/cluster.hpp:63-128`, `include/target.hpp:161-170`, with IEEE 754 binary64 operations
(`Tuprules.tup:20`: `-march=x86-64`, no `-ffast-math`).  `Verif/Hyp/Model.lean` is the same with
exact weights.  The costs come from the enumeration in `double` arithmetic (`Verif/MurtyF`).  The
library function `exp` is a parameter `ex` (`ex q` is the computed `exp(-q)`).  Signed zeros are not
modelled.
-/

namespace Verif.HypF

open Verif.Lap Verif.LapF Verif.Murty

variable {M N : Nat}

/-- IEEE `a / b`, `cluster.hpp:103`, `108`; zeros are positive. -/
def div64 : XR → XR → XR
  | .fin a, .fin b =>
    if b = 0 then (if a = 0 then .nan else if 0 < a then .pinf else .ninf) else round64 (a / b)
  | .fin _, .pinf => .fin 0
  | .fin _, .ninf => .fin 0
  | .pinf, .fin b => if b < 0 then .ninf else .pinf
  | .ninf, .fin b => if b < 0 then .pinf else .ninf
  | _, _ => .nan

/-- `std::exp(-cost)`, `cluster.hpp:92`. -/
def weight (ex : ℚ → XR) : XR → XR
  | .fin q => ex q
  | .pinf => .fin 0
  | .ninf => .pinf
  | .nan => .nan

/-- The variables of the loop: `n`, `w_sum`, `R` (`cluster.hpp:40,87-89`). -/
structure Acc (M N : Nat) where
  n : Nat
  wsum : XR
  R : Fin M → Fin (N + 1) → XR

/-- State before the loop, `cluster.hpp:40,87-89`. -/
def Acc.zero : Acc M N := ⟨0, .fin 0, fun _ _ => .fin 0⟩

/-- One hypothesis, `cluster.hpp:92-102`; the column of `R` is that of the exact model
(`Hyp.target`, `96-100`).  An uninitialised assignment is undefined. -/
def Acc.add (a : Acc M N) (w : XR) (sol : Fin M → Option (Fin (N + 2 * M))) : Option (Acc M N) :=
  if (List.finRange M).all fun i => (sol i).isSome then
    some ⟨a.n + 1, b64.add a.wsum w, fun i j =>
      if ((sol i).bind (Hyp.target i)) = some j then b64.add (a.R i j) w else a.R i j⟩
  else none

/-- The condition of `break`, `cluster.hpp:103`. -/
def stops (wlim nmax : ℚ) (w : XR) (a : Acc M N) : Bool :=
  (div64 w a.wsum).lt (.fin wlim) || decide (nmax ≤ (a.n : ℚ))

/-- The loop `cluster.hpp:91-106`; the first counter bounds the iterations. -/
def loop (pick : List (Node M (N + 2 * M)) → Nat) (fuel : Nat) (ex : ℚ → XR) (wlim nmax : ℚ) :
    Nat → State M (N + 2 * M) → Acc M N → Option (Acc M N)
  | 0, _, _ => none
  | k + 1, S, a =>
    match MurtyF.draw b64 pick fuel S with
    | none => none
    | some (none, _) => some a
    | some (some (sol, cost), S') =>
      match a.add (weight ex cost) sol with
      | none => none
      | some a' =>
        if stops wlim nmax (weight ex cost) a' then some a'
        else loop pick fuel ex wlim nmax k S' a'

/-- `cluster.hpp:40,63-106` for a cluster with targets. -/
def hypotheses (pick : List (Node M (N + 2 * M)) → Nat) (fuel : Nat) (ex : ℚ → XR)
    (wlim nmax : ℚ) (C : Cost M (N + 2 * M)) : Option (Acc M N) :=
  match MurtyF.init b64 MurtyF.mul64 C with
  | none => none
  | some S => loop pick fuel ex wlim nmax fuel S Acc.zero

/-- The order in which a sum of `k` coefficients is evaluated (`w.sum()`, `target.hpp:163`;
`R.colwise().sum()`, `cluster.hpp:116`): Eigen's choice, which depends on vectorisation. -/
inductive Order (k : Nat) where
  | leaf (i : Fin k)
  | node (l r : Order k)

/-- The coefficients of a sum, `target.hpp:163`, `cluster.hpp:116`. -/
def Order.leaves {k : Nat} : Order k → List (Fin k)
  | .leaf i => [i]
  | .node l r => l.leaves ++ r.leaves

/-- Every coefficient is added once, `target.hpp:163`, `cluster.hpp:116`. -/
def Order.Ok {k : Nat} (t : Order k) : Prop := t.leaves.Perm (List.finRange k)

/-- The value of a sum, `target.hpp:163`, `cluster.hpp:116`. -/
def Order.sum {k : Nat} (f : Fin k → XR) : Order k → XR
  | .leaf i => f i
  | .node l r => b64.add (l.sum f) (r.sum f)

/-- From left to right: the order of a sum that is not vectorised, such as that of a row of the
column-major matrix `R` (`target.hpp:163`). -/
def Order.seq {k : Nat} : List (Fin (k + 1)) → Order (k + 1)
  | l => l.tail.foldl (fun t i => .node t (.leaf i)) (.leaf (l.headD 0))

/-- An entry of `R` after `R /= w_sum`, `cluster.hpp:108`. -/
def Acc.norm (a : Acc M N) (i : Fin M) (j : Fin (N + 1)) : XR := div64 (a.R i j) a.wsum

/-- `w.sum()` over a row of `R`, `target.hpp:163`. -/
def Acc.rowSum (a : Acc M N) (t : Order (N + 1)) (i : Fin M) : XR := t.sum (a.norm i)

/-- `Target_::correct`, `target.hpp:162-170`, on the existence probability: the new `r`.  A NaN
fails the comparison. -/
def targetCorrect (s rlim : XR) : XR := if rlim.le s then s else .fin 0

/-- The posterior existence probability of target `i`, `cluster.hpp:111-113` with the default
`rlim = 1e-6` of `target.hpp:162`. -/
def Acc.posterior (a : Acc M N) (t : Order (N + 1)) (i : Fin M) : XR :=
  targetCorrect (a.rowSum t i) (round64 (1 / 1000000))

/-- `rB[j]`, `cluster.hpp:116-119`. -/
def Acc.rB (a : Acc M N) (t : Order M) (j : Fin N) : XR :=
  b64.sub (.fin 1) (t.sum fun i => a.norm i j.castSucc)

end Verif.HypF

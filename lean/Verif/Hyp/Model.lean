import Verif.Murty.Model
import Mathlib.Analysis.SpecialFunctions.Exp

/-!
# Model of the hypothesis loop of `Cluster_::correct` and of `Target_::correct`

`include/cluster.hpp:63-128`, `include/target.hpp:161-170`.  `M` targets, `N` reports.  Costs are
exact numbers with IEEE infinities (as in the assignment code), weights are reals.  The weight
function is a parameter `wt` (`std::exp(-cost)`), so that underflow to zero can be expressed.
-/

namespace Verif.Hyp

open Verif.Lap Verif.Murty

variable {M N : Nat}

/-- The cost matrix of a cluster, `cluster.hpp:66-75`: `det i j` are the detection costs written by
`match`, `miss i` the missed-detection costs, `fls i` the values of `false_target()`; all other
entries are the constant `inf` of `constants.hpp:5`, i.e. 30000. -/
def costMatrix (det : Fin M → Fin N → XR) (miss fls : Fin M → XR) : Cost M (N + 2 * M) :=
  fun i j =>
    if h : j.val < N then det i ⟨j.val, h⟩
    else if j.val = N + i.val then miss i
    else if j.val = N + M + i.val then fls i
    else XR.fin 30000

/-- The variables of the loop: `n`, `w_sum`, `R` (`cluster.hpp:40,87-89`). -/
structure Acc (M N : Nat) where
  n : Nat
  wsum : ℝ
  R : Fin M → Fin (N + 1) → ℝ

/-- State before the loop, `cluster.hpp:40,87-89`. -/
def Acc.zero : Acc M N := ⟨0, 0, fun _ _ => 0⟩

/-- The column of `R` that row `i` adds to when its assignment is `j`, `cluster.hpp:96-100`. -/
def target (i : Fin M) (j : Fin (N + 2 * M)) : Option (Fin (N + 1)) :=
  if h : j.val < N then some ⟨j.val, Nat.lt_succ_of_lt h⟩
  else if j.val = N + i.val then some ⟨N, Nat.lt_succ_self N⟩
  else none

/-- One hypothesis, `cluster.hpp:92-102`; the parallel loop writes to distinct rows.  An
uninitialised assignment is undefined. -/
noncomputable def Acc.add (a : Acc M N) (w : ℝ) (sol : Fin M → Option (Fin (N + 2 * M))) :
    Option (Acc M N) :=
  if (List.finRange M).all fun i => (sol i).isSome then
    some ⟨a.n + 1, a.wsum + w, fun i j =>
      if ((sol i).bind (target i)) = some j then a.R i j + w else a.R i j⟩
  else none

/-- `std::exp(-cost)`, `cluster.hpp:92`; costs that are not finite do not occur. -/
noncomputable def weight (wt : ℚ → ℝ) : XR → Option ℝ
  | XR.fin q => some (wt q)
  | _ => none

/-- The loop `cluster.hpp:91-106`; the first counter bounds the iterations.  `w / w_sum < w_lim` is
false for `w_sum = 0` (a NaN), as the division is `0 / 0` then. -/
noncomputable def loop (pick : List (Node M (N + 2 * M)) → Nat) (fuel : Nat) (wt : ℚ → ℝ)
    (wlim nmax : ℝ) : Nat → State M (N + 2 * M) → Acc M N → Option (Acc M N)
  | 0, _, _ => none
  | k + 1, S, a =>
    match draw pick fuel S with
    | none => none
    | some (none, _) => some a
    | some (some (sol, cost), S') =>
      match weight wt cost with
      | none => none
      | some w =>
        match a.add w sol with
        | none => none
        | some a' =>
          open Classical in
          if (a'.wsum ≠ 0 ∧ w / a'.wsum < wlim) ∨ nmax ≤ (a'.n : ℝ) then some a'
          else loop pick fuel wt wlim nmax k S' a'

/-- `cluster.hpp:40,63-106` for a cluster with targets. -/
noncomputable def hypotheses (pick : List (Node M (N + 2 * M)) → Nat) (fuel : Nat) (wt : ℚ → ℝ)
    (wlim nmax : ℝ) (C : Cost M (N + 2 * M)) : Option (Acc M N) :=
  match init C with
  | none => none
  | some S => loop pick fuel wt wlim nmax fuel S Acc.zero

/-- An entry of `R` after `R /= w_sum`, `cluster.hpp:108`; `none` is a NaN. -/
noncomputable def Acc.norm (a : Acc M N) (i : Fin M) (j : Fin (N + 1)) : Option ℝ :=
  open Classical in if a.wsum = 0 then none else some (a.R i j / a.wsum)

/-- `w.sum()` over a row of `R`, `target.hpp:163`; a NaN propagates. -/
noncomputable def Acc.rowSum (a : Acc M N) (i : Fin M) : Option ℝ :=
  open Classical in if a.wsum = 0 then none else some (∑ j, a.R i j / a.wsum)

/-- `Target_::correct`, `target.hpp:162-170`, on the existence probability: the new `r` and whether
the densities are joined.  A NaN fails the comparison. -/
noncomputable def targetCorrect (sum : Option ℝ) (rlim : ℝ) : ℝ × Bool :=
  open Classical in
  match sum with
  | none => (0, false)
  | some s => if rlim ≤ s then (s, true) else (0, false)

/-- The posterior existence probability of target `i`, `cluster.hpp:111-113` with the default
`rlim = 1e-6` of `target.hpp:162`. -/
noncomputable def Acc.posterior (a : Acc M N) (i : Fin M) : ℝ :=
  (targetCorrect (a.rowSum i) (1 / 1000000)).1

/-- `rB[j]`, `cluster.hpp:116-119`; `none` is a NaN. -/
noncomputable def Acc.rB (a : Acc M N) (j : Fin N) : Option ℝ :=
  open Classical in if a.wsum = 0 then none else some (1 - ∑ i, a.R i j.castSucc / a.wsum)

/-- The birth probabilities a cluster leaves in its reports, `cluster.hpp:63,107-128`.  The value 1
is used when there are no targets or no hypotheses. -/
noncomputable def clusterRB (pick : List (Node M (N + 2 * M)) → Nat) (fuel : Nat) (wt : ℚ → ℝ)
    (wlim nmax : ℝ) (C : Cost M (N + 2 * M)) : Option (Fin N → Option ℝ) :=
  if M = 0 then some fun _ => some 1
  else
    match hypotheses pick fuel wt wlim nmax C with
    | none => none
    | some a => if a.n = 0 then some fun _ => some 1 else some a.rB

end Verif.Hyp

import Verif.Cluster.CCModel
import Mathlib.Logic.Function.Basic
import Mathlib.Data.List.Sort

/-!
# Model of `SILMB::cluster` (`include/lmb.hpp:345-446`)

Reports are the indices `0 … n-1` of the scan (their addresses are ordered like the indices),
targets are addresses (`Nat`).  `q r` is the result of `targettree.query(r->llaabbox())`
(`lmb.hpp:366`), an arbitrary list: what it contains is the subject of `C01`/`C26`.
-/

namespace Verif.Cluster

/-- `Cluster_`'s constructor arguments, `cluster.hpp:22-34`. -/
structure Cl where
  id : Nat
  reports : List Nat
  targets : List Nat
deriving DecidableEq

/-- Local state of `cluster`, `lmb.hpp:357-361,386`: the remaining `all_targets`, the clusters,
the `cid` fields of reports and targets, and the counter `cid`. -/
structure CState where
  all : List Nat
  clusters : List Cl
  rcid : Nat → Nat
  tcid : Nat → Nat
  cid : Nat

/-- First loop, `lmb.hpp:364-373`: `matching_reports`. -/
def matchReports (q : Nat → List Nat) : List Nat → (Nat → List Nat) → (Nat → List Nat)
  | [], mr => mr
  | r :: rs, mr =>
    matchReports q rs ((q r).foldl (fun mr t => Function.update mr t (mr t ++ [r])) mr)

/-- Second loop, `lmb.hpp:376-384`: the calls made on `ConnectedComponents`. -/
def ccCalls (q : Nat → List Nat) (mr : Nat → List Nat) (scan : List Nat) : List CCCall :=
  scan.flatMap fun r => CCCall.init r :: (q r).map fun t => CCCall.connect r (mr t)

/-- `std::sort` on pointers, `lmb.hpp:400,406`: the sorted permutation (equal pointers are
indistinguishable, so the algorithm does not matter). -/
def sortPtr (l : List Nat) : List Nat := l.insertionSort (· ≤ ·)

/-- `std::unique` followed by `erase`, `lmb.hpp:401-403`. -/
def uniq : List Nat → List Nat
  | [] => []
  | [a] => [a]
  | a :: b :: l => if a = b then uniq (b :: l) else a :: uniq (b :: l)

/-- `std::set_difference` of two sorted ranges, `lmb.hpp:407-409`.  The steps that only advance
the second range (`b < a`) are grouped into `dropWhile`. -/
def setDiff : List Nat → List Nat → List Nat
  | [], _ => []
  | a :: as, bs =>
    match bs.dropWhile (· < a) with
    | [] => a :: setDiff as []
    | b :: bs' => if a < b then a :: setDiff as (b :: bs') else setDiff as bs'

/-- `x->cid = cid` for every element of a list, `lmb.hpp:396,419`. -/
def setCid (l : List Nat) (cid : Nat) (f : Nat → Nat) : Nat → Nat :=
  l.foldl (fun f x => Function.update f x cid) f

/-- Body of the loop over components, `lmb.hpp:388-434`. -/
def clusterBody (q : Nat → List Nat) (c : List Nat) (st : CState) : CState :=
  let ct := uniq (sortPtr (c.flatMap q))
  { all := setDiff (sortPtr st.all) ct
    clusters := st.clusters ++ [⟨st.cid, c, ct⟩]
    rcid := setCid c st.cid st.rcid
    tcid := setCid ct st.cid st.tcid
    cid := st.cid + 1 }

/-- The loop over components, `lmb.hpp:387-435`, with fuel. -/
def clusterLoop (q : Nat → List Nat) : Nat → CMap → CState → Option CState
  | 0, _, _ => none
  | f + 1, m, st =>
    match getComponent m with
    | none => none
    | some none => some st
    | some (some (m', c)) => clusterLoop q f m' (clusterBody q c st)

/-- The final loop over the remaining targets, `lmb.hpp:438-442`. -/
def clusterSingles : List Nat → CState → CState
  | [], st => st
  | t :: ts, st => clusterSingles ts
      { st with
        clusters := st.clusters ++ [⟨st.cid, [], [t]⟩]
        tcid := Function.update st.tcid t st.cid
        cid := st.cid + 1 }

/-- `SILMB::cluster`, `lmb.hpp:345-446`; `nof_clusters` is the final `cid`. `rcid0`/`tcid0` are
the `cid` fields before the call.  `none` if a loop does not end. -/
def cluster (q : Nat → List Nat) (n : Nat) (all : List Nat) (rcid0 tcid0 : Nat → Nat) :
    Option CState :=
  let scan := List.range n
  let m := ccBuild (ccCalls q (matchReports q scan fun _ => []) scan)
  (clusterLoop q (n + 1) m ⟨all, [], rcid0, tcid0, 0⟩).map fun st => clusterSingles st.all st

end Verif.Cluster

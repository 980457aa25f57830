import Verif.Tracker.Model

/-! # `predict` during `correct`, and the metric queries -/

namespace Verif.Tracker

open Verif.Cluster (Cl)
open Verif.Hyp Verif.Lap Verif.Murty

variable {P R O : Type}

/-- `correct` (`lmb.hpp:94-134`) in one thread while another thread runs `predict`
(`lmb.hpp:54-91`); both release the interpreter lock (`lmb/lmb.cpp`).  All of `predict` is one
critical section on `ttree` (`lmb.hpp:59`), so it cannot run inside a critical section of `correct`,
but it can run between two of them: here after the targets have been looked up and the clusters
built (which happens outside any critical section) and `k` steps of the clusters have been made. -/
noncomputable def correctDuring (E : Env P R O) (S : Sensor P R) (prm : Params) (ch : Choices)
    (fuel : Nat) (scan : List (Rep R)) (dflt : Rep R) (m : Motion P) (ord : List Nat → List Nat)
    (k : Nat) (s : St P) : Option (St P) :=
  match prepare E S scan s with
  | none => none
  | some (cls, s1, rcid) =>
    match clRun E S prm ch.pick fuel ch.wt cls ((ch.sched cls).take k)
        ⟨s1, initReps scan rcid dflt, fun _ => 0⟩ with
    | none => none
    | some g =>
      match predict E prm m ord g.st with
      | none => none
      | some s2 =>
        match clRun E S prm ch.pick fuel ch.wt cls ((ch.sched cls).drop k) { g with st := s2 } with
        | none => none
        | some g' => birth E S prm ch.alloc ch.ord cls scan.length g'.reps g'.st

/-- What `ospa` (`lmb.hpp:263-267`), `gospa` (`lmb.hpp:312-316`) and `pos_phd` (`lmb.hpp:224-228`)
do to the targets they look at: `transform_to_local(origin)` followed by `transform_to_global()`.
The index is not touched. -/
def relocate (E : Env P R O) (o : O) : List Nat → St P → Option (St P)
  | [], s => some s
  | a :: l, s =>
    match s.heap a with
    | none => none
    | some t => relocate E o l { s with heap := setHeap s.heap a (some (back E (forth E o t))) }

/-- The targets after `ospa` or `gospa` with the given origin, `lmb.hpp:263-267,312-316`. -/
def metricQuery (E : Env P R O) (o : O) (s : St P) : Option (St P) := relocate E o s.targets s

/-- The targets after `pos_phd` on a region, `lmb.hpp:222-228`. -/
def phdQuery (E : Env P R O) (o : O) (fov : RTree.Rect) (s : St P) : Option (St P) :=
  match query s fov with
  | none => none
  | some l => relocate E o l s

end Verif.Tracker

import Verif.Tracker.Model
import Verif.Tracker.Hist

/-!
# Model of `lmb/application.py`

`Application` wraps a tracker for `asyncio` programs.  Every method awaits `_get`, which hands the call
to a pool of three threads and waits for it.  The event loop, the pool and the threads are modelled as
one transition system whose transitions are taken in any order.

Simplified: a coroutine is a function from the results it has received to its next call, so what it does
between two calls has no effect on the tracker; the calls of the bindings are divided at the critical
sections of the tracker (`Verif/Tracker/Model.lean`); queries, which keep the interpreter lock, are one
step; an exception of a call is an undefined outcome.
-/

namespace Verif.App

open Verif.RTree (Rect)
open Verif.Tracker
open Verif.Cluster (Cl)

/-! ## The event loop and the pool -/

/-- What a thread of the pool runs, as `lmb/application.py:42-43` hands it over: a call starts in a local
state and makes steps that change the shared state, until it returns.  `none` is undefined behaviour. -/
structure Machine (C σ τ V : Type) where
  start : C → τ
  step : τ → σ → Option (σ × (τ ⊕ V))

/-- A coroutine that uses the application, `lmb/application.py:48-66,100-102`: its next call, given the
results of its earlier calls.  A result is `none` if the wait was given up (`asyncio.wait_for` around a
method, which cancels the coroutine at `lmb/application.py:44`). -/
abbrev Prog (C V : Type) := List (Option V) → Option C

/-- A coroutine under way, `lmb/application.py:40-46`: the results it has received, and the number of the
call it is waiting for. -/
structure Task (V : Type) where
  hist : List (Option V)
  wait : Option Nat

/-- The whole application, `lmb/application.py:18-38`: the tracker (`none` after undefined behaviour), the
coroutines, the queue and the threads of the executor, the results of calls that have returned, and the
number of calls submitted. -/
structure App (C σ τ V : Type) where
  shared : Option σ
  tasks : List (Task V)
  queue : List (Nat × C)
  running : List (Nat × τ)
  result : Nat → Option V
  count : Nat

variable {C σ τ V : Type}

/-- The application at the start, `lmb/application.py:18-38`, with `k` coroutines. -/
def App.init (s : σ) (k : Nat) : App C σ τ V :=
  ⟨some s, List.replicate k ⟨[], none⟩, [], [], fun _ => none, 0⟩

/-- One transition.  `limit` is the number of threads (3, `lmb/application.py:22`); `giveUp` says whether
waits can be given up. -/
inductive Step (M : Machine C σ τ V) (prog : Nat → Prog C V) (limit : Nat) (giveUp : Bool) :
    App C σ τ V → App C σ τ V → Prop
  /-- `run_in_executor`, `lmb/application.py:42-43`. -/
  | submit {A : App C σ τ V} {i : Nat} {t : Task V} {c : C} (ht : A.tasks[i]? = some t)
      (hw : t.wait = none) (hc : prog i t.hist = some c) :
      Step M prog limit giveUp A { A with
        tasks := A.tasks.set i { t with wait := some A.count }
        queue := A.queue ++ [(A.count, c)]
        count := A.count + 1 }
  /-- A thread takes the oldest call from the queue, `lmb/application.py:21-22`. -/
  | take {A : App C σ τ V} {n : Nat} {c : C} {q : List (Nat × C)} (hq : A.queue = (n, c) :: q)
      (hl : A.running.length < limit) :
      Step M prog limit giveUp A { A with queue := q, running := A.running ++ [(n, M.start c)] }
  /-- A thread makes a step, `lmb/application.py:42-43`. -/
  | work {A : App C σ τ V} {s s' : σ} {n : Nat} {l l' : List (Nat × τ)} {x x' : τ}
      (hs : A.shared = some s) (hr : A.running = l ++ (n, x) :: l')
      (hx : M.step x s = some (s', .inl x')) :
      Step M prog limit giveUp A { A with shared := some s', running := l ++ (n, x') :: l' }
  /-- A call returns, `lmb/application.py:42-43`. -/
  | finish {A : App C σ τ V} {s s' : σ} {n : Nat} {l l' : List (Nat × τ)} {x : τ} {v : V}
      (hs : A.shared = some s) (hr : A.running = l ++ (n, x) :: l')
      (hx : M.step x s = some (s', .inr v)) :
      Step M prog limit giveUp A { A with
        shared := some s', running := l ++ l'
        result := fun k => if k = n then some v else A.result k }
  /-- A thread runs into undefined behaviour, `lmb/application.py:42-43`. -/
  | crash {A : App C σ τ V} {s : σ} {n : Nat} {l l' : List (Nat × τ)} {x : τ}
      (hs : A.shared = some s) (hr : A.running = l ++ (n, x) :: l') (hx : M.step x s = none) :
      Step M prog limit giveUp A { A with shared := none }
  /-- The coroutine goes on with the result, `lmb/application.py:44-46`. -/
  | resume {A : App C σ τ V} {i n : Nat} {t : Task V} {v : V} (ht : A.tasks[i]? = some t)
      (hw : t.wait = some n) (hv : A.result n = some v) :
      Step M prog limit giveUp A { A with
        tasks := A.tasks.set i ⟨t.hist ++ [some v], none⟩ }
  /-- The wait at `lmb/application.py:44` is given up.  `asyncio.wait` does not cancel what it waits for,
  and a call that runs in a thread cannot be cancelled, so the call stays where it is. -/
  | giveUp {A : App C σ τ V} {i n : Nat} {t : Task V} (hg : giveUp = true)
      (ht : A.tasks[i]? = some t) (hw : t.wait = some n) :
      Step M prog limit giveUp A { A with tasks := A.tasks.set i ⟨t.hist ++ [none], none⟩ }

/-- What can be reached, `lmb/application.py:40-46`. -/
inductive Reach (M : Machine C σ τ V) (prog : Nat → Prog C V) (limit : Nat) (giveUp : Bool)
    (A : App C σ τ V) : App C σ τ V → Prop
  | refl : Reach M prog limit giveUp A A
  | tail {B D : App C σ τ V} (h : Reach M prog limit giveUp A B)
      (hs : Step M prog limit giveUp B D) : Reach M prog limit giveUp A D

/-! ## The calls of a tracker -/

/-- The calls of `lmb/application.py:48-66`. -/
inductive ACall (P R : Type) where
  | tracker (c : Call P R)
  | getTargets
  | enof (b : Option Rect)
  | nof (b : Option Rect) (rlim : ℝ)

/-- Their results (`lmb/lmb.cpp:190-201`): `correct` returns the scan. -/
inductive AVal (P R : Type) where
  | none
  | scan (l : List (Rep R))
  | targets (l : List (Nat × Tgt P))
  | number (x : ℝ)
  | count (n : Nat)

/-- A call in a thread: before its first step, or (`correct`, `lmb.hpp:94-134`) in the parallel loop over
the clusters, with the rest of the schedule. -/
inductive Thread (P R : Type) where
  | fresh (c : ACall P R)
  | loop (S : Sensor P R) (ch : Choices) (n : Nat) (cls : List Cl) (sched : List Nat)
      (reps : Nat → Rep R) (pc : Nat → Nat)

variable {P R O : Type}

/-- Steps of the bindings `lmb/lmb.cpp:190-201`: `predict` is one critical section, `correct` prepares
the clusters, makes the steps of the clusters and then the births; a query is one step. -/
noncomputable def threadStep (E : Env P R O) (prm : Params) (fuel : Nat) :
    Thread P R → St P → Option (St P × (Thread P R ⊕ AVal P R))
  | .fresh (.tracker (.predict m ord)), s =>
    (predict E prm m ord s).map fun s' => (s', .inr .none)
  | .fresh (.tracker (.correct S ch scan dflt)), s =>
    (prepare E S scan s).map fun p =>
      (p.2.1, .inl (.loop S ch scan.length p.1 (ch.sched p.1) (initReps scan p.2.2 dflt) fun _ => 0))
  | .fresh .getTargets, s => (getAll s).map fun l => (s, .inr (.targets l))
  | .fresh (.enof none), s => (enofTargets s).map fun x => (s, .inr (.number x))
  | .fresh (.enof (some b)), s => (enofTargetsIn s b).map fun x => (s, .inr (.number x))
  | .fresh (.nof none rlim), s => (nofTargets s rlim).map fun x => (s, .inr (.count x))
  | .fresh (.nof (some b) rlim), s => (nofTargetsIn s b rlim).map fun x => (s, .inr (.count x))
  | .loop S ch n cls (i :: l) reps pc, s =>
    (clStep E S prm ch.pick fuel ch.wt cls i ⟨s, reps, pc⟩).map fun g =>
      (g.st, .inl (.loop S ch n cls l g.reps g.pc))
  | .loop S ch n cls [] reps _, s =>
    (birth E S prm ch.alloc ch.ord cls n reps s).map fun s' =>
      (s', .inr (.scan ((List.range n).map reps)))

/-- The bindings as a machine, `lmb/lmb.cpp:186-208`. -/
noncomputable def bindings (E : Env P R O) (prm : Params) (fuel : Nat) :
    Machine (ACall P R) (St P) (Thread P R) (AVal P R) :=
  ⟨.fresh, threadStep E prm fuel⟩

end Verif.App

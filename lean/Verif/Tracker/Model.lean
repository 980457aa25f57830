import Verif.RTree.Model
import Verif.Cluster.Model
import Verif.Hyp.Model

/-!
# Model of the tracker: `SILMB`, `TargetTree_`, `Cluster_::correct`

`include/lmb.hpp`, `include/targettree.hpp`, `include/cluster.hpp`, `include/target.hpp`.

* Targets live on a heap indexed by addresses; a deleted (or never allocated) address holds
  nothing, and using it is the outcome `none`.
* Densities, reports and coordinate frames are abstract (`Env`, `Sensor`, `Motion`): the tracker is
  a template over them.  The outcome of the random sampling inside `pD` is an arbitrary function of
  the target and the report.
* Existence probabilities and weights are reals, costs are exact numbers with IEEE infinities.
* `PARFOR` loops are schedules; `CRITICAL` sections are atomic.
* `Target_::is_new` and `t0` are left out: they are only passed to `pdf_init2`, which returns at
  once (`sensors.hpp:80`).
-/

namespace Verif.Tracker

open Verif.RTree (Rect)
open Verif.Cluster (Cl)
open Verif.Hyp Verif.Lap Verif.Murty

/-- The parameters used by the tracker, `params.hpp:5-14`. -/
structure Params where
  wlim : ℝ
  rlim : ℝ
  nhypMax : ℝ
  rBmax : ℝ
  covlim : ℝ

/-- `Target_`, `target.hpp:51-60`. -/
structure Tgt (P : Type) where
  id : Nat
  r : ℝ
  pdf : P
  cid : Nat
  la : Char

/-- What the tracker needs from the density class (`gm.hpp`, `pf.hpp`), from reports
(`report.hpp`) and from coordinate frames (`cf.hpp`): `llaabbox`, `poscov().norm()`, `pos`,
`transform_to_local`, `transform_to_global`, `normalize`, `eta`, `join`; `Report::pos`,
`llaabbox`, `transform_to_local`, `transform_to_global`; and the mean of a list of positions
(`cluster.hpp:156-162`).  `areas` is the arithmetic the index computes areas with
(`RTree.h:1144-1184`, `targettree.hpp:24`): exact or rounded to `double`. -/
structure Env (P R O : Type) where
  box : P → Rect
  covNorm : P → ℝ
  pos : P → O
  toLocal : O → P → P
  toGlobal : P → P
  normalize : P → P
  eta : P → ℝ
  join : P → List ℝ → List P → P
  rpos : R → O
  rbox : R → Rect
  rLocal : O → R → R
  rGlobal : O → R → R
  center : List O → O
  areas : RTree.Areas

/-- What the tracker needs from a sensor and the measurement update: `fov.aabbox()`, the test
`pdf.intersects(fov)`, `lambdaB` (`sensors.hpp:22-64`); for target address `a` the corrected density
and the costs `-log(r * pdf.correct(z))`, `-log(r * pdf.missed())`, `false_target()`
(`target.hpp:127-140,183-189`); and `pdf_init1` (`sensors.hpp:67-76`). -/
structure Sensor (P R : Type) where
  fovBox : Rect
  inView : P → Bool
  lambdaB : ℝ
  upd : Nat → P → R → P
  detCost : Nat → ℝ → P → R → XR
  missPdf : Nat → P → P
  missCost : Nat → ℝ → P → XR
  flsCost : ℝ → XR
  init : R → P

/-- A motion model at a given time step, `models.hpp:14-46,66-74`: what it does to the density, and
the factor it multiplies `r` with. -/
structure Motion (P : Type) where
  pdf : P → P
  factor : ℝ

/-- `TargetTree_`, `targettree.hpp:23-26`, and the heap. -/
structure St (P : Type) where
  heap : Nat → Option (Tgt P)
  targets : List Nat
  tree : RTree.Tree Nat
  idc : Nat

/-- A freshly constructed tracker, `lmb.hpp:49-51`, `targettree.hpp:28-29`. -/
def St.empty {P : Type} : St P := ⟨fun _ => none, [], RTree.empty, 0⟩

variable {P R O : Type}

/-- Assign the object at an address. -/
def setHeap (h : Nat → Option (Tgt P)) (a : Nat) (t : Option (Tgt P)) : Nat → Option (Tgt P) :=
  fun b => if b = a then t else h b

/-- `viable`, `target.hpp:80-90`. -/
noncomputable def viable (E : Env P R O) (prm : Params) (t : Tgt P) : Bool :=
  open Classical in
  if t.r < prm.rlim then false else if prm.covlim < E.covNorm t.pdf then false else true

/-! ## `TargetTree_` -/

/-- `remove`, `targettree.hpp:40-43`. -/
def remove (E : Env P R O) (s : St P) (a : Nat) : Option (St P) :=
  match s.heap a with
  | none => none
  | some t =>
    match RTree.removeWith E.areas (E.box t.pdf) a s.tree with
    | none => none
    | some tree => some { s with tree := tree }

/-- `remove_all`, `targettree.hpp:45-47`. -/
def removeAll (s : St P) : St P := { s with tree := RTree.empty }

/-- `erase`, `targettree.hpp:49-53`; deleting twice is undefined. -/
def erase (s : St P) (a : Nat) : Option (St P) :=
  match s.heap a with
  | none => none
  | some _ =>
    some { s with targets := s.targets.filter (· ≠ a), heap := setHeap s.heap a none }

/-- `replace`, `targettree.hpp:55-58`. -/
def replace (E : Env P R O) (s : St P) (a : Nat) : Option (St P) :=
  match s.heap a with
  | none => none
  | some t =>
    match RTree.insertWith E.areas (E.box t.pdf) a s.tree with
    | none => none
    | some tree => some { s with tree := tree }

/-- `new_target`, `targettree.hpp:60-70`, followed by `t->cid = …` (`lmb.hpp:469`).  `alloc` picks
an address given the live ones; an address that is in use is not a possible outcome of `new`.
`id_counter` is a 32-bit `unsigned`. -/
def newTarget (E : Env P R O) (alloc : List Nat → Nat) (s : St P) (r : ℝ) (p : P) (cid : Nat) :
    Option (St P) :=
  let a := alloc s.targets
  match s.heap a with
  | some _ => none
  | none =>
    match RTree.insertWith E.areas (E.box p) a s.tree with
    | none => none
    | some tree =>
      some { heap := setHeap s.heap a (some ⟨s.idc, r, p, cid, 'i'⟩), targets := s.targets ++ [a],
             tree := tree, idc := (s.idc + 1) % 2 ^ 32 }

/-- `query`, `targettree.hpp:72-81`. -/
def query (s : St P) (b : Rect) : Option (List Nat) :=
  (RTree.search (fun acc d => (acc ++ [d], true)) b [] s.tree).map (·.1)

/-! ## Prediction -/

/-- Loop body of `predict`, `lmb.hpp:70-78`, `target.hpp:173-181`, on one target. -/
noncomputable def predictTgt (E : Env P R O) (m : Motion P) (t : Tgt P) : Tgt P :=
  let p := E.normalize (m.pdf (E.toLocal (E.pos t.pdf) t.pdf))
  { t with pdf := E.toGlobal p, r := t.r * m.factor * E.eta p, la := 'u' }

/-- The parallel loop `lmb.hpp:64-79`, run in the order given. -/
noncomputable def predictLoop (E : Env P R O) (m : Motion P) : List Nat → St P → Option (St P)
  | [], s => some s
  | a :: l, s =>
    match s.heap a with
    | none => none
    | some t => predictLoop E m l { s with heap := setHeap s.heap a (some (predictTgt E m t)) }

/-- `lmb.hpp:81-87` and `cluster.hpp:146-152`: put back the viable targets, erase the others. -/
noncomputable def settle (E : Env P R O) (prm : Params) : List Nat → St P → Option (St P)
  | [], s => some s
  | a :: l, s =>
    match s.heap a with
    | none => none
    | some t =>
      match (if viable E prm t then replace E s a else erase s a) with
      | none => none
      | some s' => settle E prm l s'

/-- `predict`, `lmb.hpp:54-91`; `ord` is the order in which the parallel loop runs. -/
noncomputable def predict (E : Env P R O) (prm : Params) (m : Motion P) (ord : List Nat → List Nat)
    (s : St P) : Option (St P) :=
  match predictLoop E m (ord s.targets) (removeAll s) with
  | none => none
  | some s' => settle E prm s.targets s'

/-! ## Correction of one cluster -/

/-- A report of the scan, `report.hpp:18-20`: its value, `rB` (`none` is a NaN) and `cid`. -/
structure Rep (R : Type) where
  val : R
  rB : Option ℝ
  cid : Nat

/-- What a cluster computes between its two critical sections: number of hypotheses, new targets,
reports (moved to the local frame and back) and birth probabilities. -/
structure Comp (P R : Type) where
  n : Nat
  ts : List (Tgt P)
  rs : List R
  rB : List (Option ℝ)

/-- `transform_to_global`, `cluster.hpp:210-222`, on one target. -/
def back (E : Env P R O) (t : Tgt P) : Tgt P := { t with pdf := E.toGlobal t.pdf }

/-- `transform_to_local`, `cluster.hpp:184-193`, on one target. -/
def forth (E : Env P R O) (o : O) (t : Tgt P) : Tgt P := { t with pdf := E.toLocal o t.pdf }

/-- Target `i` after `match` (`target.hpp:123-140`) and `correct` (`target.hpp:162-170`), with the
row `i` of the normalised `R`. -/
noncomputable def corrected (E : Env P R O) (S : Sensor P R) (ad : Nat) (t : Tgt P) (rs : List R)
    (w : List ℝ) (sum : Option ℝ) : Tgt P :=
  let res := targetCorrect sum (1 / 1000000)
  { t with
    r := res.1
    pdf := if res.2 then E.join t.pdf w (rs.map (S.upd ad t.pdf) ++ [S.missPdf ad t.pdf])
      else t.pdf
    la := if res.2 then 'c' else t.la }

/-- `cluster.hpp:56-136`: the part of `correct` between the critical sections, on targets `ts` (with
their addresses) and reports `rs`. -/
noncomputable def compute (E : Env P R O) (S : Sensor P R) (prm : Params)
    (pick : ∀ r c, List (Node r c) → Nat) (fuel : Nat) (wt : ℚ → ℝ)
    (ts : List (Nat × Tgt P)) (rs : List R) : Option (Comp P R) :=
  let o := E.center (rs.map E.rpos ++ ts.map fun t => E.pos t.2.pdf)
  let rl := rs.map (E.rLocal o)
  let rg := rl.map (E.rGlobal o)
  let tl := ts.map fun t => (t.1, forth E o t.2)
  if tl.length = 0 then some ⟨0, [], rg, rl.map fun _ => some 1⟩
  else
    let C : Cost tl.length (rl.length + 2 * tl.length) := costMatrix
      (fun i j => S.detCost (tl.get i).1 (tl.get i).2.r (tl.get i).2.pdf (rl.get j))
      (fun i => S.missCost (tl.get i).1 (tl.get i).2.r (tl.get i).2.pdf)
      (fun i => S.flsCost (tl.get i).2.r)
    match hypotheses (pick _ _) fuel wt prm.wlim prm.nhypMax C with
    | none => none
    | some a =>
      if a.n = 0 then some ⟨0, tl.map fun t => back E t.2, rg, rl.map fun _ => some 1⟩
      else some ⟨a.n, List.ofFn fun i => back E (corrected E S (tl.get i).1 (tl.get i).2 rl
          (List.ofFn fun j => a.R i j / a.wsum) (a.rowSum i)), rg, List.ofFn a.rB⟩

/-- The targets at the given addresses. -/
def readAll (h : Nat → Option (Tgt P)) : List Nat → Option (List (Nat × Tgt P))
  | [] => some []
  | a :: l =>
    match h a, readAll h l with
    | some t, some ts => some ((a, t) :: ts)
    | _, _ => none

/-- Assign the objects at the given addresses. -/
def writeAll (h : Nat → Option (Tgt P)) : List Nat → List (Tgt P) → Nat → Option (Tgt P)
  | a :: l, t :: ts => writeAll (setHeap h a (some t)) l ts
  | _, _ => h

/-- Assign value and `rB` of the given reports, `cluster.hpp:118,126,203`. -/
def writeReps (reps : Nat → Rep R) : List Nat → List R → List (Option ℝ) → Nat → Rep R
  | j :: l, v :: vs, b :: bs =>
    writeReps (fun k => if k = j then ⟨v, b, (reps j).cid⟩ else reps k) l vs bs
  | _, _, _ => reps

/-! ## The parallel loop over the clusters -/

/-- State of the parallel loop: the tracker, the reports, and how far each cluster has come (0
before its first critical section, 1 after it, 2 after the computation, 3 when done). -/
structure Cfg (P R : Type) where
  st : St P
  reps : Nat → Rep R
  pc : Nat → Nat

/-- The first critical section, `cluster.hpp:43-48`. -/
def removeLoop (E : Env P R O) : List Nat → St P → Option (St P)
  | [], s => some s
  | a :: l, s =>
    match remove E s a with
    | none => none
    | some s' => removeLoop E l s'

/-- One step of cluster `i`, `cluster.hpp:36-154`. -/
noncomputable def clStep (E : Env P R O) (S : Sensor P R) (prm : Params)
    (pick : ∀ r c, List (Node r c) → Nat) (fuel : Nat) (wt : ℚ → ℝ) (cls : List Cl) (i : Nat)
    (g : Cfg P R) : Option (Cfg P R) :=
  match cls[i]? with
  | none => none
  | some c =>
    let pc' : Nat → Nat := fun k => if k = i then g.pc i + 1 else g.pc k
    match g.pc i with
    | 0 =>
      match removeLoop E c.targets g.st with
      | none => none
      | some s => some { g with st := s, pc := pc' }
    | 1 =>
      match readAll g.st.heap c.targets with
      | none => none
      | some ts =>
        match compute E S prm pick fuel wt ts (c.reports.map fun j => (g.reps j).val) with
        | none => none
        | some v =>
          some { st := { g.st with heap := writeAll g.st.heap c.targets v.ts }
                 reps := writeReps g.reps c.reports v.rs v.rB
                 pc := pc' }
    | 2 =>
      match settle E prm c.targets g.st with
      | none => none
      | some s => some { g with st := s, pc := pc' }
    | _ => none

/-- The parallel loop `lmb.hpp:124-130` under a schedule. -/
noncomputable def clRun (E : Env P R O) (S : Sensor P R) (prm : Params)
    (pick : ∀ r c, List (Node r c) → Nat) (fuel : Nat) (wt : ℚ → ℝ) (cls : List Cl) :
    List Nat → Cfg P R → Option (Cfg P R)
  | [], g => some g
  | i :: l, g =>
    match clStep E S prm pick fuel wt cls i g with
    | none => none
    | some g' => clRun E S prm pick fuel wt cls l g'

/-! ## Birth -/

/-- `rB_sum += r.rB`, `lmb.hpp:454`; `none` is a NaN. -/
noncomputable def addRB (reps : Nat → Rep R) (s : Option ℝ) (j : Nat) : Option ℝ :=
  match s, (reps j).rB with
  | some s, some b => some (s + b)
  | _, _ => none

/-- The sum of `rB` over the scan, `lmb.hpp:451-455`; `none` is a NaN. -/
noncomputable def rBsum (n : Nat) (reps : Nat → Rep R) : Option ℝ :=
  (List.range n).foldl (addRB reps) (some 0)

/-- The loops `lmb.hpp:458-473` in the order given. -/
noncomputable def birthLoop (E : Env P R O) (S : Sensor P R) (prm : Params)
    (alloc : List Nat → Nat) (sum : ℝ) (reps : Nat → Rep R) : List Nat → St P → Option (St P)
  | [], s => some s
  | j :: l, s =>
    open Classical in
    match (reps j).rB with
    | none => birthLoop E S prm alloc sum reps l s
    | some b =>
      if prm.rlim ≤ b * S.lambdaB / sum then
        match newTarget E alloc s (min (b * S.lambdaB / sum) prm.rBmax) (S.init (reps j).val)
            (reps j).cid with
        | none => none
        | some s' => birthLoop E S prm alloc sum reps l s'
      else birthLoop E S prm alloc sum reps l s

/-- `birth`, `lmb.hpp:449-475`; `ord` is the order in which the parallel loops run. -/
noncomputable def birth (E : Env P R O) (S : Sensor P R) (prm : Params)
    (alloc : List Nat → Nat) (ord : List Nat → List Nat) (cls : List Cl) (n : Nat)
    (reps : Nat → Rep R) (s : St P) : Option (St P) :=
  open Classical in
  match rBsum n reps with
  | none => some s
  | some sum =>
    if prm.rlim ≤ sum then
      birthLoop E S prm alloc sum reps (ord (cls.flatMap Cl.reports)) s
    else some s

/-! ## Correction -/

/-- `get_targets`, `sensors.hpp:48-64`: query, then filter by `intersects`. -/
def getTargets (S : Sensor P R) (s : St P) : Option (List Nat) :=
  match query s S.fovBox with
  | none => none
  | some l =>
    match readAll s.heap l with
    | none => none
    | some ts => some ((ts.filter fun t => S.inView t.2.pdf).map (·.1))

/-- The queries of `lmb.hpp:364-366`, one per report. -/
def queries (E : Env P R O) (s : St P) : List R → Option (List (List Nat))
  | [] => some []
  | v :: l =>
    match query s (E.rbox v), queries E s l with
    | some q, some qs => some (q :: qs)
    | _, _ => none

/-- `(*t)->cid = …`, `lmb.hpp:418-420,440`. -/
def writeCids (h : Nat → Option (Tgt P)) (tcid : Nat → Nat) : List Nat → Option (Nat → Option (Tgt P))
  | [] => some h
  | a :: l =>
    match h a with
    | none => none
    | some t => writeCids (setHeap h a (some { t with cid := tcid a })) tcid l

/-- Everything up to the parallel loop, `lmb.hpp:103-122`: the clusters and the state in which the
`cid`s have been written. -/
def prepare (E : Env P R O) (S : Sensor P R) (scan : List (Rep R)) (s : St P) :
    Option (List Cl × St P × (Nat → Nat)) :=
  match getTargets S s, queries E s (scan.map Rep.val) with
  | some all, some qs =>
    match Cluster.cluster (fun r => qs.getD r []) scan.length all
        (fun j => (scan[j]?.map Rep.cid).getD 0) (fun a => ((s.heap a).map Tgt.cid).getD 0) with
    | none => none
    | some c =>
      match writeCids s.heap c.tcid (c.clusters.flatMap Cl.targets) with
      | none => none
      | some h => some (c.clusters, { s with heap := h }, c.rcid)
  | _, _ => none

/-- Choices made outside the program in one call of `correct`: the schedule of the parallel loop,
the order of the births, the allocator, the tie-breaking of the priority queue, and `exp`. -/
structure Choices where
  sched : List Cl → List Nat
  ord : List Nat → List Nat
  alloc : List Nat → Nat
  pick : ∀ r c, List (Node r c) → Nat
  wt : ℚ → ℝ

/-- The reports at the start of the parallel loop.  `dflt` is never reached (there is a report for
every index of the scan). -/
def initReps (scan : List (Rep R)) (rcid : Nat → Nat) (dflt : Rep R) : Nat → Rep R :=
  fun j => { scan.getD j dflt with cid := rcid j }

/-- `correct`, `lmb.hpp:94-134`.  The scan is changed in place, so it is part of the result; for an
empty scan there is nothing to change. -/
noncomputable def correct (E : Env P R O) (S : Sensor P R) (prm : Params) (ch : Choices)
    (fuel : Nat) (scan : List (Rep R)) (dflt : Rep R) (s : St P) :
    Option (St P × (Nat → Rep R)) :=
  match prepare E S scan s with
  | none => none
  | some (cls, s1, rcid) =>
    match clRun E S prm ch.pick fuel ch.wt cls (ch.sched cls)
        ⟨s1, initReps scan rcid dflt, fun _ => 0⟩ with
    | none => none
    | some g =>
      match birth E S prm ch.alloc ch.ord cls scan.length g.reps g.st with
      | none => none
      | some s2 => some (s2, g.reps)

/-! ## Queries -/

/-- The sum of `r` over targets, `lmb.hpp:139-143,150-153`. -/
def sumR (h : Nat → Option (Tgt P)) : List Nat → ℝ → Option ℝ
  | [], x => some x
  | a :: l, x =>
    match h a with
    | none => none
    | some t => sumR h l (x + t.r)

/-- `enof_targets()`, `lmb.hpp:136-145`. -/
def enofTargets (s : St P) : Option ℝ := sumR s.heap s.targets 0

/-- `enof_targets(aabbox)`, `lmb.hpp:147-156`. -/
def enofTargetsIn (s : St P) (b : Rect) : Option ℝ :=
  match query s b with
  | none => none
  | some l => sumR s.heap l 0

/-- The loop of `nof_targets`, `lmb.hpp:162-164,172-174`; the counter is 32 bits wide. -/
noncomputable def countR (h : Nat → Option (Tgt P)) (rlim : ℝ) : List Nat → Nat → Option Nat
  | [], x => some x
  | a :: l, x =>
    open Classical in
    match h a with
    | none => none
    | some t => countR h rlim l (if rlim ≤ t.r then (x + 1) % 2 ^ 32 else x)

/-- `nof_targets(r_lim)`, `lmb.hpp:158-167`. -/
noncomputable def nofTargets (s : St P) (rlim : ℝ) : Option Nat := countR s.heap rlim s.targets 0

/-- `nof_targets(aabbox, r_lim)`, `lmb.hpp:169-178`. -/
noncomputable def nofTargetsIn (s : St P) (b : Rect) (rlim : ℝ) : Option Nat :=
  match query s b with
  | none => none
  | some l => countR s.heap rlim l 0

/-- `get_targets()`, `lmb.hpp:180-193`.  A summary is the target (its mean and covariance are
functions of the density). -/
def getAll (s : St P) : Option (List (Nat × Tgt P)) := readAll s.heap s.targets

/-- `get_targets(aabbox)`, `lmb.hpp:195-208`. -/
def getIn (s : St P) (b : Rect) : Option (List (Nat × Tgt P)) :=
  match query s b with
  | none => none
  | some l => readAll s.heap l

/-! ## Histories -/

/-- A call that changes the tracker. -/
inductive Call (P R : Type) where
  | predict (m : Motion P) (ord : List Nat → List Nat)
  | correct (S : Sensor P R) (ch : Choices) (scan : List (Rep R)) (dflt : Rep R)

/-- One call, `lmb.hpp:54,94`. -/
noncomputable def step (E : Env P R O) (prm : Params) (fuel : Nat) (s : St P) :
    Call P R → Option (St P)
  | .predict m ord => predict E prm m ord s
  | .correct S ch scan dflt => (correct E S prm ch fuel scan dflt s).map (·.1)

/-- A history of calls. -/
noncomputable def run (E : Env P R O) (prm : Params) (fuel : Nat) :
    List (Call P R) → St P → Option (St P)
  | [], s => some s
  | c :: l, s =>
    match step E prm fuel s c with
    | none => none
    | some s' => run E prm fuel l s'

end Verif.Tracker

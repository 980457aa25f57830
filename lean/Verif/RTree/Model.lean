import Mathlib.Data.Rat.Defs
import Mathlib.Algebra.Order.Ring.Rat

/-!
# Model of `include/RTree.h`

The template is modelled at the instantiation used by clmb
(`include/targettree.hpp:25`: two dimensions, `double` coordinates, pointer payload,
`TMAXNODES = 8`, `TMINNODES = 4`), with `RTREE_USE_SPHERICAL_VOLUME` and
`RTREE_DONT_USE_MEMPOOLS` defined (`RTree.h:21-22`).

* Coordinates are rationals (every finite `double` is one).  Unions and overlap tests only compare
  them.  The arithmetic on areas is a parameter `Areas`: exact here, `double` in `Verif/RTreeF`.
* A failed `ASSERT`, a read of an uninitialised local and an out-of-range array access
  are all the outcome `none`.
* Pointers to nodes are modelled by the trees they own (every node has one owner), so
  in-place updates become returned values.
-/

namespace Verif.RTree

/-- `RTree::Rect`, `RTree.h:270-274` with `NUMDIMS = 2`. -/
structure Rect where
  minx : ℚ
  miny : ℚ
  maxx : ℚ
  maxy : ℚ
deriving DecidableEq, Repr

/-- `RTree::Node` / the `m_child`–`m_data` union of `RTree::Branch`, `RTree.h:279-298`.
`data d` is the union read as a payload, `node level branches` is the union read as a
`Node*`; `m_count` is the length of the branch list (entries past `m_count` are never
read by the code). -/
inductive Tree (D : Type) where
  | data (d : D) : Tree D
  | node (level : Int) (bs : List (Rect × Tree D)) : Tree D

/-- `RTree::Branch`, `RTree.h:279-287`. -/
abbrev Branch (D : Type) := Rect × Tree D

/-- `TMAXNODES`, `RTree.h:45`. -/
abbrev MAXNODES : Nat := 8
/-- `TMINNODES = TMAXNODES / 2`, `RTree.h:45`. -/
abbrev MINNODES : Nat := 4

variable {D : Type}

/-- The branches of a node, `RTree.h:297` (a payload has none). -/
def Tree.branches : Tree D → List (Branch D)
  | .data _ => []
  | .node _ bs => bs

/-- `m_count`, `RTree.h:295`. -/
def Tree.count (t : Tree D) : Nat := t.branches.length

/-- `m_level`, `RTree.h:296`. -/
def Tree.level : Tree D → Int
  | .data _ => 0
  | .node l _ => l

/-- `m_unitSphereVolume` for two dimensions: the `float` literal `3.141593f`,
`RTree.h:455,466`. -/
def unitSphereVolume : ℚ := 3294199 / 1048576

/-- `RectSphericalVolume`, `RTree.h:1144-1172` (`CalcRectVolume`, `1177-1184`).
`radius * radius` with `radius = sqrt(sumOfSquares)` is `sumOfSquares` in exact arithmetic. -/
def vol (r : Rect) : ℚ :=
  (((r.maxx - r.minx) * (1/2)) * ((r.maxx - r.minx) * (1/2))
    + ((r.maxy - r.miny) * (1/2)) * ((r.maxy - r.miny) * (1/2))) * unitSphereVolume

/-- `CombineRect`, `RTree.h:1075-1088`. -/
def combine (a b : Rect) : Rect where
  minx := min a.minx b.minx
  miny := min a.miny b.miny
  maxx := max a.maxx b.maxx
  maxy := max a.maxy b.maxy

/-- `Overlap`, `RTree.h:1508-1521`. -/
def overlap (a b : Rect) : Bool :=
  if a.minx > b.maxx ∨ b.minx > a.maxx then false
  else if a.miny > b.maxy ∨ b.miny > a.maxy then false
  else true

/-- `InitRect`, `RTree.h:860-867`. -/
def initRect : Rect := ⟨0, 0, 0, 0⟩

/-- `NodeCover`, `RTree.h:964-986`, on the branches of the node. -/
def nodeCover : List (Branch D) → Rect
  | [] => initRect
  | b :: bs => bs.foldl (fun r c => combine r c.1) b.1

/-- The arithmetic the insertion code does on areas (`ELEMTYPEREAL`): `CalcRectVolume`
(`RTree.h:1177-1184`), subtraction and negation, and the comparisons `<` and `==`
(`1037-1070`, `1228-1302`, `1348-1376`).  Nothing else in the tree computes with numbers. -/
structure Areas where
  α : Type
  vol : Rect → α
  sub : α → α → α
  neg : α → α
  zero : α
  one : α
  lt : α → α → Bool
  eq : α → α → Bool

/-- Exact arithmetic (`RTree.h:1144-1184`); `Verif/RTreeF` has the arithmetic of `double`. -/
def Areas.exact : Areas :=
  ⟨ℚ, RTree.vol, (· - ·), (- ·), 0, 1, fun a b => decide (a < b), fun a b => decide (a = b)⟩

variable (A : Areas)

/-- Loop of `PickBranch`, `RTree.h:1049-1068`.  The accumulator is
`(best, bestArea, bestIncr)`; `none` means `firstTime`. -/
def pickLoop (r : Rect) :
    Nat → List (Branch D) → Option (Nat × A.α × A.α) → Option (Nat × A.α × A.α)
  | _, [], acc => acc
  | i, b :: bs, acc =>
    let area := A.vol b.1
    let increase := A.sub (A.vol (combine r b.1)) area
    let acc' :=
      match acc with
      | none => some (i, area, increase)
      | some (best, bestArea, bestIncr) =>
        if A.lt increase bestIncr then some (i, area, increase)
        else if A.eq increase bestIncr && A.lt area bestArea then some (i, area, increase)
        else some (best, bestArea, bestIncr)
    pickLoop r (i + 1) bs acc'

/-- `PickBranch`, `RTree.h:1037-1070`; `none` is the read of the uninitialised `best`. -/
def pickBranch (r : Rect) (bs : List (Branch D)) : Option Nat :=
  (pickLoop A r 0 bs none).map (·.1)

/-- `PartitionVars`, `RTree.h:308-322`.  `part[i] = none` is `m_partition[i] = -1`,
`some false`/`some true` are groups 0/1.  `m_taken[i]` is `part[i].isSome`: both are only
written together (`1341-1342`, `1386-1387`).  `m_total` is the length of the buffer. -/
structure ParVars where
  part : List (Option Bool)
  count0 : Nat
  count1 : Nat
  cover0 : Rect
  cover1 : Rect
  area0 : A.α
  area1 : A.α

/-- `InitParVars`, `RTree.h:1331-1344`.  The covers are uninitialised there; they are first
written by the first `Classify` of each group (`1389-1392`) before they are read. -/
def initParVars (n : Nat) : ParVars A :=
  ⟨List.replicate n none, 0, 0, initRect, initRect, A.zero, A.zero⟩

/-- `m_count[group]`. `RTree.h:314` -/
def ParVars.count {A : Areas} (pv : ParVars A) (g : Bool) : Nat := if g then pv.count1 else pv.count0

/-- `Classify`, `RTree.h:1381-1399`. -/
def classify (buf : List (Branch D)) (i : Nat) (g : Bool) (pv : ParVars A) :
    Option (ParVars A) :=
  match buf[i]?, pv.part[i]? with
  | some b, some none =>
    let part := pv.part.set i (some g)
    if g then
      let cover := if pv.count1 = 0 then b.1 else combine b.1 pv.cover1
      some { pv with part := part, cover1 := cover, area1 := A.vol cover, count1 := pv.count1 + 1 }
    else
      let cover := if pv.count0 = 0 then b.1 else combine b.1 pv.cover0
      some { pv with part := part, cover0 := cover, area0 := A.vol cover, count0 := pv.count0 + 1 }
  | _, _ => none

/-- Inner loop of `PickSeeds`, `RTree.h:1362-1372`; accumulator `(worst, seeds)`. -/
def seedsInner (ra : Rect) (ia : Nat) :
    Nat → List (Branch D) → A.α × Option (Nat × Nat) → A.α × Option (Nat × Nat)
  | _, [], acc => acc
  | ib, b :: bs, acc =>
    let waste := A.sub (A.sub (A.vol (combine ra b.1)) (A.vol ra)) (A.vol b.1)
    seedsInner ra ia (ib + 1) bs (if A.lt acc.1 waste then (waste, some (ia, ib)) else acc)

/-- Outer loop of `PickSeeds`, `RTree.h:1360-1373`. The last index has no partner, which is
the bound `m_total - 1` of the code. -/
def seedsOuter : Nat → List (Branch D) → A.α × Option (Nat × Nat) → A.α × Option (Nat × Nat)
  | _, [], acc => acc
  | ia, a :: bs, acc => seedsOuter (ia + 1) bs (seedsInner A a.1 ia (ia + 1) bs acc)

/-- `PickSeeds`, `RTree.h:1348-1376`; `none` if `seed0`/`seed1` stay uninitialised.
`coverSplitArea` is computed in `GetBranches`, `1205-1210`. -/
def pickSeeds (buf : List (Branch D)) (pv : ParVars A) : Option (ParVars A) :=
  match (seedsOuter A 0 buf (A.sub (A.neg (A.vol (nodeCover buf))) A.one, none)).2 with
  | none => none
  | some (s0, s1) => (classify A buf s0 false pv).bind (classify A buf s1 true)

/-- The scan for the most attracted rectangle in `ChoosePartition`, `RTree.h:1242-1275`.
Accumulator `(biggestDiff, (chosen, betterGroup))`; reading the unset `betterGroup` is `none`. -/
def scan (pv : ParVars A) : Nat → List (Branch D × Option Bool) → A.α × Option (Nat × Bool) →
    Option (A.α × Option (Nat × Bool))
  | _, [], acc => some acc
  | i, (_, some _) :: l, acc => scan pv (i + 1) l acc
  | i, (b, none) :: l, (biggest, ch) =>
    let growth0 := A.sub (A.vol (combine b.1 pv.cover0)) pv.area0
    let growth1 := A.sub (A.vol (combine b.1 pv.cover1)) pv.area1
    let d := A.sub growth1 growth0
    let group := if A.lt A.zero d || A.eq d A.zero then false else true
    let diff := if A.lt A.zero d || A.eq d A.zero then d else A.neg d
    if A.lt biggest diff then scan pv (i + 1) l (diff, some (i, group))
    else if A.eq diff biggest then
      match ch with
      | none => none
      | some (_, better) =>
        if pv.count group < pv.count better then scan pv (i + 1) l (biggest, some (i, group))
        else scan pv (i + 1) l (biggest, ch)
    else scan pv (i + 1) l (biggest, ch)

/-- `while` loop of `ChoosePartition`, `RTree.h:1238-1277`.  The first argument is fuel. -/
def chooseLoop (buf : List (Branch D)) (minFill : Nat) : Nat → ParVars A → Option (ParVars A)
  | 0, _ => none
  | f + 1, pv =>
    if pv.count0 + pv.count1 < buf.length ∧ pv.count0 < buf.length - minFill
        ∧ pv.count1 < buf.length - minFill then
      match scan A pv 0 (buf.zip pv.part) (A.neg A.one, none) with
      | some (_, some (i, g)) => (classify A buf i g pv).bind (chooseLoop buf minFill f)
      | _ => none
    else some pv

/-- "put remaining rects in the other", `RTree.h:1290-1296`: `n` indices are left. -/
def classifyRest (buf : List (Branch D)) (g : Bool) :
    Nat → Nat → ParVars A → Option (ParVars A)
  | 0, _, pv => some pv
  | n + 1, i, pv =>
    match pv.part[i]? with
    | some none => (classify A buf i g pv).bind (classifyRest buf g n (i + 1))
    | some (some _) => classifyRest buf g n (i + 1) pv
    | none => none

/-- `ChoosePartition`, `RTree.h:1228-1302`, including its final assertions. -/
def choosePartition (buf : List (Branch D)) (minFill : Nat) : Option (ParVars A) := do
  let pv ← pickSeeds A buf (initParVars A buf.length)
  let pv ← chooseLoop A buf minFill (buf.length + 1) pv
  let pv ←
    if pv.count0 + pv.count1 < buf.length then
      classifyRest A buf (if pv.count0 ≥ buf.length - minFill then true else false) buf.length 0 pv
    else some pv
  if pv.count0 + pv.count1 = buf.length ∧ minFill ≤ pv.count0 ∧ minFill ≤ pv.count1 then some pv
  else none

/-- `LoadNodes`, `RTree.h:1307-1326`, appending to the two branch lists.  `AddBranch` with
`a_newNode = NULL` on a full node fails its assertion (`1008`). -/
def loadNodes : List (Branch D × Option Bool) → List (Branch D) → List (Branch D) →
    Option (List (Branch D) × List (Branch D))
  | [], a, b => some (a, b)
  | (br, some false) :: l, a, b => if a.length < MAXNODES then loadNodes l (a ++ [br]) b else none
  | (br, some true) :: l, a, b => if b.length < MAXNODES then loadNodes l a (b ++ [br]) else none
  | (_, none) :: _, _, _ => none

/-- `SplitNode`, `RTree.h:1097-1120` with `GetBranches`, `1189-1213`: the branches of the old
and of the new node. -/
def splitNode (bs : List (Branch D)) (b : Branch D) :
    Option (List (Branch D) × List (Branch D)) := do
  if bs.length ≠ MAXNODES then none
  let buf := bs ++ [b]
  let pv ← choosePartition A buf MINNODES
  let (x, y) ← loadNodes (buf.zip pv.part) [] []
  if x.length + y.length = buf.length then some (x, y) else none

/-- `AddBranch`, `RTree.h:994-1013`; the second component is `*a_newNode` if the node split. -/
def addBranch (b : Branch D) (level : Int) (bs : List (Branch D)) :
    Option (Tree D × Option (Tree D)) :=
  if bs.length < MAXNODES then some (.node level (bs ++ [b]), none)
  else do
    let (x, y) ← splitNode A bs b
    some (.node level x, some (.node level y))

/-- `InsertRectRec`, `RTree.h:878-918`.  The recursion depth is bounded by the first argument,
which `insertRect` sets to the level of the root. -/
def insertRec :
    Nat → Rect → Tree D → Tree D → Int → Option (Tree D × Option (Tree D))
  | _, _, _, .data _, _ => none
  | 0, r, x, .node l bs, al =>
    if 0 ≤ al ∧ l = al then addBranch A (r, x) l bs else none
  | f + 1, r, x, .node l bs, al =>
    if ¬(0 ≤ al ∧ al ≤ l) then none
    else if l > al then do
      let i ← pickBranch A r bs
      let b ← bs[i]?
      let (child, other) ← insertRec f r x b.2 al
      match other with
      | none => some (.node l (bs.set i (combine r b.1, child)), none)
      | some o =>
        addBranch A (nodeCover o.branches, o) l (bs.set i (nodeCover child.branches, child))
    else addBranch A (r, x) l bs

/-- `InsertRect`, `RTree.h:929-959`. -/
def insertRect (r : Rect) (x : Tree D) (root : Tree D) (al : Int) :
    Option (Tree D) := do
  if ¬(0 ≤ al ∧ al ≤ root.level) then none
  let (t, other) ← insertRec A root.level.toNat r x root al
  match other with
  | none => some t
  | some o =>
    some (.node (t.level + 1) [(nodeCover t.branches, t), (nodeCover o.branches, o)])

/-- `Insert`, `RTree.h:478-496`. -/
def insertWith (r : Rect) (d : D) (root : Tree D) : Option (Tree D) :=
  insertRect A r (.data d) root 0

/-- `Insert` with exact areas, `RTree.h:478-496`. -/
def insert (r : Rect) (d : D) (root : Tree D) : Option (Tree D) := insertWith .exact r d root

/-- The constructor, `RTree.h:443-467`, and `RemoveAll`, `760-767` (`Reset`, `RemoveAllRec` and
`FreeNode`, `771-824`, only release memory): a fresh empty leaf. -/
def empty : Tree D := .node 0 []

/-- `DisconnectBranch`, `RTree.h:1019-1028`. -/
def disconnect (bs : List (Branch D)) (i : Nat) : Option (List (Branch D)) :=
  match bs.getLast? with
  | none => none
  | some last => if i < bs.length then some ((bs.set i last).dropLast) else none

/-- Leaf loop of `RemoveRectRec`, `RTree.h:1493-1500`: index of the first branch whose payload
equals the id.  (A child pointer never equals a payload: leaves hold payloads only.) -/
def findData [DecidableEq D] (d : D) : Nat → List (Branch D) → Option Nat
  | _, [] => none
  | i, (_, .data e) :: bs => if e = d then some i else findData d (i + 1) bs
  | i, (_, .node _ _) :: bs => findData d (i + 1) bs

/-- Inner-node loop of `RemoveRectRec`, `RTree.h:1468-1488`: the first overlapping branch in
which the recursive call `rec` found the entry, with the updated child and list.
Outer `none` is undefined behaviour, inner `none` is "not found". -/
def removeLoop (rec : Tree D → Option (Option (Tree D × List (Tree D)))) (r : Rect) :
    Nat → List (Branch D) → Option (Option (Nat × Tree D × List (Tree D)))
  | _, [] => some none
  | i, b :: bs =>
    if overlap r b.1 then
      match rec b.2 with
      | none => none
      | some none => removeLoop rec r (i + 1) bs
      | some (some (child, list)) => some (some (i, child, list))
    else removeLoop rec r (i + 1) bs

/-- `RemoveRectRec`, `RTree.h:1461-1503`.  Outer `none`: undefined behaviour; `some none`:
returns `true` (not found); `some (some (node, list))`: returns `false`, with the updated node
and the re-insert list this call prepends to the caller's (`ReInsert`, `1527-1535`, pushes in
front, so the list is innermost last).  The recursion depth is bounded by the first argument. -/
def removeRec [DecidableEq D] (r : Rect) (d : D) :
    Nat → Tree D → Option (Option (Tree D × List (Tree D)))
  | _, .data _ => none
  | 0, .node l bs =>
    if l = 0 then
      match findData d 0 bs with
      | none => some none
      | some i => (disconnect bs i).map fun bs' => some (.node l bs', [])
    else none
  | f + 1, .node l bs =>
    if l < 0 then none
    else if l > 0 then
      match removeLoop (removeRec r d f) r 0 bs with
      | none => none
      | some none => some none
      | some (some (i, child, list)) =>
        match bs[i]? with
        | none => none
        | some _ =>
          if child.count ≥ MINNODES then
            some (some (.node l (bs.set i (nodeCover child.branches, child)), list))
          else
            (disconnect bs i).map fun bs' => some (.node l bs', child :: list)
    else
      match findData d 0 bs with
      | none => some none
      | some i => (disconnect bs i).map fun bs' => some (.node l bs', [])

/-- Re-insertion of the branches of one node, `RTree.h:1423-1429`. -/
def reinsertBranches (al : Int) : List (Branch D) → Tree D → Option (Tree D)
  | [], root => some root
  | b :: bs, root => (insertRect A b.1 b.2 root al).bind (reinsertBranches al bs)

/-- Re-insertion of all eliminated nodes, `RTree.h:1419-1436`. -/
def reinsertAll : List (Tree D) → Tree D → Option (Tree D)
  | [], root => some root
  | n :: ns, root => (reinsertBranches A n.level n.branches root).bind (reinsertAll ns)

/-- Elimination of a redundant root, `RTree.h:1439-1446`. -/
def shrinkRoot (root : Tree D) : Tree D :=
  match root with
  | .node l [(_, child)] => if l > 0 then child else root
  | _ => root

/-- `RemoveRect`, `RTree.h:1407-1453`; the Boolean is the return value (`true`: not found). -/
def removeRectWith [DecidableEq D] (r : Rect) (d : D) (root : Tree D) :
    Option (Bool × Tree D) :=
  match removeRec r d root.level.toNat root with
  | none => none
  | some none => some (true, root)
  | some (some (root', list)) => (reinsertAll A list root').map fun t => (false, shrinkRoot t)

/-- `RemoveRect` with exact areas, `RTree.h:1407-1453`. -/
def removeRect [DecidableEq D] (r : Rect) (d : D) (root : Tree D) : Option (Bool × Tree D) :=
  removeRectWith .exact r d root

/-- `Remove`, `RTree.h:500-518`. -/
def removeWith [DecidableEq D] (r : Rect) (d : D) (root : Tree D) :
    Option (Tree D) := (removeRectWith A r d root).map (·.2)

/-- `Remove` with exact areas, `RTree.h:500-518`. -/
def remove [DecidableEq D] (r : Rect) (d : D) (root : Tree D) : Option (Tree D) :=
  (removeRect r d root).map (·.2)

/-- A search callback with its context: new context and "continue?". `RTree.h:1540` -/
abbrev Callback (σ D : Type) := σ → D → σ × Bool

/-- Leaf loop of `Search`, `RTree.h:1561-1577`.  State: context and `a_foundCount`; the Boolean
is the return value. -/
def searchLeaf {σ : Type} (cb : Callback σ D) (r : Rect) :
    List (Branch D) → σ × Nat → Option ((σ × Nat) × Bool)
  | [], s => some (s, true)
  | (br, .data d) :: bs, s =>
    if overlap r br then
      let (c, cont) := cb s.1 d
      if cont then searchLeaf cb r bs (c, s.2 + 1) else some ((c, s.2 + 1), false)
    else searchLeaf cb r bs s
  | (_, .node _ _) :: _, _ => none

/-- Inner-node loop of `Search`, `RTree.h:1548-1557`. -/
def searchLoop {σ : Type} (rec : Tree D → σ × Nat → Option ((σ × Nat) × Bool)) (r : Rect) :
    List (Branch D) → σ × Nat → Option ((σ × Nat) × Bool)
  | [], s => some (s, true)
  | b :: bs, s =>
    if overlap r b.1 then
      match rec b.2 s with
      | none => none
      | some (s', true) => searchLoop rec r bs s'
      | some (s', false) => some (s', false)
    else searchLoop rec r bs s

/-- `Search` (recursive), `RTree.h:1540-1581`; depth bounded by the first argument. -/
def searchRec {σ : Type} (cb : Callback σ D) (r : Rect) :
    Nat → Tree D → σ × Nat → Option ((σ × Nat) × Bool)
  | _, .data _, _ => none
  | 0, .node l bs, s => if l = 0 then searchLeaf cb r bs s else none
  | f + 1, .node l bs, s =>
    if l < 0 then none
    else if l > 0 then searchLoop (searchRec cb r f) r bs s
    else searchLeaf cb r bs s

/-- `Search`, `RTree.h:522-545`: final context and `foundCount`. -/
def search {σ : Type} (cb : Callback σ D) (r : Rect) (s : σ) (root : Tree D) : Option (σ × Nat) :=
  (searchRec cb r root.level.toNat root (s, 0)).map (·.1)

/-- `CountRec`, `RTree.h:560-573`; depth bounded by the first argument. -/
def countRec : Nat → Tree D → Nat → Nat
  | 0, t, c => c + t.count
  | f + 1, t, c =>
    if t.level > 0 then t.branches.foldl (fun c b => countRec f b.2 c) c else c + t.count

/-- `Count`, `RTree.h:549-555`. -/
def count (root : Tree D) : Nat := countRec root.level.toNat root 0

/-- Operations of the public interface that change the tree. `RTree.h:84-92,478-518,760` -/
inductive Op (D : Type) where
  | insert (r : Rect) (d : D)
  | remove (r : Rect) (d : D)
  | removeAll

/-- One public call. `RTree.h:478-518,760` -/
def stepWith [DecidableEq D] : Op D → Tree D → Option (Tree D)
  | .insert r d, t => insertWith A r d t
  | .remove r d, t => removeWith A r d t
  | .removeAll, _ => some empty

/-- A history of public calls on a freshly constructed tree. `RTree.h:443-518,760` -/
def runWith [DecidableEq D] : List (Op D) → Tree D → Option (Tree D)
  | [], t => some t
  | o :: os, t => (stepWith A o t).bind (runWith os)

/-- A history with exact areas. `RTree.h:443-518,760` -/
def run [DecidableEq D] (os : List (Op D)) (t : Tree D) : Option (Tree D) := runWith .exact os t

end Verif.RTree

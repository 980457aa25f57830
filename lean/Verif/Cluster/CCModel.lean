import Mathlib.Data.List.Defs

/-!
# Model of `include/connectedcomponents.hpp`

Node pointers are natural numbers (addresses, ordered as `std::less` orders them); `std::set`
is a strictly increasing list and `std::map` an association list with strictly increasing keys.
-/

namespace Verif.Cluster

/-- `CSet`, `connectedcomponents.hpp:11`. -/
abbrev CSet := List Nat

/-- `CMap`, `connectedcomponents.hpp:12-13`. -/
abbrev CMap := List (Nat × CSet)

/-- `std::set::insert` of one element, used at `connectedcomponents.hpp:20`. -/
def setInsert (x : Nat) : CSet → CSet
  | [] => [x]
  | y :: s => if x < y then x :: y :: s else if y < x then y :: setInsert x s else y :: s

/-- `connections[k]` with its default insertion followed by an update of the value,
`connectedcomponents.hpp:20`. -/
def mapUpdate (k : Nat) (f : CSet → CSet) : CMap → CMap
  | [] => [(k, f [])]
  | e :: m =>
    if k < e.1 then (k, f []) :: e :: m
    else if e.1 < k then e :: mapUpdate k f m
    else (e.1, f e.2) :: m

/-- Value stored under a key; `connections[k]` reads an empty set if the key is new,
`connectedcomponents.hpp:36-43`. -/
def mapGet (k : Nat) (m : CMap) : CSet :=
  match m.find? (fun e => e.1 == k) with
  | some e => e.2
  | none => []

/-- `connections.erase(k)`, `connectedcomponents.hpp:44`. -/
def mapErase (k : Nat) (m : CMap) : CMap := m.filter (fun e => e.1 != k)

/-- `init`, `connectedcomponents.hpp:15-17`: `emplace` keeps an existing value. -/
def ccInit (k : Nat) (m : CMap) : CMap := mapUpdate k id m

/-- `connect`, `connectedcomponents.hpp:19-21`. -/
def ccConnect (k : Nat) (cs : List Nat) (m : CMap) : CMap :=
  mapUpdate k (fun s => cs.foldl (fun s x => setInsert x s) s) m

/-- The `while` loop of `get_component`, `connectedcomponents.hpp:31-45`, with fuel.  The vector
`nodes` is kept with its back at the head of the list, so appending the (ascending) set puts its
reverse in front. -/
def ccLoop : Nat → CMap → List Nat → List Nat → Option (CMap × List Nat)
  | 0, _, _, _ => none
  | _ + 1, m, [], res => some (m, res)
  | f + 1, m, k :: nodes, res =>
    let res' := res ++ [k]
    let s := (mapGet k m).filter (fun x => !res'.contains x && !nodes.contains x)
    ccLoop f (mapErase k m) (s.reverse ++ nodes) res'

/-- Number of pointers stored in the map: the fuel that `getComponent` is given.  Not in the
code; `C08` shows that it is always enough. -/
def ccFuel (m : CMap) : Nat := (m.flatMap fun e => e.1 :: e.2).length + 2

/-- `get_component`, `connectedcomponents.hpp:23-48`.  Outer `none`: the loop did not end within
the fuel; `some none`: returns `false`; otherwise the new map and the component. -/
def getComponent (m : CMap) : Option (Option (CMap × List Nat)) :=
  match m with
  | [] => some none
  | e :: _ => (ccLoop (ccFuel m) m [e.1] []).map some

/-- `while (cc.get_component(..))`, as at `lmb.hpp:387`, with fuel: all components. -/
def components : Nat → CMap → Option (List (List Nat))
  | 0, _ => none
  | f + 1, m =>
    match getComponent m with
    | none => none
    | some none => some []
    | some (some (m', c)) => (components f m').map (c :: ·)

/-- A call of the building interface, `connectedcomponents.hpp:15-21`. -/
inductive CCCall where
  | init (k : Nat)
  | connect (k : Nat) (cs : List Nat)

/-- One building call, `connectedcomponents.hpp:15-21`. -/
def ccCall : CMap → CCCall → CMap
  | m, .init k => ccInit k m
  | m, .connect k cs => ccConnect k cs m

/-- A sequence of building calls on a fresh object, `connectedcomponents.hpp:9-21`. -/
def ccBuild (calls : List CCCall) : CMap := calls.foldl ccCall []

end Verif.Cluster

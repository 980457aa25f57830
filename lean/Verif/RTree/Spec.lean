import Verif.RTree.Model
import Mathlib.Data.Multiset.AddSub
import Mathlib.Data.Multiset.Filter

/-!
# What the R-tree is supposed to be

Specification notions, independent of the algorithms in `Model`: the entries stored in a tree,
what a well-formed R-tree is, and the abstract bag the public operations act on.
-/

namespace Verif.RTree

variable {D : Type}

/-- A rectangle with `min ≤ max` in both dimensions (what `Insert` asserts in debug builds,
`RTree.h:480-485`). -/
def Rect.Valid (r : Rect) : Prop := r.minx ≤ r.maxx ∧ r.miny ≤ r.maxy

/-- The point `(x, y)` lies in the closed rectangle. Specification (cf. `RTree.h:1508`). -/
def Rect.Mem (x y : ℚ) (r : Rect) : Prop :=
  r.minx ≤ x ∧ x ≤ r.maxx ∧ r.miny ≤ y ∧ y ≤ r.maxy

/-- Two rectangles have a common point. Specification (cf. `RTree.h:1508`). -/
def Rect.Touch (a b : Rect) : Prop := ∃ x y, a.Mem x y ∧ b.Mem x y

/-- `a` lies inside `b`. Specification of "covers" (cf. `RTree.h:964`). -/
def Rect.Sub (a b : Rect) : Prop :=
  b.minx ≤ a.minx ∧ b.miny ≤ a.miny ∧ a.maxx ≤ b.maxx ∧ a.maxy ≤ b.maxy

/-- `r` is the smallest rectangle containing every entry of `l`. -/
def Tight (r : Rect) (l : List (Rect × D)) : Prop := ∀ q : Rect, r.Sub q ↔ ∀ e ∈ l, e.1.Sub q

/-- The entries below a branch that sits in a node of level `n` (cf. `RTree.h:279-298`). -/
def bitems : Nat → Branch D → List (Rect × D)
  | 0, (r, .data d) => [(r, d)]
  | n + 1, (_, .node _ bs) => bs.flatMap (bitems n)
  | _, _ => []

/-- The entries stored in a tree whose root has level `n`. -/
def items (t : Tree D) : List (Rect × D) := t.branches.flatMap (bitems t.level.toNat)

/-- Well-formedness of a branch in a node of level `n`: at level 0 a payload under a valid
rectangle, above it a node one level down with 4 to 8 well-formed branches, under the smallest
rectangle that contains all entries below. -/
def BWF : Nat → Branch D → Prop
  | 0, (r, .data _) => r.Valid
  | n + 1, (r, .node l bs) =>
    l = n ∧ MINNODES ≤ bs.length ∧ bs.length ≤ MAXNODES ∧ (∀ b ∈ bs, BWF n b) ∧
      Tight r (bs.flatMap (bitems n))
  | _, _ => False

/-- A node of level `n` with at least `lo` and at most 8 well-formed branches. -/
def NWF (n lo : Nat) : Tree D → Prop
  | .node l bs => l = n ∧ lo ≤ bs.length ∧ bs.length ≤ MAXNODES ∧ ∀ b ∈ bs, BWF n b
  | .data _ => False

/-- A well-formed R-tree: a leaf with at most 8 entries, or an inner root with at least two
well-formed children.  All payloads are then at the same depth. -/
def WF (t : Tree D) : Prop := NWF 0 0 t ∨ ∃ n, NWF (n + 1) 2 t

/-- The bag semantics of one public call: what it may do to the stored entries. -/
def AbsStep [DecidableEq D] : Op D → Multiset (Rect × D) → Multiset (Rect × D) → Prop
  | .insert r d, m, m' => m' = (r, d) ::ₘ m
  | .remove r d, m, m' =>
    (∃ r', (r', d) ∈ m ∧ m' = m.erase (r', d)) ∨ ((r, d) ∉ m ∧ m' = m)
  | .removeAll, _, m' => m' = 0

/-- The bag semantics of a history. -/
def AbsRun [DecidableEq D] : List (Op D) → Multiset (Rect × D) → Multiset (Rect × D) → Prop
  | [], m, m' => m' = m
  | o :: os, m, m' => ∃ m₁, AbsStep o m m₁ ∧ AbsRun os m₁ m'

/-- Every insertion of the history uses a rectangle with `min ≤ max`. -/
def OpsValid (os : List (Op D)) : Prop := ∀ r d, Op.insert r d ∈ os → r.Valid

/-- Feeding a list of payloads to a callback that may stop: the specification of a search.
Result: final context, number of calls made, and whether it ran to the end. -/
def feed {σ : Type} (cb : Callback σ D) : σ → List D → σ × Nat × Bool
  | s, [] => (s, 0, true)
  | s, d :: l =>
    if (cb s d).2 then
      ((feed cb (cb s d).1 l).1, (feed cb (cb s d).1 l).2.1 + 1, (feed cb (cb s d).1 l).2.2)
    else ((cb s d).1, 1, false)

end Verif.RTree

import Mathlib.Algebra.Order.Floor.Ring
import Verif.GM.Model
import Verif.BBox.Model
import Verif.Tracker.Conc

/-!
# The intensity grid, `pos_phd` in `include/lmb.hpp`

Coordinates are exact.  The random draws are an input.  The region in the local frame (`neaabbox`,
`lmb.hpp:212`) is an input too, see `Verif.CF` for the map.
-/

namespace Verif.Phd

open Verif.GM Verif.BBox

variable {X K : Type*} [Field K] [LinearOrder K] [FloorRing K]

/-- The buffer `samples`, `lmb.hpp:223`: one column per sample, `none` as long as it has not been
written. -/
abbrev Buf (K : Type*) := Nat → Option (Pt K)

/-- `sample_pos` on the buffer, `lmb.hpp:226`, `gm.hpp:218-227`: the blocks of the components are
filled with draws, the other columns keep what they hold. -/
def fill (N : Nat) (c : List (Cmp X K)) (draw : Nat → Pt K) (buf : Buf K) : Option (Buf K) :=
  match sampleBlocks N c 0 with
  | none => none
  | some bl => some fun j =>
      if bl.any (fun b => decide (b.1 ≤ j) && decide (j < b.1 + b.2)) then some (draw j) else buf j

/-- The argument `size`, the lower left corner and the sizes of a cell, `lmb.hpp:213-216`. -/
structure Spec (K : Type*) where
  sx : Nat
  sy : Nat
  cx : K
  cy : K
  gx : K
  gy : K

/-- `gridsize` and `corner`, `lmb.hpp:213-216`.  Sizes that are not positive are not modelled. -/
def spec (ne : AABB K) (sx sy : Nat) : Spec K :=
  ⟨sx, sy, ne.x0, ne.y0, (ne.x1 - ne.x0) / sx, (ne.y1 - ne.y0) / sy⟩

/-- `floor` and the conversion to `int` of one coordinate, `lmb.hpp:229`: undefined if the quotient
is not a number or does not fit. -/
def cellOf (x c g : K) : Option Int :=
  if g = 0 then none
  else if -2 ^ 31 ≤ ⌊(x - c) / g⌋ ∧ ⌊(x - c) / g⌋ < 2 ^ 31 then some ⌊(x - c) / g⌋ else none

/-- `res`, `lmb.hpp:217-218`: 0 outside the matrix. -/
abbrev Grid (K : Type*) := Int → Int → K

/-- The body of the inner loop, `lmb.hpp:229-232`: undefined for an unwritten sample. -/
def tally1 (sp : Spec K) (r : K) (smp : Option (Pt K)) (g : Grid K) : Option (Grid K) :=
  match smp with
  | none => none
  | some p =>
    match cellOf p.1 sp.cx sp.gx, cellOf p.2 sp.cy sp.gy with
    | some i, some k =>
      if i < sp.sx ∧ k < sp.sy ∧ 0 ≤ i ∧ 0 ≤ k then
        some fun a b => if a = i ∧ b = k then g a b + r else g a b
      else some g
    | _, _ => none

/-- The inner loop, `lmb.hpp:228-233`, for the columns from `s` on. -/
def tally (sp : Spec K) (r : K) (buf : Buf K) : List Nat → Grid K → Option (Grid K)
  | [], g => some g
  | s :: l, g =>
    match tally1 sp r (buf s) g with
    | none => none
    | some g' => tally sp r buf l g'

/-- What a target contributes: its probability of existence, its mixture in the local frame and
the draws made for it, `lmb.hpp:224-227`. -/
structure Src (X K : Type*) where
  r : K
  c : List (Cmp X K)
  draw : Nat → Pt K

/-- The loop over the targets, `lmb.hpp:224-234`: the buffer is shared. -/
def loop (N : Nat) (sp : Spec K) : List (Src X K) → Buf K → Grid K → Option (Grid K)
  | [], _, g => some g
  | t :: l, buf, g =>
    match fill N t.c t.draw buf with
    | none => none
    | some buf' =>
      match tally sp t.r buf' (List.range N) g with
      | none => none
      | some g' => loop N sp l buf' g'

/-- `pos_phd` from the buffer on, `lmb.hpp:217-236`. -/
def phd (N : Nat) (sp : Spec K) (ts : List (Src X K)) : Option (Grid K) :=
  match loop N sp ts (fun _ => none) (fun _ _ => 0) with
  | none => none
  | some g => some fun a b => g a b / N

section tracker

open Verif.Tracker

variable {P R O : Type}

/-- The targets as the loop of `pos_phd` sees them, one after the other, and the state it leaves,
`lmb.hpp:224-227`; `comps` is the member `c` of a density and `draws` the draws made for
the target at an address from a density.  The grid does not depend on the state, so the loop is split in two. -/
def gather (E : Env P R O) (comps : P → List (Cmp X ℝ)) (draws : Nat → P → Nat → Pt ℝ) (o : O) :
    List Nat → St P → Option (List (Src X ℝ) × St P)
  | [], s => some ([], s)
  | a :: l, s =>
    match s.heap a with
    | none => none
    | some t =>
      match gather E comps draws o l
          { s with heap := setHeap s.heap a (some (back E (forth E o t))) } with
      | none => none
      | some (ts, s') => some (⟨t.r, comps (forth E o t).pdf, draws a (forth E o t).pdf⟩ :: ts, s')

/-- `pos_phd`, `lmb.hpp:210-239`, with its 1000 samples (`lmb.hpp:219`). -/
noncomputable def posPhd (E : Env P R O) (comps : P → List (Cmp X ℝ)) (draws : Nat → P → Nat → Pt ℝ)
    (o : O) (fov : RTree.Rect) (sp : Spec ℝ) (s : St P) : Option (Grid ℝ × St P) :=
  match query s fov with
  | none => none
  | some l =>
    match gather E comps draws o l s with
    | none => none
    | some (ts, s') =>
      match phd 1000 sp ts with
      | none => none
      | some g => some (g, s')

end tracker

end Verif.Phd

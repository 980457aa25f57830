/-!
# The text output of trackers, targets, mixtures, reports and clusters

Texts are lists of characters.  How a number is written is an input: `sh` for doubles (`operator<<`
for the weight, the format `FullPrecision` for matrix entries; one function stands for both, an entry of
type `α` may say which of the two it is) and `Nat.repr` for unsigned numbers.
-/

namespace Verif.Json

/-- A text. -/
abbrev Txt := List Char

/-- A string literal in the code. -/
def lit (s : String) : Txt := s.toList

variable {α β : Type}

/-- The loop `for (...) { if (!first) { os << ","; } else { first = false; } os << ...; }`, with the
text so far, `lmb.hpp:335-339`, `gm.hpp:147-151`, `cluster.hpp:228-232,234-238`,
`report.hpp:59-63`. -/
def sepLoop (f : β → Txt) : List β → Bool → Txt → Txt
  | [], _, o => o
  | b :: l, first, o => sepLoop f l false ((if !first then o ++ lit "," else o) ++ f b)

/-- A row of a matrix as Eigen writes it with `eigenformat` (`constants.hpp:6`): row prefix, the
entries with the separator between them, row suffix. -/
def fmtRow (sh : α → Txt) (r : List α) : Txt :=
  lit "[" ++ (match r with
    | [] => []
    | a :: l => l.foldl (fun o b => o ++ lit "," ++ sh b) (sh a)) ++ lit "]"

/-- `format(eigenformat)`, `constants.hpp:6`: matrix prefix, the rows with the row separator after
each but the last, matrix suffix.  Columns are not aligned. -/
def fmt (sh : α → Txt) (m : List (List α)) : Txt :=
  lit "[" ++ (match m with
    | [] => []
    | r :: l => l.foldl (fun o b => o ++ lit "," ++ fmtRow sh b) (fmtRow sh r)) ++ lit "]"

/-- `Gaussian_`, `gaussian.hpp:18-20`; a vector is a matrix of one column. -/
structure Gauss (α : Type) where
  w : α
  x : List (List α)
  P : List (List α)

/-- `Gaussian_::repr`, `gaussian.hpp:150-156`. -/
def Gauss.repr (sh : α → Txt) (g : Gauss α) : Txt :=
  lit "{\"type\":\"G\"," ++ lit "\"w\":" ++ sh g.w ++ lit ",\"x\":" ++ fmt sh g.x ++
    lit ",\"P\":" ++ fmt sh g.P ++ lit "}"

/-- `GM::repr`, `gm.hpp:145-153`. -/
def gmRepr (sh : α → Txt) (c : List (Gauss α)) : Txt :=
  sepLoop (Gauss.repr sh) c true (lit "{\"type\":\"GM\",\"c\":[") ++ lit "]}"

/-- `Action`, `target.hpp:13-17`. -/
inductive Action
  | predict
  | correct
  | init

/-- `char(last_action)`, `target.hpp:14-16,203`. -/
def Action.char : Action → Char
  | .predict => 'u'
  | .correct => 'c'
  | .init => 'i'

/-- `Target_`, `target.hpp:46-60`: what is written of it. -/
structure Tgt (α : Type) where
  id : Nat
  cid : Nat
  la : Action
  r : α
  c : List (Gauss α)

/-- `Target_::repr`, `target.hpp:200-206`. -/
def Tgt.repr (sh : α → Txt) (t : Tgt α) : Txt :=
  lit "{\"id\":" ++ (Nat.repr t.id).toList ++ lit ",\"cid\":" ++ (Nat.repr t.cid).toList ++
    lit ",\"la\":\"" ++ [t.la.char] ++ lit "\"" ++ lit ",\"r\":" ++ sh t.r ++ lit ",\"pdf\":" ++
    gmRepr sh t.c ++ lit "}"

/-- `SILMB::repr`, `lmb.hpp:333-341`. -/
def trackerRepr (sh : α → Txt) (ts : List (Tgt α)) : Txt :=
  sepLoop (Tgt.repr sh) ts true (lit "{\"targets\":[") ++ lit "]}"

/-- `TargetSummary_`, `target.hpp:20-31`: what is written of it. -/
structure Summary (α : Type) where
  id : Nat
  w : α
  x : List (List α)
  P : List (List α)

/-- `TargetSummary_::repr`, `target.hpp:33-40`. -/
def Summary.repr (sh : α → Txt) (t : Summary α) : Txt :=
  lit "{\"type\":\"T\"" ++ lit ",\"id\":" ++ (Nat.repr t.id).toList ++ lit ",\"w\":" ++ sh t.w ++
    lit ",\"x\":" ++ fmt sh t.x ++ lit ",\"P\":" ++ fmt sh t.P ++ lit "}"

/-- `GaussianReport_`, `report.hpp:12-20`: what is written of it. -/
structure Report (α : Type) where
  x : List (List α)
  P : List (List α)

/-- `GaussianReport_::repr`, `report.hpp:39-43`. -/
def Report.repr (sh : α → Txt) (r : Report α) : Txt :=
  lit "{\"type\":\"GR\"" ++ lit ",\"x\":" ++ fmt sh r.x ++ lit ",\"P\":" ++ fmt sh r.P ++ lit "}"

/-- `operator<<` for a list of reports, `report.hpp:57-66`. -/
def reportsRepr (sh : α → Txt) (rs : List (Report α)) : Txt :=
  sepLoop (Report.repr sh) rs true (lit "[") ++ lit "]"

/-- `Cluster_::repr`, `cluster.hpp:225-240`. -/
def clusterRepr (sh : α → Txt) (rs : List (Report α)) (ts : List (Tgt α)) : Txt :=
  let o := lit "{\"type\":\"CL\"" ++ lit ",\"R\":["
  let o := sepLoop (Report.repr sh) rs true o
  let o := o ++ lit "],\"T\":["
  let o := sepLoop (Tgt.repr sh) ts true o
  o ++ lit "]}"

/-- `BBox::repr`, `bbox.hpp:245-247`. -/
def bboxRepr (sh : α → Txt) (c : List (List α)) : Txt :=
  lit "{\"type\":\"BBox\",\"c\":" ++ fmt sh c ++ lit "}"

/-- `AABBox::repr`, `bbox.hpp:87-89`. -/
def aabbRepr (sh : α → Txt) (x0 y0 x1 y1 : α) : Txt :=
  lit "AABBox[[" ++ sh x0 ++ lit ", " ++ sh x1 ++ lit "], [" ++ sh y0 ++ lit ", " ++ sh y1 ++ lit "]]"

/-- `PF::repr`, `pf.hpp:168-173`. -/
def pfRepr (sh : α → Txt) (w x : List (List α)) : Txt :=
  lit "{\"type\":\"PF\"" ++ lit ",\"w\":" ++ fmt sh w ++ lit ",\"x\":" ++ fmt sh x ++ lit "}"

end Verif.Json

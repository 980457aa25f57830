import Std.Data.String.ToNat
import Verif.Json.Model
import Verif.Json.Parser

/-!
# Reading a log and drawing its tracks: `clmb.py`, `plots/plot_results.py`, and the writer of the log,
`tests/crosstrack.cpp`

An exception of Python is `none`.  How a number in the text becomes a float is an input, `rd`.
Ellipses are in `Verif/Plot/Ellipse.lean`; colours and the options that are off in
`plot_results.py:33` are left out.
-/

namespace Verif.Plot

open Verif.Json

variable {α β : Type}

/-- `json.loads(line)`, `plots/plot_results.py:26`: the grammar of `Verif/Json/Parser.lean`, with the
depth of the recursion bounded by `n`; the line comes without its line break. -/
def loads (n : Nat) (line : Txt) : Option J :=
  match parse n line with
  | some (v, []) => some v
  | _ => none

/-- `d[k]` for a dictionary, `clmb.py:30-34,66,71-75`, `plots/plot_results.py:27-33`: the last member
with this key, or `KeyError`. -/
def key (k : String) : J → Option J
  | .obj l => (l.reverse.find? fun m => m.1 == k.toList).map Prod.snd
  | _ => none

/-- A list. -/
def asArr : J → Option (List J)
  | .arr l => some l
  | _ => none

/-- A float. -/
def asNum (rd : Txt → β) : J → Option β
  | .num t => some (rd t)
  | _ => none

/-- A string. -/
def asStr : J → Option Txt
  | .str t => some t
  | _ => none

/-- An unsigned integer, `t["id"]` and `t["cid"]` at `clmb.py:66,71`. -/
def asNat : J → Option Nat
  | .num t => (String.ofList t).toNat?
  | _ => none

/-- `np.array(...)` and `np.matrix(...)` of a list of lists, `clmb.py:33-34`. -/
def asMat (rd : Txt → β) (j : J) : Option (List (List β)) := do
  (← asArr j).mapM fun r => do (← asArr r).mapM (asNum rd)

/-- A component as `GM.__init__` keeps it, `clmb.py:30-35`. -/
structure Comp (β : Type) where
  w : β
  x : List (List β)
  P : List (List β)

/-- One turn of the loop of `GM.__init__`, `clmb.py:30-35`. -/
def readComp (rd : Txt → β) (c : J) : Option (Comp β) := do
  return ⟨← asNum rd (← key "w" c), ← asMat rd (← key "x" c), ← asMat rd (← key "P" c)⟩

/-- The objects of the classes `GM`, `clmb.py:24-35`, and `PF`, `clmb.py:42-48`. -/
inductive Dens (β : Type)
  | gm (c : List (Comp β))
  | pf (w x : List (List β))

/-- `types[t["pdf"]["type"]](t["pdf"])`, `clmb.py:73-74`: `GM.__init__`, `clmb.py:27-35`, or
`PF.__init__`, `clmb.py:45-48`; a `KeyError` for any other type. -/
def readPdf (rd : Txt → β) (p : J) : Option (Dens β) := do
  let ty ← asStr (← key "type" p)
  if ty == "GM".toList then
    return .gm (← (← asArr (← key "c" p)).mapM (readComp rd))
  else if ty == "PF".toList then
    return .pf (← asMat rd (← key "w" p)) (← asMat rd (← key "x" p))
  else none

/-- An entry of `Target.history`, `clmb.py:75`. -/
structure Entry (β : Type) where
  la : Txt
  r : β
  pdf : Dens β

/-- `Target`, `clmb.py:61-75`; `r` and `cid` are missing before the first `add_state`. -/
structure Target (β : Type) where
  id : Nat
  cid : Option Nat
  r : Option β
  history : List (Entry β)

/-- `Target.add_state`, `clmb.py:69-75`. -/
def Target.addState (rd : Txt → β) (s : Target β) (t : J) : Option (Target β) := do
  let cid ← asNat (← key "cid" t)
  let r ← asNum rd (← key "r" t)
  let pdf ← readPdf rd (← key "pdf" t)
  let la ← asStr (← key "la" t)
  return { s with cid := some cid, r := some r, history := s.history ++ [⟨la, r, pdf⟩] }

/-- The dictionary `targets`, `plots/plot_results.py:20`. -/
abbrev Dict (β : Type) := Nat → Option (Target β)

/-- The loop body at `plots/plot_results.py:27-30`. -/
def addT (rd : Txt → β) (d : Dict β) (t : J) : Option (Dict β) := do
  let id ← asNat (← key "id" t)
  let s := (d id).getD ⟨id, none, none, []⟩
  let s ← s.addState rd t
  return fun i => if i = id then some s else d i

variable [Zero β] [Add β] [Mul β]

/-- One entry of `(self.w * self.x).sum(axis=1)`, `clmb.py:50-52`: the sum of the products, from zero. -/
def rowSum : List β → List β → Option β
  | [], [] => some 0
  | w :: ws, x :: xs => (rowSum ws xs).map (w * x + ·)
  | _, _ => none

/-- `np.squeeze(pdf.mean()).tolist()`, `clmb.py:112`.  For a mixture, `clmb.py:37-39`: the sum of
`w * x`, from zero, over the four states of a column; other shapes are left out (`none`), and a
mixture without components fails at `state[0]`.  For particles, `clmb.py:50-52`: `w` is a row and `x`
has a row for each of the four states; other shapes are left out (`none`). -/
def mean : Dens β → Option (List β)
  | .gm [] => none
  | .pf w x =>
    match w, x with
    | [w], [x0, x1, x2, x3] => do
      return [← rowSum w x0, ← rowSum w x1, ← rowSum w x2, ← rowSum w x3]
    | _, _ => none
  | .gm cs => cs.foldlM (fun a c =>
      match a, c.x with
      | [a0, a1, a2, a3], [[x0], [x1], [x2], [x3]] =>
        some [a0 + c.w * x0, a1 + c.w * x1, a2 + c.w * x2, a3 + c.w * x3]
      | _, _ => none) [0, 0, 0, 0]

/-- What `plot_trace` draws in a figure: the line through the points of the history and the number
next to the last point, `clmb.py:107-126`; `c` is the number of the colour. -/
structure Trace (β : Type) where
  c : Nat
  pts : List (β × β)
  text : Option β

/-- `plot_trace(t, t.id + 0, ...)`, `clmb.py:107-139`: `max_back` is `None`, so the slice
`history[-0:]` is the whole history. -/
def plotTrace (t : Target β) : Option (Trace β) := do
  let pts ← t.history.mapM fun e => do
    match ← mean e.pdf with
    | [x, y, _, _] => return (x, y)
    | _ => none
  return ⟨t.id, pts, t.r⟩

/-- The loop over the lines, `plots/plot_results.py:22-33`: `plt.subplot(4, 3, i)` raises
`ValueError` beyond the twelfth. The result is the list of the figures' traces. -/
def drawLoop (n : Nat) (rd : Txt → β) : List Txt → Nat → Dict β → Option (List (List (Trace β)))
  | [], _, _ => some []
  | line :: lines, i, d => do
    let i := i + 1
    let data ← loads n line
    let ts ← asArr (← key "targets" (← key "post" data))
    let d ← ts.foldlM (addT rd) d
    if 4 * 3 < i then none
    let _ ← key "t" data
    let fig ← ts.mapM fun t => do plotTrace (← d (← asNat (← key "id" t)))
    return fig :: (← drawLoop n rd lines i d)

/-- `draw`, `plots/plot_results.py:18-34`. -/
def draw (n : Nat) (rd : Txt → β) (lines : List Txt) : Option (List (List (Trace β))) :=
  drawLoop n rd lines 0 fun _ => none

/-- A line of the log, `tests/crosstrack.cpp:39-42`. -/
def logLine (sh : α → Txt) (t : α) (zs : List (Report α)) (ts : List (Tgt α)) : Txt :=
  lit "{\"t\":" ++ sh t ++ lit ",\"scan\":" ++ reportsRepr sh zs ++ lit ",\"post\":" ++
    trackerRepr sh ts ++ lit "}"

end Verif.Plot

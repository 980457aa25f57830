import Verif.RTree.Model

/-!
# Model of `RTree::Iterator` and of `Save`/`Load` (`include/RTree.h`)

Streams are lists of tokens, one per `fwrite`/`fread` call.  Reading past the end leaves the
variable unchanged, as `fread` does.  Reading a token of another type than was written is
outside the model (`none`), as are short reads into uninitialised memory and negative counts.
-/

namespace Verif.RTree

variable {D : Type}

/-- `MAX_STACK`, `RTree.h:111`. -/
abbrev MAXSTACK : Nat := 32

/-- `StackElement`, `RTree.h:113-117`. -/
abbrev StackElem (D : Type) := Tree D × Nat

/-- `Push`, `RTree.h:213-219`; the top of the stack is the head of the list.  Writing
`m_stack[MAX_STACK]` is out of range. -/
def push (e : StackElem D) (st : List (StackElem D)) : Option (List (StackElem D)) :=
  if st.length < MAXSTACK then some (e :: st) else none

/-- `GetFirst`, `RTree.h:236-256`; fuel bounds the descent. -/
def getFirst : Nat → Tree D → List (StackElem D) → Option (List (StackElem D))
  | 0, _, _ => none
  | _ + 1, .data _, _ => none
  | f + 1, .node l bs, st =>
    if l > 0 ∧ bs.length > 1 then do
      let st ← push (.node l bs, 1) st
      let b ← bs[0]?
      getFirst f b.2 st
    else if l = 0 then
      if bs.length ≠ 0 then push (.node l bs, 0) st else some st
    else do
      let b ← bs[0]?
      getFirst f b.2 st

/-- `FindNextData`, `RTree.h:170-210` (`GetNext`, `259`); fuel bounds the loop. -/
def findNext : Nat → List (StackElem D) → Option (List (StackElem D))
  | 0, _ => none
  | _ + 1, [] => some []
  | _ + 1, (.data _, _) :: _ => none
  | f + 1, (.node l bs, i) :: st =>
    if l = 0 then
      if i + 1 < bs.length then push (.node l bs, i + 1) st else findNext f st
    else do
      let st ← if i + 1 < bs.length then push (.node l bs, i + 1) st else some st
      let b ← bs[i]?
      let st ← push (b.2, 0) st
      if b.2.level = 0 then some st else findNext f st

/-- `operator*`, `RTree.h:132-137`: the entry at the top of the stack. -/
def current : List (StackElem D) → Option (Rect × D)
  | (.node _ bs, i) :: _ =>
    match bs[i]? with
    | some (r, .data d) => some (r, d)
    | _ => none
  | _ => none

/-- The usual iteration `for (GetFirst(it); !IsNull(it); GetNext(it)) … GetAt(it)`
(`RTree.h:235-265`): the entries visited after the iterator was positioned.  The first argument
bounds the number of visited entries, the second each call of `FindNextData`. -/
def visit : Nat → Nat → List (StackElem D) → Option (List (Rect × D))
  | _, _, [] => some []
  | 0, _, _ :: _ => none
  | n + 1, f, st@(_ :: _) => do
    let e ← current st
    let st ← findNext f st
    let es ← visit n f st
    some (e :: es)

/-- One `fwrite` of the stream, `RTree.h:413-424`. -/
inductive Tok (D : Type) where
  | int (z : Int)
  | arr (x y : ℚ)
  | dat (d : D)

/-- The header, `RTree.h:701-715`: file id, `sizeof(DATATYPE)`, dimensions, `sizeof(ELEMTYPE)`,
`sizeof(ELEMTYPEREAL)`, `TMAXNODES`, `TMINNODES` (64-bit pointers, `double`). -/
def header : List Int := [1163023442, 8, 2, 8, 8, 8, 4]

/-- Branch loop of `SaveRec` for an inner node, `RTree.h:732-740`. -/
def saveInner (rec : Tree D → List (Tok D)) : List (Branch D) → List (Tok D)
  | [] => []
  | b :: bs => .arr b.1.minx b.1.miny :: .arr b.1.maxx b.1.maxy :: (rec b.2 ++ saveInner rec bs)

/-- Branch loop of `SaveRec` for a leaf, `RTree.h:744-752`. A child pointer in a leaf is not
writable as data (`none` never occurs for well-formed trees; it is skipped here). -/
def saveLeaf : List (Branch D) → List (Tok D)
  | [] => []
  | (r, .data d) :: bs => .arr r.minx r.miny :: .arr r.maxx r.maxy :: .dat d :: saveLeaf bs
  | (_, .node _ _) :: bs => saveLeaf bs

/-- `SaveRec`, `RTree.h:725-756`; depth bounded by the first argument. -/
def saveRec : Nat → Tree D → List (Tok D)
  | 0, t => .int t.level :: .int t.count :: saveLeaf t.branches
  | f + 1, t =>
    .int t.level :: .int t.count ::
      (if t.level > 0 then saveInner (saveRec f) t.branches else saveLeaf t.branches)

/-- `Save`, `RTree.h:698-721`. -/
def save (t : Tree D) : List (Tok D) := header.map .int ++ saveRec t.level.toNat t

/-- `Read` into an `int` holding `old`, `RTree.h:427-431`. -/
def readInt (old : Int) : List (Tok D) → Option (Int × List (Tok D))
  | [] => some (old, [])
  | .int z :: s => some (z, s)
  | _ :: _ => none

/-- `ReadArray` of the two corners of a rectangle, `RTree.h:656-657,669-670`. -/
def readRect : List (Tok D) → Option (Rect × List (Tok D))
  | .arr a b :: .arr c d :: s => some (⟨a, b, c, d⟩, s)
  | _ => none

/-- Branch loop of `LoadRec` for an inner node, `RTree.h:652-661`: `n` branches to go. -/
def loadInner (rec : List (Tok D) → Option (Tree D × List (Tok D))) :
    Nat → List (Tok D) → Option (List (Branch D) × List (Tok D))
  | 0, s => some ([], s)
  | n + 1, s => do
    let (r, s) ← readRect s
    let (c, s) ← rec s
    let (bs, s) ← loadInner rec n s
    some ((r, c) :: bs, s)

/-- Branch loop of `LoadRec` for a leaf, `RTree.h:665-673`. -/
def loadLeaf : Nat → List (Tok D) → Option (List (Branch D) × List (Tok D))
  | 0, s => some ([], s)
  | n + 1, s => do
    let (r, s) ← readRect s
    match s with
    | .dat d :: s => do
      let (bs, s) ← loadLeaf n s
      some ((r, .data d) :: bs, s)
    | _ => none

/-- `LoadRec`, `RTree.h:645-677`, into a node whose level field holds `l0` and whose count is 0;
fuel bounds the depth.  More than `MAXNODES` branches write out of range. -/
def loadRec : Nat → Int → List (Tok D) → Option (Tree D × List (Tok D))
  | 0, _, _ => none
  | f + 1, l0, s => do
    let (l, s) ← readInt l0 s
    let (c, s) ← readInt 0 s
    if c < 0 ∨ c > MAXNODES then none
    else if l > 0 then do
      let (bs, s) ← loadInner (loadRec f (-1)) c.toNat s
      some (.node l bs, s)
    else do
      let (bs, s) ← loadLeaf c.toNat s
      some (.node l bs, s)

/-- Reading the header fields, all initialised to 0, `RTree.h:608-622`. -/
def readInts : Nat → List (Tok D) → Option (List Int × List (Tok D))
  | 0, s => some ([], s)
  | n + 1, s => do
    let (z, s) ← readInt 0 s
    let (zs, s) ← readInts n s
    some (z :: zs, s)

/-- `Load(const char*)`, `RTree.h:577-592`, and `Load(RTFileStream&)`, `597-641`: return value,
new tree and the rest of the stream.  The old tree is dropped first (`RemoveAll`, `579`). -/
def load (s : List (Tok D)) : Option (Bool × Tree D × List (Tok D)) := do
  let (h, s) ← readInts 7 s
  if h = header then do
    let (t, s') ← loadRec (s.length + 1) 0 s
    some (true, t, s')
  else some (false, empty, s)

end Verif.RTree

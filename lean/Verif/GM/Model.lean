import Mathlib.Algebra.Order.Field.Basic
import Mathlib.Algebra.Order.Floor.Defs
import Mathlib.Algebra.Order.Floor.Ring

/-!
# Gaussian mixtures, `include/gm.hpp`

Only the weights of the components are computed with; the mean and covariance of a component are
its payload `X`.  Numbers are exact: `K` is an ordered field.
-/

namespace Verif.GM

variable {X K : Type*} [Field K] [LinearOrder K]

/-- A component: `Gaussian_`, `gaussian.hpp:18-21`; `x` stands for its mean and covariance. -/
structure Cmp (X K : Type*) where
  x : X
  w : K

/-- The fields `c` and `eta` of `GM`, `gm.hpp:27-30`. -/
structure Mix (X K : Type*) where
  c : List (Cmp X K)
  eta : K

/-- `double a = 0; for (g : c) a += g.w`, `gm.hpp:45-46`. -/
def wsum (c : List (Cmp X K)) : K := c.foldl (fun a g => a + g.w) 0

/-- `clear`, `gm.hpp:87-90`. -/
def clear : Mix X K := ⟨[], 0⟩

/-- `normalize`, `gm.hpp:44-55`. -/
def normalize (m : Mix X K) : Mix X K :=
  if 1 / 100000000 < wsum m.c then ⟨m.c.map fun g => ⟨g.x, g.w / wsum m.c⟩, wsum m.c⟩ else clear

/-- `std::sort(std::rbegin(c), std::rend(c))`, `gm.hpp:157,174`, compares by weight
(`gaussian.hpp:44-46`) and is not stable: any function that returns a rearrangement of its
argument in descending order. -/
def SortOk (srt : List (Cmp X K) → List (Cmp X K)) : Prop :=
  ∀ l, (srt l).Perm l ∧ (srt l).Pairwise fun a b => b.w ≤ a.w

/-- `prune`, `gm.hpp:155-164`; `lim` is `params->cw_lim`, `mx` is `MAX_COMPONENTS`. -/
def prune (srt : List (Cmp X K) → List (Cmp X K)) (lim : K) (mx : Nat) (m : Mix X K) : Mix X K :=
  let l := (srt (m.c.filter fun g => ¬ g.w < lim)).take mx
  if 0 < l.length then normalize ⟨l, m.eta⟩ else ⟨l, m.eta⟩

/-- `operator+` and `operator+=`, `gm.hpp:130-143`. -/
def add (srt : List (Cmp X K) → List (Cmp X K)) (lim : K) (mx : Nat) (a b : Mix X K) : Mix X K :=
  prune srt lim mx ⟨a.c ++ b.c, a.eta⟩

/-- An entry of the priority queue of `join`, `gm.hpp:170`: weight and index of a mixture.  The
position `wi[j]` in that mixture (`gm.hpp:169`) is kept in the entry: there is at most one entry
per mixture.  The particle filter's queue, `pf.hpp:190`, has the same three fields. -/
structure QE (K : Type*) where
  w : K
  j : Nat
  n : Nat

/-- The order of the queue: pairs compare lexicographically, `gm.hpp:170`. -/
def qle (a b : QE K) : Prop := a.w < b.w ∨ a.w = b.w ∧ a.j ≤ b.j

instance (a b : QE K) : Decidable (qle a b) := by unfold qle; infer_instance

/-- `q.top()` and `q.pop()`, `gm.hpp:183,191`. -/
def popMax : List (QE K) → Option (QE K × List (QE K))
  | [] => none
  | a :: l =>
    match popMax l with
    | none => some (a, [])
    | some (b, r) => if qle a b then some (b, a :: r) else some (a, b :: r)

/-- `nw / wsum < cw_lim`, `gm.hpp:187`, for weights that are not negative: `0 / 0` is NaN, which
is not below the limit. -/
def tooLight (lim nw wsum : K) : Prop := wsum ≠ 0 ∧ nw / wsum < lim

instance (lim nw wsum : K) : Decidable (tooLight lim nw wsum) := by
  unfold tooLight; infer_instance

/-- The entries pushed before the loop, `gm.hpp:172-179`: the heaviest component of every mixture
that is not empty. -/
def initQ (f : Nat → K) (cs : Nat → List (Cmp X K)) : Nat → List (QE K)
  | 0 => []
  | j + 1 =>
    match (cs j)[0]? with
    | some g => ⟨f j * g.w, j, 0⟩ :: initQ f cs j
    | none => initQ f cs j

/-- What is pushed after taking out `e`, `gm.hpp:192-194`. -/
def pushNext (f : Nat → K) (cs : Nat → List (Cmp X K)) (e : QE K) (q : List (QE K)) :
    List (QE K) :=
  match (cs e.j)[e.n + 1]? with
  | some g => ⟨f e.j * g.w, e.j, e.n + 1⟩ :: q
  | none => q

/-- The loop of `join`, `gm.hpp:182-195`; the first argument is the number of components that may
still be taken, `cs j` the sorted components of mixture `j` and `f j` its factor `w(0, j)`.  An
index out of range is the outcome `none`. -/
def joinLoop (lim : K) (f : Nat → K) (cs : Nat → List (Cmp X K)) :
    Nat → List (QE K) → K → List (Cmp X K) → Option (List (Cmp X K))
  | 0, _, _, out => some out
  | k + 1, q, ws, out =>
    match popMax q with
    | none => some out
    | some (e, q') =>
      if tooLight lim e.w (ws + e.w) then some out
      else
        match (cs e.j)[e.n]? with
        | none => none
        | some g => joinLoop lim f cs k (pushNext f cs e q') (ws + e.w) (out ++ [⟨g.x, e.w⟩])

/-- `join`, `gm.hpp:166-197`, of the mixtures `pdfs` with factors `w`, one for each mixture. -/
def join (srt : List (Cmp X K) → List (Cmp X K)) (lim : K) (mx : Nat) (w : List K)
    (pdfs : List (List (Cmp X K))) : Option (Mix X K) :=
  let f := fun j => w.getD j 0
  let cs := fun j => srt (pdfs.getD j [])
  (joinLoop lim f cs mx (initQ f cs w.length) 0 []).map fun l => normalize ⟨l, 0⟩

/-- `correct`, `gm.hpp:92-104`: `upd` is `Gaussian_::correct` (`gaussian.hpp:31-42`), applied to
each component; returns the mixture and `eta`. -/
def correct (upd : Cmp X K → Cmp X K) (m : Mix X K) : Mix X K × K :=
  let m' := normalize ⟨m.c.map upd, m.eta⟩
  (m', m'.eta)

/-- `missed`, `gm.hpp:106-113`; `pD` is the sensor's detection probability of a component.  The
weights are not changed. -/
def missed (pD : Cmp X K → K) (m : Mix X K) : Mix X K × K :=
  let e := m.c.foldl (fun a g => a + g.w * pD g) 0
  (⟨m.c, e⟩, 1 - e)

/-- `linear_update`, `gm.hpp:115-121`. -/
def linearUpdate (upd : X → X) (m : Mix X K) : Mix X K :=
  ⟨m.c.map fun g => ⟨upd g.x, g.w⟩, m.eta⟩

/-- The columns written by `sample` and `sample_pos`, `gm.hpp:207-227`, for a buffer of `cols`
columns: the list of `(first column, number of columns)`; the conversion of a `double` to
`unsigned` cuts off and is undefined for negative values.  `none`: a block outside the buffer. -/
def sampleBlocks [FloorRing K] (cols : Nat) : List (Cmp X K) → Nat → Option (List (Nat × Nat))
  | [], _ => some []
  | g :: l, col =>
    if g.w * cols ≤ -1 then none
    else
      let n := ⌊g.w * cols⌋.toNat
      if col + n ≤ cols then (sampleBlocks cols l (col + n)).map ((col, n) :: ·) else none

end Verif.GM

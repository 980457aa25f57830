import Verif.GM.Model
import Verif.PF.Model
import Verif.LapF.Binary64
import Mathlib.Data.Rat.Floor

/-!
# Weights of Gaussian mixtures in `double` arithmetic

`include/gm.hpp`, with IEEE 754 binary64 operations (`Tuprules.tup:20`: `-march=x86-64`, no
`-ffast-math`, no fused multiply-add).  `Verif/GM/Model.lean` is the same with exact weights; the
component type, the order of the queue and the sorting are taken from there.  Weights are finite
`double`s that are not negative; signed zeros are not modelled.
-/

namespace Verif.GMF

open Verif.Lap Verif.LapF Verif.GM

variable {X : Type}

/-- The result of one `double` operation with exact result `x` (`gm.hpp:46,50,109,171,178,185-187`,
`gm.hpp:211`), if it does not overflow: `fl_fin` states that it does not up to `2 ^ 1000`, and
`C82_normalize` and the other theorems only use it there. -/
def fl (x : ℚ) : ℚ :=
  match round64 x with
  | .fin r => r
  | _ => 0

/-- `a = 0; for (…) a += w`, `gm.hpp:45-46`, `180-185`. -/
def fsum (ws : List ℚ) : ℚ := ws.foldl (fun a w => fl (a + w)) 0

/-- The constant `1e-8`, `gm.hpp:48`. -/
def eps : ℚ := fl (1 / 10 ^ 8)

/-- `normalize`, `gm.hpp:44-55`. -/
def normalize (m : Mix X ℚ) : Mix X ℚ :=
  let a := fsum (m.c.map Cmp.w)
  if eps < a then ⟨m.c.map fun g => ⟨g.x, fl (g.w / a)⟩, a⟩ else GM.clear

/-- `prune`, `gm.hpp:155-164`. -/
def prune (srt : List (Cmp X ℚ) → List (Cmp X ℚ)) (lim : ℚ) (mx : Nat) (m : Mix X ℚ) : Mix X ℚ :=
  let l := (srt (m.c.filter fun g => ¬ g.w < lim)).take mx
  if 0 < l.length then normalize ⟨l, m.eta⟩ else ⟨l, m.eta⟩

/-- `nw / wsum < cw_lim`, `gm.hpp:187`: `0 / 0` is NaN, which is not below the limit. -/
def tooLight (lim nw wsum : ℚ) : Prop := wsum ≠ 0 ∧ fl (nw / wsum) < lim

instance (lim nw wsum : ℚ) : Decidable (tooLight lim nw wsum) := by
  unfold tooLight; infer_instance

/-- The entries pushed before the loop, `gm.hpp:172-179`. -/
def initQ (f : Nat → ℚ) (cs : Nat → List (Cmp X ℚ)) : Nat → List (QE ℚ)
  | 0 => []
  | j + 1 =>
    match (cs j)[0]? with
    | some g => ⟨fl (f j * g.w), j, 0⟩ :: initQ f cs j
    | none => initQ f cs j

/-- What is pushed after taking out `e`, `gm.hpp:192-194`. -/
def pushNext (f : Nat → ℚ) (cs : Nat → List (Cmp X ℚ)) (e : QE ℚ) (q : List (QE ℚ)) :
    List (QE ℚ) :=
  match (cs e.j)[e.n + 1]? with
  | some g => ⟨fl (f e.j * g.w), e.j, e.n + 1⟩ :: q
  | none => q

/-- The loop of `join`, `gm.hpp:182-195`; arguments as in `GM.joinLoop`.  An index out of range is
the outcome `none`. -/
def joinLoop (lim : ℚ) (f : Nat → ℚ) (cs : Nat → List (Cmp X ℚ)) :
    Nat → List (QE ℚ) → ℚ → List (Cmp X ℚ) → Option (List (Cmp X ℚ))
  | 0, _, _, out => some out
  | k + 1, q, ws, out =>
    match popMax q with
    | none => some out
    | some (e, q') =>
      if tooLight lim e.w (fl (ws + e.w)) then some out
      else
        match (cs e.j)[e.n]? with
        | none => none
        | some g =>
          joinLoop lim f cs k (pushNext f cs e q') (fl (ws + e.w)) (out ++ [⟨g.x, e.w⟩])

/-- `join`, `gm.hpp:166-197`, of the mixtures `pdfs` with factors `w`, one for each mixture. -/
def join (srt : List (Cmp X ℚ) → List (Cmp X ℚ)) (lim : ℚ) (mx : Nat) (w : List ℚ)
    (pdfs : List (List (Cmp X ℚ))) : Option (Mix X ℚ) :=
  let f := fun j => w.getD j 0
  let cs := fun j => srt (pdfs.getD j [])
  (joinLoop lim f cs mx (initQ f cs w.length) 0 []).map fun l => normalize ⟨l, 0⟩

/-- `missed`, `gm.hpp:106-113`: the number returned, `1 - eta`; `pD g` is the computed detection
probability of the component (`sensors.hpp:44-45`). -/
def missed (pD : Cmp X ℚ → ℚ) (c : List (Cmp X ℚ)) : ℚ :=
  fl (1 - fsum (c.map fun g => fl (g.w * pD g)))

/-- The columns written by `sample` and `sample_pos`, `gm.hpp:207-227`, for a buffer of `cols`
columns: the list of `(first column, number of columns)`; the conversion of a `double` to
`unsigned` cuts off (a weight is not negative).  `none`: a block outside the buffer. -/
def sampleBlocks (cols : Nat) : List (Cmp X ℚ) → Nat → Option (List (Nat × Nat))
  | [], _ => some []
  | g :: l, col =>
    let n := ⌊fl (g.w * cols)⌋.toNat
    if col + n ≤ cols then (sampleBlocks cols l (col + n)).map ((col, n) :: ·) else none

/-- `std::partial_sum`, `pf.hpp:147`, in `double` arithmetic. -/
def partialSums : ℚ → List ℚ → List ℚ
  | _, [] => []
  | a, w :: l => fl (a + w) :: partialSums (fl (a + w)) l

/-- The loop of `PF::resample`, `pf.hpp:148-158`, in `double` arithmetic and executed in order, for
the value `r` of `urand()`: the particles copied by the iterations `is`; `none`: reading past the end
of `cdf`. -/
def resLoop (cdf : List ℚ) (u0 w0 : ℚ) : List Nat → Nat → Option (List Nat)
  | [], _ => some []
  | i :: is, j =>
    match PF.findFrom (fl (u0 + fl (i * w0))) (cdf.drop j) j with
    | none => none
    | some j' => (resLoop cdf u0 w0 is j').map (j' :: ·)

/-- `PF::resample`, `pf.hpp:144-161`: the particles copied. -/
def resample (r : ℚ) (ws : List ℚ) : Option (List Nat) :=
  let w0 := fl (1 / (ws.length : ℚ))
  resLoop (partialSums 0 ws) (fl (r * w0)) w0 (List.range ws.length) 0

end Verif.GMF

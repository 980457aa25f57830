import Verif.GM.Model

/-!
# Particle filter density, `include/pf.hpp`

A particle is a state `x` with a weight, `GM.Cmp`.  Numbers are exact.
-/

namespace Verif.PF

open Verif.GM

variable {X K : Type*} [Field K] [LinearOrder K]

/-- The fields `w`, `x`, `eta` and `valid` of `PF`, `pf.hpp:50-53`. -/
structure Pf (X K : Type*) where
  c : List (Cmp X K)
  eta : K
  valid : Bool

/-- `w.sum()`, `pf.hpp:116`. -/
def psum (c : List (Cmp X K)) : K := c.foldl (fun a g => a + g.w) 0

/-- `normalize` and `invalidate`, `pf.hpp:115-122,163-166`. -/
def normalize (m : Pf X K) : Pf X K :=
  if 1 / 100000000 < psum m.c then
    { m with c := m.c.map fun g => ⟨g.x, g.w / psum m.c⟩, eta := psum m.c }
  else { m with valid := false, eta := 0 }

/-- `correct`, `pf.hpp:93-103`; `lik x` is `pD * likelihood / kappa` at state `x`. -/
def correct (lik : X → K) (m : Pf X K) : Pf X K × K :=
  let m' := normalize { m with c := m.c.map fun g => ⟨g.x, g.w * lik g.x⟩ }
  (m', m'.eta)

/-- `missed`, `pf.hpp:105-113`. -/
def missed (pD : X → K) (m : Pf X K) : Pf X K × K :=
  let m' := normalize { m with c := m.c.map fun g => ⟨g.x, g.w * pD g.x⟩ }
  (m', 1 - m'.eta)

/-- `std::partial_sum`, `pf.hpp:147`. -/
def partialSums : K → List (Cmp X K) → List K
  | _, [] => []
  | a, g :: l => (a + g.w) :: partialSums (a + g.w) l

/-- `while (cdf[j] < u) { ++j; }`, `pf.hpp:156`, on what is left of `cdf` from `j` on; reading past
its end is the outcome `none`. -/
def findFrom (u : K) : List K → Nat → Option Nat
  | [], _ => none
  | c :: l, j => if c < u then findFrom u l (j + 1) else some j

/-- The loop of `resample`, `pf.hpp:153-158`, executing the iterations in the order `is`; the
cursor `j` is shared.  Returns for each iteration the particle copied.  `resample` declares the
loop parallel: iterations can run in any order (that they can also overlap is not modelled). -/
def resLoop (cdf : List K) (u0 w0 : K) : List Nat → Nat → Option (List (Nat × Nat))
  | [], _ => some []
  | i :: is, j =>
    match findFrom (u0 + i * w0) (cdf.drop j) j with
    | none => none
    | some j' => (resLoop cdf u0 w0 is j').map ((i, j') :: ·)

/-- The column written by each iteration becomes the particle of that index, `pf.hpp:157,159-160`:
`x2.col(i) = x.col(j)`, then every weight is `w0`. -/
def gather (c : List (Cmp X K)) (w0 : K) (r : List (Nat × Nat)) (N : Nat) :
    Option (List (Cmp X K)) :=
  (List.range N).mapM fun i =>
    match r.find? fun p => p.1 = i with
    | none => none
    | some p => c[p.2]?.map fun g => ⟨g.x, w0⟩

/-- `resample`, `pf.hpp:144-161`; `u` is the value of `urand()`, `is` the order of the
iterations. -/
def resample (u : K) (is : List Nat) (m : Pf X K) : Option (Pf X K) :=
  if !m.valid then some m
  else
    let N := m.c.length
    let w0 : K := 1 / N
    match resLoop (partialSums 0 m.c) (u * w0) w0 is 0 with
    | none => none
    | some r => (gather m.c w0 r N).map fun c => { m with c := c }

/-- The loop of `join`, `pf.hpp:197-209`; the first argument is the number of particles still to be
taken; `q.top()` on an empty queue and an index out of range are the outcome `none`. -/
def joinLoop (f : Nat → K) (cs : Nat → List (Cmp X K)) :
    Nat → List (QE K) → List (Cmp X K) → Option (List (Cmp X K))
  | 0, _, out => some out
  | k + 1, q, out =>
    match popMax q with
    | none => none
    | some (e, q') =>
      match (cs e.j)[e.n]? with
      | none => none
      | some g => joinLoop f cs k (pushNext f cs e q') (out ++ [⟨g.x, e.w⟩])

/-- `join`, `pf.hpp:188-212`, for filters of `N` particles; `srt` is the order `prepare_sort`
establishes (`pf.hpp:175-178`), read through `wsorted` and `msorted`. -/
def join (srt : List (Cmp X K) → List (Cmp X K)) (N : Nat) (u : K) (is : List Nat) (m : Pf X K)
    (w : List K) (pdfs : List (List (Cmp X K))) : Option (Pf X K) :=
  let f := fun j => w.getD j 0
  let cs := fun j => srt (pdfs.getD j [])
  match joinLoop f cs N (initQ f cs w.length) [] with
  | none => none
  | some l => resample u is (normalize { m with c := l })

end Verif.PF

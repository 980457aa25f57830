import Verif.Lap.Props
import Mathlib.Analysis.SpecialFunctions.Pow.Real

/-!
# `ospa` and `gospa`, `include/lmb.hpp:241-331`

The distances between the targets' means and the truth positions (`target.hpp:144-151`, after the
conversions to the local frame) are the input `D`; `M` targets and `N` truths.  What the functions
do to the targets is modelled in `Verif/Tracker/Conc.lean`.  Numbers are exact.
-/

namespace Verif.Metric

open Verif.Lap

/-- `lap::lap(C)` on a square `Eigen::MatrixXd`, `rlapjv.h:561-568` and `519-559`.  The template
parameter `CostMatrix` is the matrix' own, column-major, type: the feasibility check reads `C(i, j)`,
but `rlap` gets `C.data()` and reads it row by row, that is, it reads `C(j, i)` (`rlapjv.h:555`).
If the check fails the assignment is all zeros (`524`). -/
def lapColMajor {n : Nat} (C : Cost n n) (fuel : Nat) : Option (Fin n → Option (Fin n)) :=
  match hallCheck C with
  | none => none
  | some false => some fun i => some ⟨0, i.pos⟩
  | some true =>
    (rlap (fun i j => C j i) fuel (fun _ => XR.fin 0) (fun _ => XR.fin 0)).map Sol.rowsol

/-- The assignment as indices; a negative entry makes `C(i, res[i])` an out-of-range read
(`lmb.hpp:279`, `rlapjv.h:573`). -/
def allAssigned {n : Nat} (r : Fin n → Option (Fin n)) : Option (Fin n → Fin n) :=
  if h : ∀ i, (r i).isSome then some fun i => (r i).get (h i) else none

/-- The matrix of `ospa`, `lmb.hpp:261-268`: constant `c`, the distances in the block of the targets
and truths, then the minimum with `c`. -/
def ospaMatrix {M N : Nat} (D : Fin M → Fin N → ℚ) (c : ℚ) (i j : Fin (max M N)) : ℚ :=
  if h : i.val < M ∧ j.val < N then min (D ⟨i, h.1⟩ ⟨j, h.2⟩) c else min c c

/-- `auto res = lap::lap(C)` in `ospa`, `lmb.hpp:273`. -/
def ospaAssign {M N : Nat} (D : Fin M → Fin N → ℚ) (c : ℚ) (fuel : Nat) :
    Option (Fin (max M N) → Fin (max M N)) :=
  (lapColMajor (fun i j => XR.fin (ospaMatrix D c i j)) fuel).bind allAssigned

/-- `ospa`, `lmb.hpp:252-287`. -/
noncomputable def ospa {M N : Nat} (D : Fin M → Fin N → ℚ) (c : ℚ) (p : ℝ) (fuel : Nat) :
    Option ℝ :=
  if 0 < max M N then
    (ospaAssign D c fuel).map fun res =>
      ((∑ i, (ospaMatrix D c i (res i) : ℝ) ^ p) / (max M N : ℕ)) ^ (1 / p)
  else some 0

/-- The matrix of `gospa`, `lmb.hpp:311-321`; `pw` is `std::pow(·, p)`. -/
def gospaMatrix {M N : Nat} (D : Fin M → Fin N → ℚ) (c : ℚ) (pw : ℚ → ℚ)
    (i j : Fin (max M N)) : ℚ :=
  if h : i.val < M ∧ j.val < N then pw (min (D ⟨i, h.1⟩ ⟨j, h.2⟩) c) else pw c / 2

/-- `auto res = lap::lap(C)` in `gospa`, `lmb.hpp:324`. -/
def gospaAssign {M N : Nat} (D : Fin M → Fin N → ℚ) (c : ℚ) (pw : ℚ → ℚ) (fuel : Nat) :
    Option (Fin (max M N) → Fin (max M N)) :=
  (lapColMajor (fun i j => XR.fin (gospaMatrix D c pw i j)) fuel).bind allAssigned

/-- `gospa`, `lmb.hpp:300-331`; `lap::cost` is `rlapjv.h:570-577`. -/
noncomputable def gospa {M N : Nat} (D : Fin M → Fin N → ℚ) (c : ℚ) (pw : ℚ → ℚ) (p : ℝ)
    (fuel : Nat) : Option ℝ :=
  if 0 < max M N then
    (gospaAssign D c pw fuel).map fun res =>
      ((∑ i, gospaMatrix D c pw i (res i) : ℚ) : ℝ) ^ (1 / p)
  else some 0

end Verif.Metric

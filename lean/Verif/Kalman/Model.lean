import Mathlib.LinearAlgebra.Matrix.PosDef
import Mathlib.Analysis.Matrix.PosDef
import Mathlib.Algebra.Order.Star.Real
import Mathlib.LinearAlgebra.Matrix.NonsingularInverse
import Mathlib.LinearAlgebra.Matrix.SchurComplement
import Mathlib.Analysis.SpecialFunctions.Pow.Real
import Mathlib.Analysis.SpecialFunctions.Sqrt
import Mathlib.Analysis.Real.Pi.Bounds
import Mathlib.Data.Matrix.Reflection
import Mathlib.Data.Fin.VecNotation

/-!
# Gaussian components: measurement update, prediction, motion models, moments

`include/gaussian.hpp`, `include/models.hpp` and the moments of `include/gm.hpp`, over the reals.
Dimensions are arbitrary (the code's template parameter `S`).
-/

namespace Verif.Kalman

open Matrix

/-- `Gaussian_<S>`, `gaussian.hpp:18-21`. -/
structure Gauss (n : Nat) where
  x : Fin n → ℝ
  P : Matrix (Fin n) (Fin n) ℝ
  w : ℝ

/-- `GaussianReport_`, `report.hpp:12-32`: measurement, covariance, clutter intensity. -/
structure Report (m : Nat) where
  x : Fin m → ℝ
  P : Matrix (Fin m) (Fin m) ℝ
  kappa : ℝ

/-- `likelihood`, `report.hpp:33-37`. -/
noncomputable def likelihood {m : Nat} (dz : Fin m → ℝ) (Dinv : Matrix (Fin m) (Fin m) ℝ) : ℝ :=
  Real.exp (-(dz ⬝ᵥ Dinv *ᵥ dz) * 0.5) * Real.sqrt (Dinv.det / (2 * Real.pi) ^ m)

/-- `Dinv`, `gaussian.hpp:33`. -/
noncomputable def dinv {n m : Nat} (H : Matrix (Fin m) (Fin n) ℝ) (z : Report m) (g : Gauss n) :
    Matrix (Fin m) (Fin m) ℝ := (H * g.P * Hᵀ + z.P)⁻¹

/-- `K`, `gaussian.hpp:34`. -/
noncomputable def gain {n m : Nat} (H : Matrix (Fin m) (Fin n) ℝ) (z : Report m) (g : Gauss n) :
    Matrix (Fin n) (Fin m) ℝ := g.P * Hᵀ * dinv H z g

/-- `dz`, `gaussian.hpp:32`; `measurement` is `H * x` (`sensors.hpp:38-41`). -/
def innov {n m : Nat} (H : Matrix (Fin m) (Fin n) ℝ) (z : Report m) (g : Gauss n) : Fin m → ℝ :=
  z.x - H *ᵥ g.x

/-- `Gaussian_::correct`, `gaussian.hpp:30-42`; `pD` is the value of `s.pD(*this, origin)`. -/
noncomputable def correct {n m : Nat} (H : Matrix (Fin m) (Fin n) ℝ) (pD : ℝ) (z : Report m)
    (g : Gauss n) : Gauss n where
  w := g.w * (pD * likelihood (innov H z g) (dinv H z g) / z.kappa)
  x := g.x + gain H z g *ᵥ innov H z g
  P := g.P - gain H z g * H * g.P

/-- `Gaussian_::linear_update`, `gaussian.hpp:68-78`. -/
def linearUpdate {n : Nat} (F Q : Matrix (Fin n) (Fin n) ℝ) (g : Gauss n) : Gauss n :=
  ⟨F *ᵥ g.x, F * g.P * Fᵀ + Q, g.w⟩

/-- `F` of the constant-velocity model, `models.hpp:18-22`. -/
def cvF (dT : ℝ) : Matrix (Fin 4) (Fin 4) ℝ :=
  !![1, 0, dT, 0; 0, 1, 0, dT; 0, 0, 1, 0; 0, 0, 0, 1]

/-- `Q` of the constant-velocity model, `models.hpp:24-38`. -/
noncomputable def cvQ (q dT : ℝ) : Matrix (Fin 4) (Fin 4) ℝ :=
  q • !![dT * dT * dT / 3, 0, dT * dT / 2, 0; 0, dT * dT * dT / 3, 0, dT * dT / 2;
    dT * dT / 2, 0, dT, 0; 0, dT * dT / 2, 0, dT]

/-- `CV::operator()`, `models.hpp:15-45`, on a target with existence probability `r` and density
components `c` (`gm.hpp:115-121`). -/
noncomputable def cvStep (pS q tscale time last : ℝ) (t : ℝ × List (Gauss 4)) :
    ℝ × List (Gauss 4) :=
  let dT := (time - last) / tscale
  (t.1 * pS ^ dT, t.2.map (linearUpdate (cvF dT) (cvQ q dT)))

/-- `NM::operator()`, `models.hpp:66-71`. -/
def nmStep (pS : ℝ) (Q : Matrix (Fin 4) (Fin 4) ℝ) (t : ℝ × List (Gauss 4)) :
    ℝ × List (Gauss 4) :=
  (t.1 * pS, t.2.map (linearUpdate 1 Q))

/-- `GM::mean`, `gm.hpp:229-236`. -/
def mean {n : Nat} (c : List (Gauss n)) : Fin n → ℝ := c.foldl (fun r g => r + g.w • g.x) 0

/-- `GM::cov(x)`, `gm.hpp:238-246`. -/
def covAt {n : Nat} (c : List (Gauss n)) (x : Fin n → ℝ) : Matrix (Fin n) (Fin n) ℝ :=
  c.foldl (fun r g => r + g.w • (g.P + vecMulVec (g.x - x) (g.x - x))) 0

/-- `GM::cov()`, `gm.hpp:248-250`. -/
def cov {n : Nat} (c : List (Gauss n)) : Matrix (Fin n) (Fin n) ℝ := covAt c (mean c)

/-- `H` of the position sensor, `sensors.hpp:22`: the first two coordinates. -/
def posH : Matrix (Fin 2) (Fin 4) ℝ := !![1, 0, 0, 0; 0, 1, 0, 0]

/-- The density `pdf_init1` creates for a report, `sensors.hpp:66-76`: position and covariance of
the report, velocity 0 with covariance `pv`. -/
def init1 (pv : Matrix (Fin 2) (Fin 2) ℝ) (z : Report 2) : Gauss 4 where
  x := ![z.x 0, z.x 1, 0, 0]
  P := !![z.P 0 0, z.P 0 1, 0, 0; z.P 1 0, z.P 1 1, 0, 0; 0, 0, pv 0 0, pv 0 1; 0, 0, pv 1 0, pv 1 1]
  w := 1

end Verif.Kalman

import Verif.GMF.Model

/-!
# The measurement update of a Gaussian component in `double` arithmetic

`Gaussian_<4>::correct` (`include/gaussian.hpp:30-42`) with the position sensor, whose `H` is
`[I 0]` (`include/sensors.hpp:22`): products with the zeros and ones of `H` are exact.  Every other
operation is rounded (`fl`, see `Verif/GMF/Model.lean`; `Tuprules.tup:20`, no fused multiply-add).
`auto K` is an expression and is evaluated at each use from the covariance before the update, which
`P -= …` only overwrites at the end (Eigen evaluates products into a temporary).
-/

namespace Verif.KalmanF

open Verif.GMF (fl)

/-- `Covariance`, `gaussian.hpp:17`. -/
abbrev Cov4 := Fin 4 → Fin 4 → ℚ

/-- `z.cov()`, `report.hpp:14`. -/
abbrev Cov2 := Fin 2 → Fin 2 → ℚ

/-- `s.H * P * s.H.transpose() + z.cov()`, `gaussian.hpp:33`. -/
def innov (P : Cov4) (R : Cov2) (l m : Fin 2) : ℚ :=
  fl (P (l.castLE (by decide)) (m.castLE (by decide)) + R l m)

/-- The determinant of a 2x2 matrix in Eigen, used by `inverse()` at `gaussian.hpp:33`. -/
def det2 (S : Cov2) : ℚ := fl (fl (S 0 0 * S 1 1) - fl (S 1 0 * S 0 1))

/-- `inverse()` of a 2x2 matrix in Eigen, at `gaussian.hpp:33`: the adjugate times the rounded
reciprocal of the determinant. -/
def inv2 (S : Cov2) (l m : Fin 2) : ℚ :=
  let invdet := fl (1 / det2 S)
  if l = 0 then (if m = 0 then fl (S 1 1 * invdet) else fl (-S 0 1 * invdet))
  else (if m = 0 then fl (-S 1 0 * invdet) else fl (S 0 0 * invdet))

/-- `K = P * s.H.transpose() * Dinv`, `gaussian.hpp:34`. -/
def gain (P : Cov4) (D : Cov2) (i : Fin 4) (l : Fin 2) : ℚ :=
  fl (fl (P i 0 * D 0 l) + fl (P i 1 * D 1 l))

/-- `K * s.H * P`, `gaussian.hpp:39`. -/
def khp (P : Cov4) (K : Fin 4 → Fin 2 → ℚ) (i j : Fin 4) : ℚ :=
  fl (fl (K i 0 * P 0 j) + fl (K i 1 * P 1 j))

/-- The covariance after `correct`, `gaussian.hpp:33-39`. -/
def correctP (P : Cov4) (R : Cov2) (i j : Fin 4) : ℚ :=
  fl (P i j - khp P (gain P (inv2 (innov P R))) i j)

/-- The mean after `correct`, `gaussian.hpp:32-38`: `x += K * dz`. -/
def correctX (x : Fin 4 → ℚ) (P : Cov4) (z : Fin 2 → ℚ) (R : Cov2) (i : Fin 4) : ℚ :=
  let K := gain P (inv2 (innov P R))
  let dz : Fin 2 → ℚ := fun l => fl (z l - x (l.castLE (by decide)))
  fl (x i + fl (fl (K i 0 * dz 0) + fl (K i 1 * dz 1)))

end Verif.KalmanF

import Mathlib.Data.Rat.Defs
import Mathlib.Algebra.Order.Ring.Rat
import Mathlib.Algebra.Order.Group.Defs

/-!
# IEEE-like extended numbers

`double` as used by the assignment code (`include/rlapjv.h`, `include/murty.hpp`): exact finite
numbers, the two infinities and NaN, with the IEEE 754 rules for subtraction, addition and
comparison.  Rounding is the subject of `Verif/LapF`; signed zeros are not modelled.
-/

namespace Verif.Lap

/-- A `double` without rounding; `rlapjv.h:13` (`inf`) is `pinf`. -/
inductive XR where
  | nan
  | ninf
  | fin (q : ℚ)
  | pinf
deriving DecidableEq

namespace XR

/-- IEEE `a - b`, as in `rlapjv.h:33`. -/
def sub : XR → XR → XR
  | fin a, fin b => fin (a - b)
  | fin _, pinf => ninf
  | fin _, ninf => pinf
  | pinf, fin _ => pinf
  | pinf, ninf => pinf
  | ninf, fin _ => ninf
  | ninf, pinf => ninf
  | _, _ => nan

/-- IEEE `a + b`, as in `rlapjv.h:472`. -/
def add : XR → XR → XR
  | fin a, fin b => fin (a + b)
  | fin _, pinf => pinf
  | fin _, ninf => ninf
  | pinf, fin _ => pinf
  | pinf, pinf => pinf
  | ninf, fin _ => ninf
  | ninf, ninf => ninf
  | _, _ => nan

/-- IEEE `a < b`, as in `rlapjv.h:40`. -/
def lt : XR → XR → Bool
  | fin a, fin b => decide (a < b)
  | fin _, pinf => true
  | ninf, fin _ => true
  | ninf, pinf => true
  | _, _ => false

/-- IEEE `a == b`, as in `rlapjv.h:444`. -/
def feq : XR → XR → Bool
  | fin a, fin b => decide (a = b)
  | pinf, pinf => true
  | ninf, ninf => true
  | _, _ => false

/-- IEEE `a <= b`, as in `rlapjv.h:403` (and `a >= b` at `rlapjv.h:42`, swapped). -/
def le (a b : XR) : Bool := lt a b || feq a b

/-- `isInf()`, used at `rlapjv.h:530`. -/
def isInf : XR → Bool
  | pinf => true
  | ninf => true
  | _ => false

end XR
end Verif.Lap

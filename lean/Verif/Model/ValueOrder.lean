import Verif.Model.MixedDataset
import Mathlib.Order.Defs.LinearOrder

/-!
Model of the comparison of values and of the combinations of sets in common.h.  A `float` is a number or NaN (`none`); `conv` is the
conversion of an `int` to `float`.
-/

namespace FastPGM

variable {K : Type}

/-- `<` on `float`s: false if one of them is NaN. -/
def floatLt [LinearOrder K] : Option K → Option K → Bool
  | some a, some b => decide (a < b)
  | _, _ => false

/-- common.h 41-51 `Value::operator<`: an `int` that is compared with a `float` is converted to `float`. -/
def valueLt [LinearOrder K] (conv : Int → K) : MVal (Option K) → MVal (Option K) → Bool
  | .int a, .int b => decide (a < b)
  | .int a, .flt f => floatLt (some (conv a)) f
  | .flt f, .int b => floatLt f (some (conv b))
  | .flt f, .flt g => floatLt f g

/-- `operator<` of `std::pair<int, Value>`, the order of `Configuration` (common.h 54-60). -/
def varValLt [LinearOrder K] (conv : Int → K) (x y : Int × MVal (Option K)) : Bool :=
  decide (x.1 < y.1) || (!decide (y.1 < x.1) && valueLt conv x.2 y.2)

end FastPGM

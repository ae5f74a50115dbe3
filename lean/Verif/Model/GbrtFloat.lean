import Verif.Basic

/-!
# The standard deviation of `GradientBoostingQuantileRegressor` in any arithmetic (skopt/learning/gbrt.py)

`Model/Learning.lean` models the whole of `predict` with real numbers.
-/

namespace Skopt

variable {F : Type}

/-- `(high - low) / 2.0` at one row, gbrt.py:120. -/
def gbrtStdAt (A : Arith F) (low high : F) : F := A.div (A.sub high low) (A.ofInt 2)

end Skopt

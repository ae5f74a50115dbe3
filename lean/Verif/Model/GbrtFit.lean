import Verif.Basic
import Mathlib.Data.Rat.Defs

/-!
# Model of `GradientBoostingQuantileRegressor.fit` (skopt/learning/gbrt.py)

`G` is the state of a NumPy generator, `O` the remaining parameters of scikit-learn's `GradientBoostingRegressor`
(number of trees, depth, `subsample`, ...), `D` the training data and `R` a fitted regressor.  A generator object is
represented by its state: nothing in `fit` draws from an object that is shared, since every regressor is fitted with the
copy made by `clone`.  What scikit-learn's `fit` returns for given parameters, generator state and data is a parameter.
-/

namespace Skopt

/-- A `random_state` parameter: `None`, an integer seed, or a generator object.  (gbrt.py:36-38) -/
inductive SeedArg (G : Type) where
  | none
  | int (n : Nat)
  | state (g : G)
  deriving DecidableEq

/-- `check_random_state`, called at gbrt.py:60: the global generator, a new one made from the seed, or the given one. -/
def SeedArg.generator {G : Type} (global : G) (seeded : Nat → G) : SeedArg G → G
  | .none => global
  | .int n => seeded n
  | .state g => g

/-- An object passed as `base_estimator`: its parameters, and whether it is a `GradientBoostingRegressor`.
(gbrt.py:27-30, 62-77) -/
structure BaseReg (G O : Type) where
  isGbr : Bool
  loss : String
  alpha : ℚ
  seed : SeedArg G
  other : O

/-- The attributes set by the constructor that `fit` reads, gbrt.py:41-46 (`n_jobs` is passed to joblib). -/
structure GbrtArgs (G O : Type) where
  quantiles : List ℚ
  base : Option (BaseReg G O)
  seed : SeedArg G

/-- `GradientBoostingRegressor(loss='quantile')`, gbrt.py:63, with scikit-learn's default `alpha` and parameters. -/
def defaultBase {G O : Type} (o : O) : BaseReg G O := ⟨true, "quantile", 9 / 10, .none, o⟩

/-- The checks of the base estimator, gbrt.py:62-73. -/
def checkBase {G O : Type} (o : O) : Option (BaseReg G O) → Except PyErr (BaseReg G O)
  | none => .ok (defaultBase o)
  | some b =>
    if ¬ b.isGbr then .error .valueError
    else if b.loss ≠ "quantile" then .error .valueError
    else .ok b

/-- `fit(X, y)`, gbrt.py:60-89: the regressors, and the base estimator object as it is afterwards (`set_params` at
gbrt.py:77 changes the object the user passed in).  `Parallel` with threads runs the fits in some order; each works on
its own clone. -/
def gbrtFitObject {G O D R : Type} (global : G) (seeded : Nat → G) (o : O) (skFit : BaseReg G O → D → Except PyErr R)
    (a : GbrtArgs G O) (data : D) : Except PyErr (List R × Option (BaseReg G O)) := do
  let rng := a.seed.generator global seeded
  let base ← checkBase o a.base
  let base := { base with seed := .state rng }
  let regressors := a.quantiles.map fun q => { base with alpha := q }
  let fitted ← mapE (fun r => skFit r data) regressors
  .ok (fitted, a.base.map fun _ => base)

end Skopt

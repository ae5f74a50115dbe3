import Verif.Model.Estimators
import Verif.Model.Minimize

/-!
# Model of `gp_minimize`, `forest_minimize` and `gbrt_minimize` (`skopt/optimizer/gp.py`, `forest.py`, `gbrt.py`)

The three functions choose a surrogate and call `base_minimize`.  Not modelled: `xi`, `kappa`, `noise`, `n_jobs` and
the random state given to the surrogate (they reach the third-party calls only), and the name "GP" given to
`forest_minimize` or `gbrt_minimize` together with a per-second acquisition function.
-/

namespace Skopt

variable {F M R G : Type}

/-- The arguments the functions have in common, gp.py:12-19, forest.py:10-15, gbrt.py:8-15 (`forest_minimize` has no
`acq_optimizer` and only `gp_minimize` has `n_restarts_optimizer`; the others use the default 5 of
`base_minimize`, optimizer/base.py:28). -/
structure WrapArgs (F M : Type) where
  acqFunc : String := "EI"
  acqOptimizer : String := "auto"
  nCalls : ℤ := 100
  nRandomStarts : Option ℤ := none
  nInitialPoints : ℤ := 10
  x0 : X0 F := .none
  y0 : Y0 F := .none
  verbose : Bool := false
  callback : CbArg F M := .none
  nPoints : Nat := 10000
  nRestarts : Nat := 5
  queueSize : Option ℤ := none

/-- What the constructor sees of the cooked estimator, optimizer.py:217-234: an unknown name or an object that is no
regressor is refused, the per-second modes wrap the estimator. -/
def estArgOf (acq : Option AcqFunc) : Except PyErr (Option Est) → EstArg
  | .error _ => { isNone := false, isRegressor := false }
  | .ok e =>
    if Est.isRegressor e = false ∧ e.isNone = false then { isNone := false, isRegressor := false }
    else
      let w := match acq with
        | some f => wrapPs f e
        | none => e
      { isNone := w.isNone, isRegressor := true, isGP := Est.isGP w, hasGradients := hasGradients w }

/-- The call of `base_minimize` with a given surrogate and acquisition optimizer, gp.py:259-268, forest.py:186-196,
gbrt.py:179-187. -/
def WrapArgs.toMin (c : WrapArgs F M) (est : Except PyErr (Option Est)) (acqOptimizer : String) : MinArgs F M :=
  { opt := { est := estArgOf (acqOf c.acqFunc) est, acq := acqOf c.acqFunc, acqOptimizer := optOf acqOptimizer
             nPoints := c.nPoints, nRestarts := c.nRestarts, queueSize := c.queueSize }
    nCalls := c.nCalls, nRandomStarts := c.nRandomStarts, nInitialPoints := c.nInitialPoints, x0 := c.x0, y0 := c.y0
    verbose := c.verbose, callback := c.callback }

/-- `gp_minimize`, gp.py:250-268: the dimensions are normalized (in place, utils.py:592-602) whatever the surrogate,
which is the default Gaussian process unless one is given. -/
def gpMinimize [LinearOrder F] (A : Arith F) (W : World F M R G) (sh : Shared F G) (func : Objective F)
    (base : Option BaseArg) (c : WrapArgs F M) (rng : R) : Outcome F M G :=
  match Space.setTransformer sh.dims .normalize with
  | .error e => ⟨sh, c.callback, [], .error e⟩
  | .ok dims =>
    let est := match base with
      | none => cookEstimator "GP" dims
      | some b => b.cook dims
    baseMinimize A W { sh with dims := dims } func (c.toMin est c.acqOptimizer) rng

/-- `forest_minimize`, forest.py:186-196: the acquisition function is always optimized by sampling. -/
def forestMinimize [LinearOrder F] (A : Arith F) (W : World F M R G) (sh : Shared F G) (func : Objective F)
    (base : BaseArg) (c : WrapArgs F M) (rng : R) : Outcome F M G :=
  baseMinimize A W sh func (c.toMin (base.cook sh.dims) "sampling") rng

/-- `gbrt_minimize`, gbrt.py:173-187: as `forest_minimize`, with gradient boosted trees unless a surrogate is given;
`acq_optimizer` is not handed on. -/
def gbrtMinimize [LinearOrder F] (A : Arith F) (W : World F M R G) (sh : Shared F G) (func : Objective F)
    (base : Option BaseArg) (c : WrapArgs F M) (rng : R) : Outcome F M G :=
  let est := match base with
    | none => cookEstimator "GBRT" sh.dims
    | some b => b.cook sh.dims
  baseMinimize A W sh func (c.toMin est "sampling") rng

end Skopt

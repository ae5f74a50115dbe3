import Verif.Model.Optimizer

/-!
# Model of estimator handling: has_gradients and cook_estimator (skopt/utils.py) and the head of Optimizer.__init__
-/

namespace Skopt

variable {F : Type}

/-- The kernel expressions that matter here; leaves carry the length of their `length_scale` where it is one number
per dimension.  (skopt/utils.py:357-378 and 324-328) -/
inductive Kern where
  | const
  | white
  | matern (n : Nat)
  | hamming (n : Nat)
  | other
  | sum (a b : Kern)
  | prod (a b : Kern)
  | expo (a : Kern)
  deriving DecidableEq, Repr

/-- Whether the kernel, or one of the kernels among its nested parameters, is a `HammingKernel`, utils.py:324-328
(`get_params()` lists the parameters of nested kernels too). -/
def Kern.anyHamming : Kern → Bool
  | .hamming _ => true
  | .sum a b => a.anyHamming || b.anyHamming
  | .prod a b => a.anyHamming || b.anyHamming
  | .expo a => a.anyHamming
  | _ => false

/-- Estimator objects: the classes of skopt, scikit-learn's `MultiOutputRegressor` (around an estimator,
or around `None`), regressors of other classes (with
their attribute `kernel`, if any, and whether their `predict` returns gradients) and things that are no regressors.
(skopt/utils.py:301-330, 357-404 and optimizer.py:225-234) -/
inductive Est where
  | gp (kernel : Option Kern)
  | forest
  | extraTrees
  | gbrt
  | multi (e : Est)
  | multiNone
  | regressor (kernel : Option Kern) (grads : Bool)
  | notRegressor

/-- `has_gradients`, utils.py:301-330. -/
def hasGradients : Option Est → Bool
  | none => false
  | some .forest => false
  | some .extraTrees => false
  | some .gbrt => false
  | some (.gp (some k)) => !k.anyHamming
  | some (.regressor (some k) _) => !k.anyHamming
  | some _ => true

/-- `cook_estimator` for a string, utils.py:357-405.  Python's `upper` is restricted to ASCII letters (no other letter
has an upper-case form that occurs in the names).  `random_state` and `n_jobs` are not modelled. -/
def cookEstimator (name : String) (dims : List (Dim F)) : Except PyErr (Option Est) :=
  match name.toUpper with
  | "GP" => do
    let nd ← Space.setTransformer dims .normalize
    let n := (nd.map Dim.transformedSize).sum
    let k := if nd.all Dim.isCat then Kern.hamming n else Kern.matern n
    .ok (some (.gp (some (.prod .const k))))
  | "RF" => .ok (some .forest)
  | "ET" => .ok (some .extraTrees)
  | "GBRT" => .ok (some .gbrt)
  | "DUMMY" => .ok none
  | _ => .error .valueError

/-- The argument `base_estimator`.  (skopt/optimizer/optimizer.py:163, 217-222) -/
inductive BaseArg where
  | name (s : String)
  | object (e : Option Est)

/-- The estimator after optimizer.py:217-222. -/
def BaseArg.cook (dims : List (Dim F)) : BaseArg → Except PyErr (Option Est)
  | .name s => cookEstimator s dims
  | .object e => .ok e

/-- The user's dimensions after optimizer.py:217-222: `cook_estimator` normalizes `Dimension` objects in place for a
Gaussian process, utils.py:368-369. -/
def BaseArg.cookedDims (dims : List (Dim F)) (objects : Bool) : BaseArg → Except PyErr (List (Dim F))
  | .name s => if s.toUpper = "GP" ∧ objects then Space.setTransformer dims .normalize else .ok dims
  | .object _ => .ok dims

/-- The checked constructor arguments, optimizer.py:163-171. -/
structure CtorArgs where
  base : BaseArg := .name "gp"
  acqFunc : String := "gp_hedge"
  nRandomStarts : Option ℤ := none
  nInitialPoints : ℤ := 10
  acqOptimizer : String := "auto"
  queueSize : Option ℤ := none

/-- The name of an acquisition function, optimizer.py:184. -/
def acqOf : String → Option AcqFunc
  | "gp_hedge" => some .gpHedge
  | "EI" => some .EI
  | "LCB" => some .LCB
  | "PI" => some .PI
  | "EIps" => some .EIps
  | "PIps" => some .PIps
  | _ => none

/-- The name of an acquisition optimizer, optimizer.py:239-247. -/
def optOf : String → AcqOptArg
  | "auto" => .auto
  | "lbfgs" => .lbfgs
  | "sampling" => .sampling
  | _ => .other

/-- `is_regressor(base_estimator)`, optimizer.py:225. -/
def Est.isRegressor : Option Est → Bool
  | none => false
  | some .notRegressor => false
  | some _ => true

/-- `isinstance(base_estimator, MultiOutputRegressor)`, optimizer.py:230. -/
def Est.isMulti : Option Est → Bool
  | some (.multi _) => true
  | some .multiNone => true
  | _ => false

/-- `isinstance(self.base_estimator_, GaussianProcessRegressor)`, optimizer.py:269. -/
def Est.isGP : Option Est → Bool
  | some (.gp _) => true
  | _ => false

/-- `self.base_estimator_`, optimizer.py:229-234. -/
def wrapPs (acq : AcqFunc) (e : Option Est) : Option Est :=
  if acq.isPs ∧ Est.isMulti e = false then some (match e with | some e => .multi e | none => .multiNone) else e

/-- What `__init__` has decided when it turns to the initial points: configuration, `base_estimator_` and the
dimensions of `space`.  (optimizer.py:178-271) -/
structure Built (F : Type) where
  cfg : Config
  est : Option Est
  dims : List (Dim F)

/-- What the checks in optimizer.py:184-262 see of the cooked and wrapped estimator and the other arguments. -/
def CtorArgs.checked (a : CtorArgs) (acq : AcqFunc) (w : Option Est) : Args where
  est := { isNone := w.isNone, isRegressor := true, isGP := Est.isGP w, hasGradients := hasGradients w }
  acq := some acq
  nRandomStarts := a.nRandomStarts
  nInitialPoints := a.nInitialPoints
  acqOptimizer := optOf a.acqOptimizer
  queueSize := a.queueSize

/-- `Optimizer.__init__` up to the search space, optimizer.py:176-271.  `objects` tells whether the dimensions were
given as `Dimension` objects, which `cook_estimator` and `normalize_dimensions` change in place (utils.py:368-369,
592-602), or as tuples and lists, from which every `Space(dimensions)` builds new ones. -/
def buildOptimizer (dims : List (Dim F)) (objects : Bool) (a : CtorArgs) : Except PyErr (Built F) :=
  match acqOf a.acqFunc with
  | none => .error .valueError
  | some acq =>
    if a.nRandomStarts.getD a.nInitialPoints < 0 then .error .valueError
    else do
      let e ← a.base.cook dims
      let cooked ← a.base.cookedDims dims objects
      if Est.isRegressor e = false ∧ e.isNone = false then .error .valueError
      else
        let w := wrapPs acq e
        let cfg ← mkConfig (a.checked acq w)
        let sp ← (if Est.isGP w then Space.setTransformer cooked .normalize else .ok cooked)
        .ok ⟨cfg, w, sp⟩

end Skopt

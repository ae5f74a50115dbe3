import Verif.Model.PartialDependence
import Verif.Model.Acquisition

/-!
# Model of `plot_gaussian_process`, skopt/plots.py:107-265

What is handed to matplotlib: curves, bands and dots as lists of numbers.  Over the real numbers; legends, grids and
colours are left out, and so is the title.
-/

namespace Skopt

/-- `xs[:k]` for any integer `k`.  (plots.py:199-200) -/
def pyPrefix {α : Type} (xs : List α) (k : ℤ) : List α :=
  if 0 ≤ k then xs.take k.toNat else xs.take ((xs.length : ℤ) + k).toNat

/-- The entries of `res.specs["args"]` that are read, plots.py:178-181: `n_random_starts`, `acq_func` and
`acq_func_kwargs` (given by `xi` and `kappa`; `none` if the key is missing). -/
structure GpSpecs where
  nRandom : Option ℤ
  acq : Option AcqFunc
  xi : Option ℝ
  kappa : Option Kappa

/-- `res.specs` of a result of `base_minimize`, base.py:210, 292, 301: the arguments of `base_minimize`, among which
there is no `acq_func_kwargs` (`xi` and `kappa` are arguments of their own, under other keys). -/
def specsOfMinimize (nRandomStarts : Option ℤ) (acq : AcqFunc) (_xi : ℝ) (_kappa : Kappa) : GpSpecs := ⟨nRandomStarts, some acq, none, none⟩

/-- The keyword arguments, plots.py:158-168. -/
structure GpPlotArgs where
  nCalls : ℤ := -1
  objective : Option (ℝ → ℝ) := none
  noise : ℝ := 0
  showAcq : Bool := false
  showNext : Bool := false
  showObs : Bool := true
  showMu : Bool := true
  nPoints : Nat := 1000

/-- `acq_func is None or acq_func == "gp_hedge"` becomes "EI", plots.py:185-186. -/
def gpPlotAcq : Option AcqFunc → AcqFunc
  | none => .EI
  | some .gpHedge => .EI
  | some a => a

/-- `n_random`, plots.py:187-188. -/
def gpPlotRandom (nRandom : Option ℤ) (nIters nModels : Nat) : ℤ :=
  match nRandom with
  | some n => n
  | none => nIters - nModels

/-- The model and the observations, plots.py:192-200. -/
def gpPlotData {F M : Type} (nRandom : Option ℤ) (nCalls : ℤ) (models : List M) (xIters : List (Val F))
    (funcVals : List F) : Except PyErr (M × List (Val F) × List F) :=
  if nCalls < 0 then do
    let m ← pyGetI models (-1)
    .ok (m, xIters, funcVals)
  else do
    let m ← pyGetI models nCalls
    let n := gpPlotRandom nRandom xIters.length models.length + nCalls
    .ok (m, pyPrefix xIters n, pyPrefix funcVals n)

/-- A curve with the band around it, plots.py:203-220. -/
structure GpCurve where
  ys : List ℝ
  lower : List ℝ
  upper : List ℝ

/-- What is drawn, plots.py:202-250. -/
structure GpPlot where
  xs : List ℝ
  truth : Option GpCurve
  mean : Option GpCurve
  obs : Option (List (Val ℝ) × List ℝ)
  acq : Option (List ℝ)
  next : Option (ℝ × ℝ)

/-- The true function with the noise band, plots.py:190-191, 203-211. -/
noncomputable def gpTruth (f : ℝ → ℝ) (noise : ℝ) (xs : List ℝ) : GpCurve :=
  let fx := xs.map f
  ⟨fx, fx.map fun y => y - 1.96 * noise, fx.map fun y => y + 1.96 * noise⟩

/-- The predictions with the confidence band, plots.py:214-220. -/
noncomputable def gpMean (p : Pred) : GpCurve :=
  ⟨p.mu, List.zipWith (fun m s => m - 1.96 * s) p.mu p.std, List.zipWith (fun m s => m + 1.96 * s) p.mu p.std⟩

/-- The curve of the model if asked for, plots.py:214-220. -/
noncomputable def gpMeanIf (b : Bool) (p : Surrogate Pred) : Except PyErr (Option GpCurve) :=
  if b then do
    let q ← p.single
    .ok (some (gpMean q))
  else .ok none

/-- `np.min(curr_func_vals)`, plots.py:236. -/
noncomputable def gpBest (ys : List ℝ) : Except PyErr ℝ := do
  let i ← npArgmin ys
  pyGet ys i

/-- The acquisition curve and the next point if asked for, plots.py:234-250. -/
noncomputable def gpAcqIf (args : GpPlotArgs) (acq : AcqFunc) (xi : ℝ) (kappa : Kappa) (p : Surrogate Pred) (xs ys : List ℝ) :
    Except PyErr (Option (List ℝ) × Option (ℝ × ℝ)) :=
  if args.showAcq then do
    let best ← gpBest ys
    let vals ← gaussianAcquisition p best acq xi kappa
    let i ← npArgmin vals
    let nextX ← pyGet xs i
    let nextAcq ← pyGet vals i
    .ok (some (vals.map fun v => -v), if args.showNext then some (nextX, -nextAcq) else none)
  else .ok (none, none)

/-- `x_model.reshape(-1, 1)`, plots.py:177: one row for each entry.  The label encoder and the string encoder return Python
lists, which have no `reshape` (transformers.py:66, 196). -/
def oneColumn (d : Dim ℝ) (rows : List (List (Val ℝ))) : Except PyErr (List (List (Val ℝ))) :=
  match d with
  | .cat c =>
    if c.transform = .label ∨ c.transform = .string then .error .attributeError
    else .ok (rows.flatten.map fun v => [v])
  | _ => .ok (rows.flatten.map fun v => [v])

/-- `assert n_dims == 1` and the only dimension, plots.py:172-174. -/
def onlyDim (dims : List (Dim ℝ)) : Except PyErr (Dim ℝ) :=
  match dims with
  | [d] => .ok d
  | _ => .error .assertionError

/-- `plot_gaussian_process`, plots.py:158-265.  `specs = none` stands for `res.specs is None` (or one without
"args"): then `acq_func_kwargs` is read before it is assigned, plots.py:183.  `predict m X` is what
`model.predict(X, return_std=True)` gives (it is computed once here; the code computes it for the curve and again for
the acquisition function, and not at all if neither is shown). -/
noncomputable def plotGaussianProcess {M : Type} (dims : List (Dim ℝ)) (models : List M) (xIters : List (Val ℝ))
    (funcVals : List ℝ) (predict : M → List (List (Val ℝ)) → Except PyErr (Surrogate Pred)) (specs : Option GpSpecs)
    (args : GpPlotArgs) : Except PyErr GpPlot := do
  let d ← onlyDim dims
  let grid ← evenlySample d args.nPoints
  let X ← oneColumn d grid.2
  match specs with
  | none => .error .unboundLocalError
  | some specs =>
    let data ← gpPlotData specs.nRandom args.nCalls models xIters funcVals
    let p ← predict data.1 X
    let mean ← gpMeanIf args.showMu p
    let acq ← gpAcqIf args (gpPlotAcq specs.acq) (specs.xi.getD 0.01) (specs.kappa.getD (.num 1.96)) p grid.1 data.2.2
    .ok { xs := grid.1, truth := args.objective.map fun f => gpTruth f args.noise grid.1, mean := mean,
          obs := if args.showObs then some data.2 else none, acq := acq.1, next := acq.2 }

end Skopt

import Verif.Basic
import Mathlib.Analysis.SpecialFunctions.Pow.Real

/-!
# Model of skopt/learning/forest.py and skopt/learning/gbrt.py

Both are wrappers around regressors of scikit-learn.  What scikit-learn computes (fitted trees, fitted quantile
regressors) is a parameter; what the wrappers do with it is modelled over the real numbers.
-/

namespace Skopt

/-- One fitted tree of `estimators_`: the array `tree_.impurity` (one entry per node), `apply` (the node index of the
leaf a row falls into) and `predict`.  (skopt/learning/forest.py:6-52) -/
structure RegTree where
  impurity : List ℝ
  apply : List ℝ → Nat
  predict : List ℝ → ℝ

/-- The parameters of a fitted forest that `predict` reads, forest.py:197-206. -/
structure Forest where
  trees : List RegTree
  criterion : String := "mse"
  minVariance : ℝ := 0

/-- `var_tree = tree.tree_.impurity[tree.apply(X)]; var_tree[var_tree < min_variance] = min_variance`,
forest.py:37-44.  The fancy indexing copies, so the tree is not modified. -/
noncomputable def varTree (X : List (List ℝ)) (minVariance : ℝ) (t : RegTree) : Except PyErr (List ℝ) := do
  let v ← mapE (fun x => pyGet t.impurity (t.apply x)) X
  .ok (v.map fun w => if w < minVariance then minVariance else w)

/-- The loop `for tree in trees: ...; std += var_tree + mean_tree ** 2`, forest.py:36-46. -/
noncomputable def sumTrees (X : List (List ℝ)) (minVariance : ℝ) : List RegTree → List ℝ → Except PyErr (List ℝ)
  | [], std => .ok std
  | t :: ts, std => do
    let v ← varTree X minVariance t
    let m := X.map t.predict
    sumTrees X minVariance ts (List.zipWith (· + ·) std (List.zipWith (fun v m => v + m ^ 2) v m))

/-- `_return_std`, forest.py:6-52.  The division by an empty list of trees (nan in numpy; scikit-learn refuses to fit
such a forest) is left out. -/
noncomputable def returnStd (X : List (List ℝ)) (trees : List RegTree) (predictions : List ℝ) (minVariance : ℝ) :
    Except PyErr (List ℝ) :=
  if trees = [] then .error .unmodelled
  else do
    let std ← sumTrees X minVariance trees (X.map fun _ => 0)
    let std := std.map fun s : ℝ => s / (trees.length : ℝ)
    if std.length ≠ predictions.length then .error .valueError
    else
      let std := List.zipWith (fun s p : ℝ => s - p ^ 2) std predictions
      let std := std.map fun s => if s < 0 then 0 else s
      .ok (std.map Real.sqrt)

/-- `super().predict(X)` of a scikit-learn forest: the average of the predictions of the trees.  Called at
forest.py:239, 435. -/
noncomputable def skForestMean (X : List (List ℝ)) (trees : List RegTree) : List ℝ :=
  X.map fun x => (trees.map fun t => t.predict x).sum / trees.length

/-- `predict(X, return_std=True)`, forest.py:239-248 and 435-445. -/
noncomputable def Forest.predictStd (f : Forest) (X : List (List ℝ)) : Except PyErr (List ℝ × List ℝ) :=
  let mean := skForestMean X f.trees
  if f.criterion ≠ "mse" then .error .valueError
  else do
    let std ← returnStd X f.trees mean f.minVariance
    .ok (mean, std)

/-! ## gbrt.py -/

/-- The attribute `quantiles`: a python list, or another array-like such as a numpy array, which has no method
`index`.  (skopt/learning/gbrt.py:41-43) -/
inductive Quantiles where
  | list (qs : List ℝ)
  | array (qs : List ℝ)

/-- The numbers in `quantiles`.  (gbrt.py:79-87, 112-123) -/
def Quantiles.values : Quantiles → List ℝ
  | .list qs => qs
  | .array qs => qs

/-- `self.regressors_`: one regressor per quantile, gbrt.py:78-87. `fit q` is what fitting
`clone(base_estimator).set_params(alpha=q)` yields. -/
def gbrtFit (fit : ℝ → List ℝ → ℝ) (qs : Quantiles) : List (List ℝ → ℝ) := qs.values.map fit

open Classical in
/-- `self.quantiles.index(q)`, gbrt.py:117-119, 123: the first position, ValueError if there is none,
AttributeError on an array. -/
noncomputable def Quantiles.index (qs : Quantiles) (q : ℝ) : Except PyErr Nat :=
  match qs with
  | .array _ => .error .attributeError
  | .list l => if q ∈ l then .ok (l.findIdx fun p => p = q) else .error .valueError

open Classical in
/-- `predict(X, return_std=True)`, gbrt.py:105-120. -/
noncomputable def gbrtPredictStd (qs : Quantiles) (regs : List (List ℝ → ℝ)) (X : List (List ℝ)) :
    Except PyErr (List ℝ × List ℝ) :=
  if ¬ ([0.16, 0.5, 0.84] : List ℝ).all (fun q => q ∈ qs.values) then .error .valueError
  else do
    let low ← (do pyGet regs (← qs.index 0.16))
    let high ← (do pyGet regs (← qs.index 0.84))
    let mean ← (do pyGet regs (← qs.index 0.5))
    .ok (X.map mean, List.zipWith (fun h l => (h - l) / 2) (X.map high) (X.map low))

/-- `predict(X)`, gbrt.py:105-106, 123. -/
noncomputable def gbrtPredict (qs : Quantiles) (regs : List (List ℝ → ℝ)) (X : List (List ℝ)) :
    Except PyErr (List ℝ) := do
  let mean ← (do pyGet regs (← qs.index 0.5))
  .ok (X.map mean)

/-- `predict(X, return_quantiles=True)`, gbrt.py:105-108: one row per point, one column per quantile. -/
noncomputable def gbrtPredictQuantiles (regs : List (List ℝ → ℝ)) (X : List (List ℝ)) : List (List ℝ) :=
  X.map fun x => regs.map fun r => r x

end Skopt

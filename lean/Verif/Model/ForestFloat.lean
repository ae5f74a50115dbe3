import Verif.Basic

/-!
# The prediction of a forest at one row, in any arithmetic: skopt/learning/forest.py:6-52, 239-248

`Model/Learning.lean` has the same functions over the real numbers, for all rows at once.
-/

namespace Skopt

variable {F : Type}

/-- `super().predict(X)` of a scikit-learn forest at one row: the predictions of the trees are added up and divided by their
number.  Called at forest.py:239, 435. -/
def forestMeanAt (A : Arith F) (means : List F) : F :=
  A.div (means.foldl A.add (A.ofInt 0)) (A.ofInt means.length)

/-- `_return_std` at one row before the square root, forest.py:34-50: `leaves` are the pairs of the variance of the leaf
(`tree_.impurity[tree.apply(X)]`) and the prediction of the trees, `pred` is the prediction of the forest. -/
def forestVarianceAt [LinearOrder F] (A : Arith F) (minVariance : F) (leaves : List (F × F)) (pred : F) : F :=
  let s := leaves.foldl (fun s l =>
    A.add s (A.add (if l.1 < minVariance then minVariance else l.1) (A.mul l.2 l.2))) (A.ofInt 0)
  let s := A.sub (A.div s (A.ofInt leaves.length)) (A.mul pred pred)
  if s < A.ofInt 0 then A.ofInt 0 else s

end Skopt

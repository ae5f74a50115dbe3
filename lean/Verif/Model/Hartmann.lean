import Verif.Basic
import Mathlib.Analysis.SpecialFunctions.Exp

/-!
# Model of the six-dimensional Hartmann function of skopt/benchmarks.py

Over the real numbers, with the default arrays.  A point is a flat list: a single coordinate is broadcast by NumPy to
all six, any other length than one or six raises ValueError.
-/

namespace Skopt

open Real

/-- Default `alpha`, benchmarks.py:84. -/
noncomputable def hartAlpha : List ℝ := [1.0, 1.2, 3.0, 3.2]

/-- Default `P`, benchmarks.py:85-88. -/
noncomputable def hartP : List (List ℝ) :=
  [[1312, 1696, 5569, 124, 8283, 5886], [2329, 4135, 8307, 3736, 1004, 9991], [2348, 1451, 3522, 2883, 3047, 6650],
   [4047, 8828, 8732, 5743, 1091, 381]].map fun row => row.map fun p => 10 ^ (-4 : ℤ) * p

/-- Default `A`, benchmarks.py:89-92. -/
noncomputable def hartA : List (List ℝ) :=
  [[10, 3, 17, 3.50, 1.7, 8], [0.05, 10, 17, 0.1, 8, 14], [3, 3.5, 1.7, 10, 17, 8], [17, 8, 0.05, 10, 0.1, 14]]

/-- `np.array(x)` broadcast against six columns, benchmarks.py:100. -/
def broadcast6 (x : List ℝ) : Except PyErr (List ℝ) :=
  match x with
  | [a] => .ok (List.replicate 6 a)
  | x => if x.length = 6 then .ok x else .error .valueError

/-- `hart6`, benchmarks.py:83-100. -/
noncomputable def hart6 (x : List ℝ) : Except PyErr ℝ := do
  let x ← broadcast6 x
  let rows := List.zipWith (fun A P => exp (-(List.zipWith (· * ·) A (List.zipWith (fun u p => (u - p) ^ 2) x P)).sum))
    hartA hartP
  .ok (-(List.zipWith (· * ·) hartAlpha rows).sum)

end Skopt

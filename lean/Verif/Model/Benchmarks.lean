import Verif.Basic
import Mathlib.Analysis.SpecialFunctions.Trigonometric.Basic

/-!
# Model of skopt/benchmarks.py

Over the real numbers; `x[i]` of a point that is too short raises IndexError.  `hart6` is in `Model/Hartmann.lean`.
-/

namespace Skopt

open Real

/-- `bench1`, benchmarks.py:7-14. -/
noncomputable def bench1 (x : List ℝ) : Except PyErr ℝ := do
  let a ← pyGet x 0
  .ok (a ^ 2)

/-- `bench1_with_time`, benchmarks.py:17-19. -/
noncomputable def bench1WithTime (x : List ℝ) : Except PyErr (ℝ × ℝ) := do
  let a ← pyGet x 0
  .ok (a ^ 2, 2.22)

/-- `bench2`, benchmarks.py:22-33. -/
noncomputable def bench2 (x : List ℝ) : Except PyErr ℝ := do
  let a ← pyGet x 0
  if a < 0 then .ok (a ^ 2) else .ok ((a - 5) ^ 2 - 5)

/-- `bench3`, benchmarks.py:36-43. -/
noncomputable def bench3 (x : List ℝ) : Except PyErr ℝ := do
  let a ← pyGet x 0
  .ok (sin (5 * a) * (1 - tanh (a ^ 2)))

/-- `bench4`, benchmarks.py:46-54.  `float` parses the string in the first coordinate. -/
noncomputable def bench4 (float : String → Except PyErr ℝ) (x : List String) : Except PyErr ℝ := do
  let s ← pyGet x 0
  let a ← float s
  .ok (a ^ 2)

/-- `bench5`, benchmarks.py:57-66.  `float` parses the string in the first coordinate. -/
noncomputable def bench5 (float : String → Except PyErr ℝ) (x0 : String) (x1 : ℝ) : Except PyErr ℝ := do
  let a ← float x0
  .ok (a ^ 2 + x1 ^ 2)

/-- `branin` with its default parameters, benchmarks.py:69-80. -/
noncomputable def branin (x : List ℝ) (a : ℝ := 1) (b : ℝ := 5.1 / (4 * π ^ 2)) (c : ℝ := 5 / π) (r : ℝ := 6)
    (s : ℝ := 10) (t : ℝ := 1 / (8 * π)) : Except PyErr ℝ := do
  let x0 ← pyGet x 0
  let x1 ← pyGet x 1
  .ok (a * (x1 - b * x0 ^ 2 + c * x0 - r) ^ 2 + s * (1 - t) * cos x0 + s)

end Skopt

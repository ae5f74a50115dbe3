import Verif.Basic
import Mathlib.Analysis.SpecialFunctions.Sqrt
import Mathlib.Analysis.SpecialFunctions.ExpDeriv
import Mathlib.Analysis.SpecialFunctions.Pow.Real
import Mathlib.Analysis.SpecialFunctions.Trigonometric.Basic

/-!
# Kernels of Gaussian processes (skopt/learning/gaussian_process/kernels.py)

Values are real numbers.  The kernel values themselves are computed by scikit-learn (except for the Hamming kernel);
they are modelled by the formulas of its documentation.  The gradients with respect to the first argument are skopt's
own code.
-/

namespace Skopt

noncomputable section

/-- The smoothness `nu` of a Matérn kernel; `gradient_x` knows three values (kernels.py:110, 131, 163).  For every
other value scikit-learn computes some function of the scaled distance. -/
inductive Nu
  | half
  | threeHalves
  | fiveHalves
  | other (f : ℝ → ℝ)

/-- Kernels on points with `d` coordinates.  A scalar length scale is the constant vector.
(skopt/learning/gaussian_process/kernels.py:68-314) -/
inductive Kernel (d : Nat)
  | rbf (ls : Fin d → ℝ)
  | matern (ls : Fin d → ℝ) (nu : Nu)
  | rq (alpha l : ℝ)
  | expSine (l p : ℝ)
  | const (c : ℝ)
  | white (noise : ℝ)
  | dot (sigma : ℝ)
  | hamming (ls : Fin d → ℝ)
  | sum (a b : Kernel d)
  | prod (a b : Kernel d)
  | expo (a : Kernel d) (p : ℝ)

variable {d : Nat}

/-- `diff = (x - X_train) / length_scale`, kernels.py:76-77, 101-102. -/
def kdiff (ls x y : Fin d → ℝ) : Fin d → ℝ := fun i => (x i - y i) / ls i

/-- `np.sum(diff**2, axis=1)`, kernels.py:81, 107, 218, 238. -/
def kdistSq (ls x y : Fin d → ℝ) : ℝ := ∑ i, kdiff ls x y i ^ 2

/-- `np.sqrt(dist_sq)`, kernels.py:108, 239. -/
def kdist (ls x y : Fin d → ℝ) : ℝ := Real.sqrt (kdistSq ls x y)

/-- The value of a Matérn kernel at a scaled distance (`sklearn.gaussian_process.kernels.Matern.__call__`).
(the class of kernels.py:93) -/
def Nu.value : Nu → ℝ → ℝ
  | .half, r => Real.exp (-r)
  | .threeHalves, r => (1 + Real.sqrt 3 * r) * Real.exp (-(Real.sqrt 3 * r))
  | .fiveHalves, r => (1 + Real.sqrt 5 * r + 5 / 3 * r ^ 2) * Real.exp (-(Real.sqrt 5 * r))
  | .other f, r => f r

/-- `kernel(x, y)` for two separate arrays: scikit-learn's `__call__` with `Y` given, and for the Hamming kernel
kernels.py:395-401.  (With `Y` given a white kernel is zero.) -/
def Kernel.value : Kernel d → (Fin d → ℝ) → (Fin d → ℝ) → ℝ
  | .rbf ls, x, y => Real.exp (-(1 / 2) * kdistSq ls x y)
  | .matern ls nu, x, y => nu.value (kdist ls x y)
  | .rq alpha l, x, y => (1 + kdistSq (fun _ => l) x y / (2 * alpha)) ^ (-alpha)
  | .expSine l p, x, y => Real.exp (-2 * (Real.sin (Real.pi * kdist (fun _ => 1) x y / p) / l) ^ 2)
  | .const c, _, _ => c
  | .white _, _, _ => 0
  | .dot sigma, x, y => ∑ i, x i * y i + sigma ^ 2
  | .hamming ls, x, y => Real.exp (-∑ i, ls i * (if x i ≠ y i then 1 else 0))
  | .sum a b, x, y => a.value x y + b.value x y
  | .prod a b, x, y => a.value x y * b.value x y
  | .expo a p, x, y => a.value x y ^ p

/-- `kernel(x, X_train)` when `x` is an array with `r` axes before the last: the distance functions of SciPy and the
Hamming kernel accept at most one; constant and white kernels only count samples.  (What `DotProduct` does with more
axes is not modelled.).  (kernels.py:280-281 and 300-307, where kernels are called inside `gradient_x`) -/
def Kernel.call : Kernel d → Nat → (Fin d → ℝ) → (Fin d → ℝ) → Except PyErr ℝ
  | .const c, _, _, _ => .ok c
  | .white _, _, _, _ => .ok 0
  | .dot s, r, x, y => if r ≤ 1 then .ok ((Kernel.dot s).value x y) else .error .unmodelled
  | .sum a b, r, x, y => do
      let u ← a.call r x y
      let v ← b.call r x y
      .ok (u + v)
  | .prod a b, r, x, y => do
      let u ← a.call r x y
      let v ← b.call r x y
      .ok (u * v)
  | .expo a p, r, x, y => do
      let u ← a.call r x y
      .ok (u ^ p)
  | k, r, x, y => if r ≤ 1 then .ok (k.value x y) else .error .valueError

/-- `RBF.gradient_x`, kernels.py:69-90, for one training point. -/
def rbfGrad (ls x y : Fin d → ℝ) : Fin d → ℝ := fun i =>
  -1 * Real.exp (-(1 / 2) * kdistSq ls x y) * kdiff ls x y i / ls i

/-- `Matern.gradient_x` for `nu == 0.5`, kernels.py:110-129. -/
def maternHalfGrad (ls x y : Fin d → ℝ) : Fin d → ℝ := fun i =>
  (if kdist ls x y ≠ 0 then -1 * Real.exp (-kdist ls x y) / kdist ls x y * kdiff ls x y i else -1) / ls i

/-- `Matern.gradient_x` for `nu == 1.5`, kernels.py:131-161. -/
def maternThreeGrad (ls x y : Fin d → ℝ) : Fin d → ℝ := fun i =>
  let f := 1 + Real.sqrt 3 * kdist ls x y
  let fGrad := kdiff ls x y i / ls i * (if kdist ls x y ≠ 0 then Real.sqrt 3 / kdist ls x y else 0)
  Real.exp (-(Real.sqrt 3 * kdist ls x y)) * fGrad * (1 - f)

/-- `Matern.gradient_x` for `nu == 2.5`, kernels.py:163-200. -/
def maternFiveGrad (ls x y : Fin d → ℝ) : Fin d → ℝ := fun i =>
  let f := 5 / 3 * kdistSq ls x y + Real.sqrt 5 * kdist ls x y + 1
  let recip := if kdist ls x y ≠ 0 then (kdist ls x y)⁻¹ else kdist ls x y
  let f1Grad := recip * Real.sqrt 5 * (kdiff ls x y i / ls i)
  let f2Grad := 10 / 3 * (kdiff ls x y i / ls i)
  let g := Real.exp (-(Real.sqrt 5 * kdist ls x y))
  f * (-g * f1Grad) + g * (f1Grad + f2Grad)

/-- `RationalQuadratic.gradient_x`, kernels.py:205-226. -/
def rqGrad (alpha l : ℝ) (x y : Fin d → ℝ) : Fin d → ℝ := fun i =>
  -1 * (1 + kdistSq (fun _ => l) x y / (2 * alpha)) ^ (-alpha - 1) * (kdiff (fun _ => l) x y i / l)

/-- `ExpSineSquared.gradient_x`, kernels.py:231-257. -/
def expSineGrad (l p : ℝ) (x y : Fin d → ℝ) : Fin d → ℝ := fun i =>
  let dist := kdist (fun _ => 1) x y
  let theta := dist * (Real.pi / p)
  (if dist ≠ 0 then Real.pi / (p * dist) else 0) * Real.exp (-2 * (Real.sin theta / l) ^ 2) *
    (-2 * Real.sin (2 * theta) / l ^ 2) * (x i - y i)

/-- `gradient_x(x, X_train)`, kernels.py:48-65, 68-314, for one training point, where `x` is an array with `r` axes
before the last.  numpy computes all training points at once and each row depends only on its own training point.

* `Product.gradient_x` adds an axis to `x` before passing it on (kernels.py:298), `Exponentiation.gradient_x` only for
  the value (kernels.py:281).  The order of the four computations in `Product` only matters for which exception is
  raised; the model computes the values first.
* With `r = 1` the array allocated for `nu == 0.5` has one column (kernels.py:123), so that the assignment of `d`
  columns raises ValueError unless `d = 1`.
* With two or more additional axes the sums run over the wrong axis; this is not modelled, nor the `None` that is
  returned for other values of `nu`.
* The Hamming kernel inherits `raise NotImplementedError`, which is a RuntimeError (kernels.py:65). -/
def Kernel.gradRow : Kernel d → Nat → (Fin d → ℝ) → (Fin d → ℝ) → Except PyErr (Fin d → ℝ)
  | .rbf ls, r, x, y => if r ≤ 1 then .ok (rbfGrad ls x y) else .error .unmodelled
  | .matern ls .half, r, x, y =>
    if r = 0 then .ok (maternHalfGrad ls x y)
    else if r = 1 then (if d = 1 then .ok (maternHalfGrad ls x y) else .error .valueError)
    else .error .unmodelled
  | .matern ls .threeHalves, r, x, y => if r ≤ 1 then .ok (maternThreeGrad ls x y) else .error .unmodelled
  | .matern ls .fiveHalves, r, x, y => if r ≤ 1 then .ok (maternFiveGrad ls x y) else .error .unmodelled
  | .matern _ (.other _), _, _, _ => .error .unmodelled
  | .rq a l, r, x, y => if r ≤ 1 then .ok (rqGrad a l x y) else .error .unmodelled
  | .expSine l p, r, x, y => if r ≤ 1 then .ok (expSineGrad l p x y) else .error .unmodelled
  | .const _, _, _, _ => .ok fun _ => 0
  | .white _, _, _, _ => .ok fun _ => 0
  | .dot _, _, _, y => .ok y
  | .hamming _, _, _, _ => .error .runtimeError
  | .sum a b, r, x, y => do
      let u ← a.gradRow r x y
      let v ← b.gradRow r x y
      .ok fun i => u i + v i
  | .prod a b, r, x, y => do
      let fv ← a.call (r + 1) x y
      let gv ← b.call (r + 1) x y
      let gg ← b.gradRow (r + 1) x y
      let fg ← a.gradRow (r + 1) x y
      .ok fun i => fv * gg i + gv * fg i
  | .expo a p, r, x, y => do
      let v ← a.call (r + 1) x y
      let g ← a.gradRow r x y
      .ok fun i => p * v ^ (p - 1) * g i

/-- `gradient_x(x, X_train)` for a point `x` and a list of training points, one row for each.  (kernels.py:48-65) -/
def Kernel.gradientX (k : Kernel d) (x : Fin d → ℝ) (train : List (Fin d → ℝ)) : Except PyErr (List (Fin d → ℝ)) :=
  mapE (fun y => k.gradRow 0 x y) train

end

end Skopt

import Verif.Basic
import Mathlib.Analysis.SpecialFunctions.Exp

/-!
# The Hamming kernel (skopt/learning/gaussian_process/kernels.py:317-421)

Rows are functions on `Fin d`; entries are of any type with decidable equality (the kernel is applied to strings and
numbers alike).  Values are real numbers.
-/

namespace Skopt

noncomputable section

/-- The parameter `length_scale`: a number or a sequence of numbers, kernels.py:335-336. -/
inductive LengthScale
  | scalar (l : ℝ)
  | vector (ls : List ℝ)

/-- `anisotropic`, kernels.py:377. -/
def LengthScale.anisotropic : LengthScale → Bool
  | .scalar _ => false
  | .vector ls => decide (1 < ls.length)

variable {V : Type} [DecidableEq V] {d : Nat}

/-- Lines 376-393: the length scale of every feature, or an exception.  An empty sequence fails at `length_scale[0]`;
a sequence of one number counts as that number. -/
def LengthScale.perFeature (d : Nat) : LengthScale → Except PyErr (Fin d → ℝ)
  | .scalar l => .ok fun _ => l
  | .vector [] => .error .indexError
  | .vector [l] => .ok fun _ => l
  | .vector (l :: l' :: ls) =>
    if d ≠ (l :: l' :: ls).length then .error .valueError
    else .ok fun i => (l :: l' :: ls).getD i.val 0

/-- `indicator = np.expand_dims(X, axis=1) != Y`, kernels.py:403. -/
def indicator (x y : Fin d → V) : Fin d → ℝ := fun i => if x i ≠ y i then 1 else 0

/-- `np.exp(-np.sum(length_scale * indicator, axis=2))`, kernels.py:404. -/
def hammingValue (ls : Fin d → ℝ) (x y : Fin d → V) : ℝ := Real.exp (-∑ i, ls i * indicator x y i)

/-- One entry of the gradient with respect to the logarithms of the length scales, kernels.py:411-418: one component
per feature if anisotropic, one in all otherwise.  (For an isotropic kernel the features share the scale `l`.) -/
def hammingGrad (aniso : Bool) (ls : Fin d → ℝ) (l : ℝ) (x y : Fin d → V) : List ℝ :=
  if aniso then List.ofFn fun i => -hammingValue ls x y * indicator x y i * ls i
  else [-(hammingValue ls x y * ∑ i, indicator x y i) * l]

/-- The scale of an isotropic kernel.  (skopt/learning/gaussian_process/kernels.py:335-348) -/
def LengthScale.single : LengthScale → ℝ
  | .scalar l => l
  | .vector ls => ls.getD 0 0

/-- `HammingKernel.__call__(X, Y)`, kernels.py:350-421, with `Y` given: the matrix of values. -/
def hammingCall (ls : LengthScale) (xs ys : List (Fin d → V)) : Except PyErr (List (List ℝ)) := do
  let s ← ls.perFeature d
  .ok (xs.map fun x => ys.map fun y => hammingValue s x y)

/-- `HammingKernel.__call__(X, eval_gradient=True)`: the matrix of values and the array of gradients.
(kernels.py:350-421) -/
def hammingCallGrad (ls : LengthScale) (xs : List (Fin d → V)) :
    Except PyErr (List (List ℝ) × List (List (List ℝ))) := do
  let s ← ls.perFeature d
  .ok (xs.map fun x => xs.map fun y => hammingValue s x y,
       xs.map fun x => xs.map fun y => hammingGrad ls.anisotropic s ls.single x y)

end

end Skopt

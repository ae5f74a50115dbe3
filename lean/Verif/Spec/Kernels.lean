import Mathlib.Analysis.Calculus.FDeriv.Basic
import Mathlib.Analysis.Normed.Module.FiniteDimension

/-!
# Gradients
-/

namespace Skopt

variable {d : Nat}

/-- The linear form with given coefficients. -/
noncomputable def linForm (g : Fin d → ℝ) : (Fin d → ℝ) →L[ℝ] ℝ :=
  ∑ i, g i • ContinuousLinearMap.proj (R := ℝ) (φ := fun _ : Fin d => ℝ) i

/-- `g` is the gradient of `f` at `x`: `f` is differentiable there and its derivative is `v ↦ ∑ g i * v i`. -/
def HasGradient (f : (Fin d → ℝ) → ℝ) (g x : Fin d → ℝ) : Prop := HasFDerivAt f (linForm g) x

end Skopt

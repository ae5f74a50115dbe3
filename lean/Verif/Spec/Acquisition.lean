import Mathlib.Probability.Distributions.Gaussian.Real

/-!
# Specification vocabulary for acquisition functions

The predictive distribution at a point is the normal distribution with the predicted mean and standard deviation.
-/

namespace Skopt

open MeasureTheory ProbabilityTheory

/-- The normal distribution with mean `m` and standard deviation `s`. -/
noncomputable def predictive (m s : ℝ) : Measure ℝ := gaussianReal m (NNReal.mk (s ^ 2) (sq_nonneg s))

/-- The expectation of the improvement below `c`, counted as zero when there is none. -/
noncomputable def expectedImprovement (c m s : ℝ) : ℝ := ∫ f, max (c - f) 0 ∂(predictive m s)

/-- The probability of a value below `c`. -/
noncomputable def improvementProbability (c m s : ℝ) : ℝ := (predictive m s).real (Set.Iio c)

/-- The expectation of `1 / t` when the logarithm of the time `t` has the predicted distribution. -/
noncomputable def expectedRate (m s : ℝ) : ℝ := ∫ l, (Real.exp l)⁻¹ ∂(predictive m s)

end Skopt

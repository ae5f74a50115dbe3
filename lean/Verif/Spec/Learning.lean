import Mathlib.Probability.Moments.Variance

/-!
# Specification vocabulary for the surrogate models
-/

namespace Skopt

open MeasureTheory ProbabilityTheory

/-- The law of a draw from a law chosen with equal probability from the list. -/
noncomputable def equalMixture (νs : List (Measure ℝ)) : Measure ℝ := (νs.length : ENNReal)⁻¹ • νs.sum

/-- `ν` is a law on the real numbers with mean `m` and variance `v`. -/
structure HasMeanVar (ν : Measure ℝ) (m v : ℝ) : Prop where
  prob : IsProbabilityMeasure ν
  square : MemLp id 2 ν
  mean : ∫ y, y ∂ν = m
  var : variance id ν = v

end Skopt

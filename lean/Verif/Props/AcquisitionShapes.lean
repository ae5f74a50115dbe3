import Verif.Props.Acquisition

/-!
# C53: predictions of the wrong shape
-/

namespace Skopt

/-- **C53 (shapes).** Expected improvement and probability of improvement refuse predictions that are not one-dimensional
with ValueError and answer all others. -/
theorem C53_prediction_shapes (p : Pred) (best xi : ℝ) :
    (p.muDim ≠ 1 ∨ p.stdDim ≠ 1 → gaussianEi p best xi = .error .valueError ∧
      gaussianPi p best xi = .error .valueError) ∧
    (p.muDim = 1 ∧ p.stdDim = 1 → (∃ v, gaussianEi p best xi = .ok v) ∧ ∃ v, gaussianPi p best xi = .ok v) := by
  constructor
  · intro h
    exact ⟨by simp only [gaussianEi, if_pos h], by simp only [gaussianPi, if_pos h]⟩
  · rintro ⟨h1, h2⟩
    have h : ¬ (p.muDim ≠ 1 ∨ p.stdDim ≠ 1) := by simp [h1, h2]
    exact ⟨⟨_, by simp only [gaussianEi, if_neg h]; rfl⟩, ⟨_, by simp only [gaussianPi, if_neg h]; rfl⟩⟩

/-- Non-vacuity: one prediction of each kind. -/
example : gaussianEi ⟨[0], [1], 2, 1⟩ 0 0 = .error .valueError ∧ ∃ v, gaussianEi ⟨[0], [1], 1, 1⟩ 0 0 = .ok v :=
  ⟨((C53_prediction_shapes ⟨[0], [1], 2, 1⟩ 0 0).1 (Or.inl (by norm_num))).1,
    ((C53_prediction_shapes ⟨[0], [1], 1, 1⟩ 0 0).2 ⟨rfl, rfl⟩).1⟩

end Skopt

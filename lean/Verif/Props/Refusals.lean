import Verif.Props.MinimizeArgs
import Verif.Props.Acquisition

/-!
# C44, C53: which exception is raised
-/

namespace Skopt

variable {F M R G : Type}

/-- **C44, the exception.** Without starting points and without initial points, and with a budget smaller than the number of
initial points plus that of the starting points still to be evaluated, the exception is a `ValueError`, nothing has been
evaluated, and neither the search space nor the list of callbacks has been touched. -/
theorem C44_value_error [LinearOrder F] (A : Arith F) (W : World F M R G) (sh : Shared F G) (func : Objective F)
    (m : MinArgs F M) (rng : R) (starts : List (Point F)) (hs : m.x0 = if starts = [] then .none else .list (starts.map .seq))
    (hb : (m.nRandomStarts.getD m.nInitialPoints ≤ 0 ∧ starts = []) ∨
      (m.y0 = .none ∧ m.nCalls < m.nRandomStarts.getD m.nInitialPoints + starts.length) ∨
      m.nCalls < m.nRandomStarts.getD m.nInitialPoints) :
    (baseMinimize A W sh func m rng).result = .error .valueError ∧ (baseMinimize A W sh func m rng).trace = [] ∧
      (baseMinimize A W sh func m rng).shared = sh ∧ (baseMinimize A W sh func m rng).callback = m.callback := by
  have hp : m.x0.points = .ok (starts.map .seq) := by
    rw [hs]
    cases starts with
    | nil => rfl
    | cons p ps => rfl
  have hprep : m.prepare = .error .valueError := by
    unfold MinArgs.prepare
    rw [hp, ok_bind]
    dsimp only
    split
    · rfl
    · next h1 =>
      rw [if_pos]
      rcases hb with ⟨h2, rfl⟩ | ⟨h2, h3⟩ | h2
      · exact absurd ⟨h2, rfl⟩ h1
      · rw [h2]
        simpa [Y0.falsy, Y0.values] using h3
      · split <;> omega
  simp [baseMinimize, hprep]

/-- Five evaluations are asked for, but two starting points and four initial points need six. -/
example : ∃ m : MinArgs ℚ Unit,
    (m.x0 = if [[.num 1], [.num 2]] = ([] : List (Point ℚ)) then .none else .list ([[.num 1], [.num 2]].map .seq)) ∧
    m.y0 = .none ∧ m.nCalls < m.nRandomStarts.getD m.nInitialPoints + ([[.num 1], [.num 2]] : List (Point ℚ)).length :=
  ⟨{ opt := { est := { isNone := true, isRegressor := false }, acq := some .EI, acqOptimizer := .sampling }
     nCalls := 5, nInitialPoints := 4, x0 := .list [.seq [.num 1], .seq [.num 2]] }, by simp, rfl, by decide⟩

/-- **C53, shapes.** Probability of improvement and expected improvement raise `ValueError` exactly when the surrogate returns
means or deviations that are not one-dimensional. -/
theorem C53_shapes (p : Pred) (yOpt xi : ℝ) :
    (gaussianPi p yOpt xi = .error .valueError ↔ p.muDim ≠ 1 ∨ p.stdDim ≠ 1) ∧
    (gaussianEi p yOpt xi = .error .valueError ↔ p.muDim ≠ 1 ∨ p.stdDim ≠ 1) ∧
    (p.muDim = 1 → p.stdDim = 1 → (∃ v, gaussianPi p yOpt xi = .ok v) ∧ ∃ v, gaussianEi p yOpt xi = .ok v) := by
  unfold gaussianPi gaussianEi
  refine ⟨?_, ?_, ?_⟩
  · split
    · next h => exact ⟨fun _ => h, fun _ => rfl⟩
    · next h => exact ⟨fun h' => (by cases h'), fun h' => absurd h' h⟩
  · split
    · next h => exact ⟨fun _ => h, fun _ => rfl⟩
    · next h => exact ⟨fun h' => (by cases h'), fun h' => absurd h' h⟩
  · intro h1 h2
    simp [h1, h2]

/-- A surrogate that returns a column of means (two axes) and a vector of deviations. -/
example : gaussianPi ⟨[1], [0], 2, 1⟩ 3 0 = .error .valueError := ((C53_shapes _ _ _).1).2 (Or.inl (by decide))

end Skopt

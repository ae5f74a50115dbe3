import Verif.Props.PairPlots
import Verif.Props.OptimizerAsk

/-!
# C34 and C78: what is refused, and with which exception
-/

namespace Skopt

variable {F M R G : Type}

/-- **C34, refusals.** A batch of no points or an unknown strategy is refused with `ValueError`, and the optimizer is as
before. -/
theorem C34_batch_refused [LinearOrder F] (A : Arith F) (W : World F M R G) (sh : Shared F G) (s : Opt F M R) (n : ℤ)
    (strat : Strategy) (h : n ≤ 0 ∨ strat = .other) :
    (askMany A W sh s n strat).2.2 = .error .valueError ∧ (askMany A W sh s n strat).2.1 = s ∧
      (askMany A W sh s n strat).1 = sh := by
  unfold askMany
  by_cases hn : 0 < n
  · have : strat = .other := h.resolve_left (by omega)
    rw [if_neg (not_not.2 hn), if_pos this]
    exact ⟨rfl, rfl, rfl⟩
  · rw [if_pos hn]
    exact ⟨rfl, rfl, rfl⟩

/-- Minus one point, and an unknown strategy. -/
example : ((-1 : ℤ) ≤ 0 ∨ Strategy.clMin = .other) ∧ ((4 : ℤ) ≤ 0 ∨ Strategy.other = .other) := by decide

/-- **C78, refused points.** The point to be marked in a plot is refused with `ValueError` if it is asked for by the
expected minimum of a space with a categorical dimension, by an unknown name or by something else than a name or a
list, and with `AssertionError` if it is a list of the wrong length. -/
theorem C78_marked_point_refused [LinearOrder F] (A : Arith F) (dims : List (Dim F)) (models : List M)
    (predict : Predictor F M) (mini : Minimiser F) (best : Point F) (nSearch : Option Nat)
    (draws : Nat → List (RawDraw F)) :
    ((∃ d ∈ dims, d.isCat = true) →
      evaluateMinParams A dims models predict mini best .expectedMinimum nSearch draws = .error .valueError) ∧
    evaluateMinParams A dims models predict mini best .otherString nSearch draws = .error .valueError ∧
    evaluateMinParams A dims models predict mini best .other nSearch draws = .error .valueError ∧
    ∀ p : Point F, evaluateMinParams A dims models predict mini best (.list p) nSearch draws =
      if p.length = best.length then .ok p else .error .assertionError := by
  refine ⟨fun ⟨d, hd, hc⟩ => ?_, rfl, rfl, fun p => rfl⟩
  have : Space.isPartlyCategorical dims = true := List.any_eq_true.2 ⟨d, hd, by simpa using hc⟩
  simp only [evaluateMinParams, this, if_true]

/-- A space of a number and a category. -/
example : ∃ d ∈ pairSpace, d.isCat = true := by decide

end Skopt

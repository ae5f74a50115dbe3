import Verif.Props.MinimizeArgs
import Verif.Props.OptimizerCopy
import Verif.Props.Callbacks

/-!
# C38, C44, C47: settings that are silently dropped
-/

namespace Skopt

variable {F M R G : Type} [LinearOrder F]

/-- **C44, values without points.** `y0` given without `x0` does not match any starting points, but the call is not
refused.  The values are dropped: every such call does exactly what it does without `y0`. -/
theorem C44_values_without_points (A : Arith F) (W : World F M R G) (sh : Shared F G) (func : Objective F)
    (m : MinArgs F M) (hx : m.x0 = .none) (rng : R) :
    baseMinimize A W sh func m rng = baseMinimize A W sh func { m with y0 := .none } rng := by
  obtain ⟨opt, nc, nr, ni, x0, y0, v, cb⟩ := m
  simp only at hx
  subst hx
  have hp : MinArgs.prepare (⟨opt, nc, nr, ni, .none, y0, v, cb⟩ : MinArgs F M) =
      MinArgs.prepare ⟨opt, nc, nr, ni, .none, .none, v, cb⟩ := by
    simp [MinArgs.prepare, X0.points]
  unfold baseMinimize
  simp only [hp]
  cases h : MinArgs.prepare (⟨opt, nc, nr, ni, .none, .none, v, cb⟩ : MinArgs F M) with
  | error e => rfl
  | ok q =>
    obtain ⟨x, n⟩ := q
    have hx : x = [] := by
      simp only [MinArgs.prepare, X0.points, ok_bind, List.length_nil, Nat.cast_zero, ite_self, add_zero] at h
      split_ifs at h
      simp only [Except.ok.injEq, Prod.mk.injEq] at h
      exact h.1.symm
    subst hx
    rfl

/-- A call that is accepted although its three values belong to no point. -/
example : (baseMinimize ratArith okWorld toyShared countingObjective
    { toyMin .none with x0 := .none, y0 := .iter [.num (.fin 1), .num (.fin 2), .num (.fin 0)] } 0).result.toOption.isSome =
      true := by
  decide +kernel

/-- **C47, the case `n_best = 0`**, which the constructor accepts: index -1 of the sorted values is the worst one, so the
stopper behaves as if all values had been asked for. -/
theorem C47_zero_means_all (A : Arith F) (delta : F) (vals : List (Flt F)) (h : vals ≠ []) :
    deltaY A delta 0 vals = deltaY A delta vals.length vals := by
  have hl : 0 < vals.length := List.length_pos_iff.2 h
  unfold deltaY
  rw [if_pos (by omega), if_pos (le_refl _)]
  simp only
  have : pyGetI (vals.insertionSort fun a b => Flt.sortLe a b = true) (0 - 1) =
      pyGetI (vals.insertionSort fun a b => Flt.sortLe a b = true) ((vals.length : ℤ) - 1) := by
    unfold pyGetI
    rw [if_neg (by omega), List.length_insertionSort, if_pos (by omega), if_pos (by omega)]
    congr 1
  rw [this]

/-- Two values that differ by 3 and a third in between: with `n_best = 0` and `delta = 2` no stop is asked for. -/
example : deltaY ratArith 2 0 [.fin 4, .fin 1, .fin 2] = .ok (some false) ∧
    deltaY ratArith 2 1 [.fin 4, .fin 1, .fin 2] = .ok (some true) := by
  constructor <;> decide +kernel

/-- **C38, what is not copied**: `copy` does not pass on `model_queue_size`.  Told the same
three observations, the original keeps one surrogate and the copy keeps every one it fits. -/
theorem C38_queue_size_dropped :
    let s := (tell ratArith okWorld toyDims
      (tell ratArith okWorld toyDims (toyQueue 1) (.lst [.num 1]) (.num (.fin 3)) true).1
      (.lst [.num 2]) (.num (.fin 5)) true).1
    let told := fun o : Opt ℚ Nat Nat => (tell ratArith okWorld toyDims o (.lst [.num 4]) (.num (.fin 2)) true).1
    s.models.length = 1 ∧ (told s).models.length = 1 ∧
    (match (Opt.copy ratArith okWorld toyShared s 7).2 with
      | .ok o => some ((told o).models.length, (told o).Xi.length)
      | .error _ => none) = some (2, 3) := by
  refine ⟨by decide +kernel, by decide +kernel, by decide +kernel⟩

end Skopt

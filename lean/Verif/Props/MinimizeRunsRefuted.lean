import Verif.Props.Minimize
import Verif.Model.Wrappers
import Verif.Model.ExampleWorld

/-!
# C76, negations: well-posed minimisations that raise
-/

namespace Skopt

/-- The exception of a run, if there is one. -/
def raised {F M G : Type} (o : Outcome F M G) : Option PyErr :=
  match o.result with
  | .ok _ => none
  | .error e => some e

/-- A real parameter beside a categorical one with the transform `"identity"`. -/
def stringDims : List (Dim ℚ) :=
  [.real ⟨0, 1, .uniform, 10, .identity, none, id⟩,
   .cat ⟨[.str "a", .str "b"], none, .identity, none, fun _ => "", fun s => .ok (.str s)⟩]

/-- **C76 refuted.** `forest_minimize` over a real parameter and a categorical one with `transform="identity"`: encoding
turns all columns into strings, so after one evaluation the search for the next point raises `TypeError`, even when all
libraries do their part.  Over the real parameter alone the same call returns. -/
theorem C76_refuted_identity_category :
    (∃ d e, mkReal 0 1 .uniform 10 none none id = .ok d ∧
      mkCat [.str "a", .str "b"] none (some .identity) none (fun _ => "") (fun s => .ok (.str s)) = .ok e ∧
      stringDims = [d, e]) ∧
    raised (forestMinimize ratArith okWorld ⟨stringDims, none⟩ (fun _ _ => .ok (.num (.fin 1))) (.name "ET")
      { nCalls := 2, nInitialPoints := 1, nPoints := 3 } 0) = some .typeError ∧
    raised (forestMinimize ratArith okWorld ⟨stringDims.take 1, none⟩ (fun _ _ => .ok (.num (.fin 1))) (.name "ET")
      { nCalls := 2, nInitialPoints := 1, nPoints := 3 } 0) = none := by
  refine ⟨⟨_, _, ?_, rfl, rfl⟩, by decide +kernel, by decide +kernel⟩
  rw [mkReal, if_neg (by norm_num)]
  rfl

/-- **C76 refuted.** `base_minimize` with `base_estimator="dummy"`, an initial point generator and fewer initial points
than calls raises `IndexError` as soon as the generated points are used up; with as many initial points as calls it
returns. -/
theorem C76_refuted_dummy_with_generator :
    raised (baseMinimize ratArith { okWorld with generate := fun g dims n _ => (g, (dims, .ok (List.replicate n.toNat [.num 1]))) }
      ⟨toyDims, some ()⟩ (fun _ _ => .ok (.num (.fin 1)))
      { opt := { est := { isNone := true, isRegressor := false }, acq := some .EI, acqOptimizer := .sampling }
        nCalls := 2, nInitialPoints := 1 } 0) = some .indexError ∧
    raised (baseMinimize ratArith { okWorld with generate := fun g dims n _ => (g, (dims, .ok (List.replicate n.toNat [.num 1]))) }
      ⟨toyDims, some ()⟩ (fun _ _ => .ok (.num (.fin 1)))
      { opt := { est := { isNone := true, isRegressor := false }, acq := some .EI, acqOptimizer := .sampling }
        nCalls := 2, nInitialPoints := 2 } 0) = none := by
  refine ⟨by decide +kernel, by decide +kernel⟩

end Skopt

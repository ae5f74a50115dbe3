import Verif.Model.Minimize
import Verif.Spec.Optimizer

/-!
# Specification vocabulary for the minimize functions
-/

namespace Skopt

variable {F M : Type}

/-- `ys` are the answers of the objective at `xs`, asked in this order after `done`. -/
def Answers (func : Objective F) : List (Val F) → List (Val F) → List (YArg F) → Prop
  | _, [], [] => True
  | done, x :: xs, y :: ys => func done x = .ok y ∧ Answers func (done ++ [x]) xs ys
  | _, _, _ => False

/-- The objective value of what an objective returns: a number, or a pair of number and time. -/
def valueOf : YArg F → Option (Flt F)
  | .num f => some f
  | .seq (.num f :: _) => some f
  | _ => none

/-- The trace of a run that went through `steps` – the points evaluated and the result obtained in each
step: in each step the evaluations, then every callback once, in order, with the result; `hist` are the
results of earlier steps. -/
def traceOf (cbs : List (Callback F M)) : List (Result F M) → List (List (Val F) × Result F M) →
    List (Event F M)
  | _, [] => []
  | hist, (vs, r) :: steps =>
    vs.map Event.eval ++ (cbs.mapIdx (fun i c => Event.call i r (c (hist ++ [r]))) ++
      traceOf cbs (hist ++ [r]) steps)

/-- Some callback asks to stop after the results `hist`. -/
def Stops (cbs : List (Callback F M)) (hist : List (Result F M)) : Prop :=
  ∃ c ∈ cbs, c hist = .ok (some true)

/-- The documented forms of `x0`: one point, or a list of points. -/
inductive Starts (F : Type) where
  | absent
  | point (p : Point F)
  | points (ps : List (Point F))

/-- The Python argument. -/
def Starts.toX0 : Starts F → X0 F
  | .absent => .none
  | .point p => .list p
  | .points ps => .list (ps.map Val.seq)

/-- The starting points. -/
def Starts.all : Starts F → List (Point F)
  | .absent => []
  | .point p => [p]
  | .points ps => ps

/-- The form is usable: a single point starts with a value that is not itself a list, a list of points
is not empty. -/
def Starts.Proper : Starts F → Prop
  | .absent => True
  | .point p => ∃ v l, p = v :: l ∧ v.isSeq = false
  | .points ps => ps ≠ []

/-- The callables behind the `callback` argument. -/
def CbArg.callables : CbArg F M → List (Callback F M)
  | .one c => [c]
  | .list cs => cs
  | _ => []

end Skopt

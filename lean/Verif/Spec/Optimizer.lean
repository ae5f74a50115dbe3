import Verif.Model.Optimizer
import Verif.Spec.Space

/-!
# Specification vocabulary for the optimizer

Calls in their documented form, the observations they carry, and what should be on record for them.
-/

namespace Skopt

variable {F M R G : Type}

/-- A call of a public method in its documented form.  `one` tells a single observation, `batch` tells
several, given as pairs of point and value. -/
inductive Call (F : Type) where
  | one (p : Point F) (y : YArg F) (fit : Bool)
  | batch (obs : List (Point F × YArg F)) (fit : Bool)
  | ask
  | askMany (n : ℤ) (strat : Strategy)
  | updateNext
  | getResult

/-- The Python call: a batch is a list of points and a list of values. -/
def Call.toOp : Call F → Op F
  | .one p y fit => .tell (.lst p) y fit
  | .batch obs fit => .tell (.lst (obs.map fun o => .seq o.1)) (.seq (obs.map Prod.snd)) fit
  | .ask => .ask
  | .askMany n strat => .askMany n strat
  | .updateNext => .updateNext
  | .getResult => .getResult

/-- The observations carried by a call, in order. -/
def Call.obs : Call F → List (Point F × YArg F)
  | .one p y _ => [(p, y)]
  | .batch obs _ => obs
  | _ => []

/-- The call is a `tell`. -/
def Call.isTell : Call F → Bool
  | .one .. | .batch .. => true
  | _ => false

/-- The point is not made of lists or tuples only (such a point is mistaken for a batch). -/
def Flat (p : Point F) : Prop := ∃ v ∈ p, v.isSeq = false

/-- `y'` is what should be on record for the told value `y`: the value itself, or in the per-second
modes the pair of value and logarithm of the time. -/
def OnRecord (W : World F M R G) (acq : AcqFunc) (y y' : YArg F) : Prop :=
  if acq.isPs then ∃ v t l, y = .seq [v, .num t] ∧ W.log t = .ok l ∧ y' = .seq [v, .num l]
  else y' = y

/-- The outcome is a return, not an exception. -/
def Returns {α : Type} (r : Except PyErr α) : Prop := ∃ a, r = .ok a

/-- `b` is the position of the first smallest element of `ys`. -/
def FirstLeast [LinearOrder F] (ys : List F) (b : Nat) : Prop :=
  ∃ y, ys[b]? = some y ∧ (∀ z ∈ ys, y ≤ z) ∧ ∀ i z, i < b → ys[i]? = some z → y < z

end Skopt

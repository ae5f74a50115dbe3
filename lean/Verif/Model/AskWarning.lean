import Verif.Model.Optimizer

/-!
# The warning of `ask` about repeated points, skopt/optimizer/optimizer.py:446-450
-/

namespace Skopt

variable {F M R : Type}

/-- `abs(min(ds)) <= 1e-8`, optimizer.py:447-448, for a non-empty list of distances. -/
def closeToZero [LinearOrder F] (A : Arith F) (d : F) (ds : List F) : Bool :=
  let m := ds.foldl min d
  decide ((if m < A.ofInt 0 then A.sub (A.ofInt 0) m else m) ≤ A.eps)

/-- Whether `_ask` warns that the objective has been evaluated at the suggested point before, optimizer.py:430-450.  No
warning where an exception is raised. -/
def askWarns [LinearOrder F] (A : Arith F) (dims : List (Dim F)) (s : Opt F M R) : Bool :=
  if 0 < s.nInit ∨ s.cfg.hasEst = false then false
  else if s.models.isEmpty then false
  else match s.nextX with
    | none => false
    | some x => match mapE (fun xi : Val F => Space.distance A dims x xi.items) s.Xi with
      | .ok (d :: ds) => closeToZero A d ds
      | _ => false

end Skopt

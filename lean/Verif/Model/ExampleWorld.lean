import Verif.Model.Optimizer
import Verif.Model.Exact

/-!
# A concrete computable world, used only in examples and counterexamples

Surrogate models are numbers (how many observations they were fitted on), the random state is a
counter, random draws are 1/2, the acquisition value of every candidate is its first coordinate.
-/

namespace Skopt

/-- The example world; `reject` decides which values make `est.fit` raise (scikit-learn raises
`ValueError` on NaN and on inconsistent numbers of samples).
(it stands for the calls in skopt/optimizer/optimizer.py:434-608) -/
def toyWorld (reject : List (List (Val ℚ)) → List (YArg ℚ) → Bool) : World ℚ Nat Nat Unit where
  fit r X y := (r + 1, if reject X y then .error .valueError else .ok y.length)
  predict _ X := .ok (X.map fun _ => 0)
  draws r dims n := (r + 1, dims.map fun _ => ⟨List.replicate n (1/2), List.replicate n 0⟩)
  acquisition _ X _ _ := .ok (X.map fun row => match row with
    | .num x :: _ => .fin x
    | _ => .nan)
  argsort v := List.range v.length
  lbfgs r _ _ _ x := (r + 1, .ok (x, .fin 0))
  multinomial r p := (r + 1, (List.range p.length).map fun i => if i = 1 then 1 else 0)
  exp x := 1 + x * x
  log t := match t with
    | .fin x => if x ≤ 0 then .error .valueError else .ok (.fin (x - 4))
    | .nan => .ok .nan
  logMax := 700
  eta := 1
  seed r := (r + 1, r)
  generate g dims n _ :=
    (g, (dims, .ok ((List.range n.toNat).map fun i => dims.map fun _ => .num (i + 1))))

/-- A one-dimensional space `Real(0, 10)`, normalized. -/
def toyDims : List (Dim ℚ) := [.real ⟨0, 10, .uniform, 10, .normalize, none, id⟩]

/-- No value makes the surrogate raise.  (see `toyWorld`; optimizer.py:536) -/
def okWorld : World ℚ Nat Nat Unit := toyWorld fun _ _ => false

/-- A configuration with two initial points and sampling of three candidates.  (optimizer.py:163-171) -/
def toyCfg (acq : AcqFunc) : Config :=
  { acq := acq, hasEst := true, isGP := true, lbfgs := false, nPoints := 3, nRestarts := 1,
    nInitial := 2, queueSize := none }

/-- A fresh optimizer without initial point generator.  (optimizer.py:293-305) -/
def toyOpt (acq : AcqFunc) : Opt ℚ Nat Nat := Opt.fresh ratArith (toyCfg acq) 0 none

/-- The shared objects of `toyOpt`.  (optimizer.py:271-282) -/
def toyShared : Shared ℚ Unit := ⟨toyDims, none⟩


/-- Structural equality of `y` arguments.  (used for the examples about skopt/optimizer/optimizer.py:455-615) -/
def YArg.eqb {F : Type} [DecidableEq F] : YArg F → YArg F → Bool
  | .num x, .num y => decide (x = y)
  | .other, .other => true
  | .seq xs, .seq ys => eqbList xs ys
  | _, _ => false
where
  /-- pointwise -/
  eqbList : List (YArg F) → List (YArg F) → Bool
    | [], [] => true
    | x :: xs, y :: ys => eqb x y && eqbList xs ys
    | _, _ => false

mutual
theorem YArg.eqb_iff {F : Type} [DecidableEq F] : ∀ a b : YArg F, eqb a b = true ↔ a = b
  | .num x, b => by cases b <;> simp [eqb]
  | .other, b => by cases b <;> simp [eqb]
  | .seq xs, b => by
      cases b with
      | seq ys => simp only [eqb, YArg.seq.injEq]; exact eqbList_iff xs ys
      | _ => simp [eqb]
theorem YArg.eqbList_iff {F : Type} [DecidableEq F] :
    ∀ xs ys : List (YArg F), eqb.eqbList xs ys = true ↔ xs = ys
  | [], ys => by cases ys <;> simp [eqb.eqbList]
  | x :: xs, ys => by
      cases ys with
      | nil => simp [eqb.eqbList]
      | cons y ys => simp [eqb.eqbList, YArg.eqb_iff x y, YArg.eqbList_iff xs ys]
end

instance {F : Type} [DecidableEq F] : DecidableEq (YArg F) := fun a b =>
  decidable_of_iff (YArg.eqb a b = true) (YArg.eqb_iff a b)

deriving instance DecidableEq for Result

end Skopt

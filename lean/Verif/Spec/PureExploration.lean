import Verif.Spec.ObjectiveUnits

/-!
# What it means that two searches differ in the objective values only (C137)
-/

namespace Skopt

variable {M R G : Type}

/-- The two surrogates agree about where they are how uncertain, up to the unit of the objective; what they predict may
be quite different. -/
def SameShape (V : Views M) (m m' : M) : Prop :=
  ∃ α : ℝ, 0 < α ∧ (∀ X, (V.pred m' X).std = (V.pred m X).std.map fun v => α * v) ∧
    (V.gradients = true → ∀ z, (V.grad m' z).std = α * (V.grad m z).std ∧
      (V.grad m' z).stdGrad = (V.grad m z).stdGrad.map fun v => α * v)

/-- Fitting to other values at the same points gives a surrogate that is uncertain in the same places, and uses the
random state in the same way; there is no fitting without values. -/
structure FitsBlind (W : World ℝ M R G) (V : Views M) : Prop where
  empty : ∀ r X, ∃ e, (W.fit r X []).2 = .error e
  rng : ∀ r X (ys ys' : List ℝ), ys'.length = ys.length →
    (W.fit r X (ys'.map fun y => .num (.fin y))).1 = (W.fit r X (ys.map fun y => .num (.fin y))).1
  fit : ∀ r X (ys ys' : List ℝ), ys'.length = ys.length → ys ≠ [] →
    Alike (SameShape V) (W.fit r X (ys.map fun y => .num (.fin y))).2 (W.fit r X (ys'.map fun y => .num (.fin y))).2

/-- The same observation with another (finite) value. -/
def SameObs (o o' : Point ℝ × YArg ℝ) : Prop :=
  o'.1 = o.1 ∧ ∃ v v' : ℝ, o.2 = .num (.fin v) ∧ o'.2 = .num (.fin v')

/-- The same call, but with other (finite) values told. -/
inductive SameCall : Call ℝ → Call ℝ → Prop
  | one (p : Point ℝ) (v v' : ℝ) (fit : Bool) : SameCall (.one p (.num (.fin v)) fit) (.one p (.num (.fin v')) fit)
  | batch {obs obs' : List (Point ℝ × YArg ℝ)} (h : List.Forall₂ SameObs obs obs') (fit : Bool) :
    SameCall (.batch obs fit) (.batch obs' fit)
  | ask : SameCall .ask .ask
  | askMany (n : ℤ) (strat : Strategy) : SameCall (.askMany n strat) (.askMany n strat)
  | updateNext : SameCall .updateNext .updateNext
  | getResult : SameCall .getResult .getResult

/-- The same answer as far as points are concerned: equal points; results with equal `x_iters` and as many values. -/
inductive SamePoints : Out ℝ M → Out ℝ M → Prop
  | point (p) : SamePoints (.point p) (.point p)
  | points (ps) : SamePoints (.points ps) (.points ps)
  | result {r r'} (hx : r'.xIters = r.xIters) (hl : r'.funcVals.length = r.funcVals.length) :
    SamePoints (.result r) (.result r')
  | none : SamePoints .none .none

/-- Pure exploration: LCB only; if it is minimised with its gradient, gradients are available and the minimiser does not
mind the unit. -/
structure Exploring (V : Views M) (mini : AcqMinimiser R) (cfg : Config) : Prop where
  acq : cfg.acq = .LCB
  mini : cfg.lbfgs = true → V.gradients = true ∧ AffineMinimiser mini

end Skopt

import Verif.Spec.Units
import Verif.Model.Acquisition

/-!
# What it means that only the unit and the zero point of the objective differ (C106)
-/

namespace Skopt

variable {M R G : Type}

/-- What a surrogate predicts: means and standard deviations at several rows, and with gradients at one row. -/
structure Views (M : Type) where
  pred : M → List (List (Val ℝ)) → Pred
  grad : M → List (Val ℝ) → PredGrad
  /-- whether gradients are used at all -/
  gradients : Bool := true

/-- The second surrogate says the same as the first about values measured as `a * y + c` instead of `y`: means
and standard deviations are converted.  Or (`flat`) both predict one and the same value everywhere and agree about the
uncertainty: this is what a Gaussian process says when all values are equal, which gives it no scale. -/
inductive Carried (V : Views M) (a c : ℝ) (m m' : M) : Prop
  | affine
      (pred : ∀ X, V.pred m' X = { V.pred m X with
        mu := (V.pred m X).mu.map fun v => a * v + c, std := (V.pred m X).std.map fun v => a * v })
      (grad : V.gradients = true → ∀ z, V.grad m' z = ⟨a * (V.grad m z).mu + c, a * (V.grad m z).std,
        (V.grad m z).muGrad.map fun v => a * v, (V.grad m z).stdGrad.map fun v => a * v⟩)
  | flat (k : ℝ)
      (level : ∀ X, ∀ v ∈ (V.pred m X).mu, v = k)
      (pred : ∀ X, V.pred m' X = { V.pred m X with mu := (V.pred m X).mu.map fun _ => a * k + c })
      (level' : V.gradients = true → ∀ z, (V.grad m z).mu = k)
      (grad : V.gradients = true → ∀ z, V.grad m' z = { V.grad m z with mu := a * k + c })

/-- Two calls end alike: with the same exception, or with answers that are related. -/
inductive Alike {α β : Type} (r : α → β → Prop) : Except PyErr α → Except PyErr β → Prop
  | error (e : PyErr) : Alike r (.error e) (.error e)
  | ok {x : α} {y : β} (h : r x y) : Alike r (.ok x) (.ok y)

/-- `fmin_l_bfgs_b`: start, function with gradient, and the minimiser found with its value. -/
abbrev AcqMinimiser (R : Type) :=
  R → (List (Val ℝ) → Except PyErr (ℝ × List ℝ)) → List (Val ℝ) → R × Except PyErr (List (Val ℝ) × ℝ)

/-- The third-party calls see a surrogate through its predictions only: the acquisition values are those of
`_gaussian_acquisition` (acquisition.py:20-87), the gains are computed from the means (optimizer.py:539),
`fmin_l_bfgs_b` is given the acquisition function with its gradient, and sorting depends on the order only. -/
structure ReadsPredictions (W : World ℝ M R G) (V : Views M) (xi : ℝ) (kappa : Kappa) (mini : AcqMinimiser R) :
    Prop where
  predict : ∀ m X, W.predict m X = .ok (V.pred m X).mu
  acquisition : ∀ m X y cand, W.acquisition m X (.fin y) cand
    = (gaussianAcquisition (.one (V.pred m X)) y cand xi kappa).map (List.map Flt.fin)
  lbfgs : V.gradients = true → ∀ r m y cand x, W.lbfgs r m (.fin y) cand x
    = ((mini r (fun z => gaussianAcquisitionGrad (.one (V.grad m z)) y cand xi kappa) x).1,
       (mini r (fun z => gaussianAcquisitionGrad (.one (V.grad m z)) y cand xi kappa) x).2.map
         fun p => (p.1, .fin p.2))
  argsort : ∀ (vs : List ℝ) (τ : ℝ → ℝ), StrictMono τ → W.argsort (vs.map fun v => .fin (τ v))
    = W.argsort (vs.map .fin)

/-- Fitting to converted values gives a surrogate with converted predictions, and uses the random state in the
same way; there is no fitting without values. -/
structure FitsConverted (W : World ℝ M R G) (V : Views M) (a c : ℝ) : Prop where
  empty : ∀ r X, ∃ e, (W.fit r X []).2 = .error e
  rng : ∀ r X (ys : List ℝ), (W.fit r X ((ys.map fun y => a * y + c).map fun y => .num (.fin y))).1
    = (W.fit r X (ys.map fun y => .num (.fin y))).1
  fit : ∀ r X (ys : List ℝ), ys ≠ [] → Alike (Carried V a c) (W.fit r X (ys.map fun y => .num (.fin y))).2
    (W.fit r X ((ys.map fun y => a * y + c).map fun y => .num (.fin y))).2

/-- The minimiser found does not depend on the zero point and the unit of the function. -/
def AffineMinimiser (mini : AcqMinimiser R) : Prop :=
  ∀ r f x (α β : ℝ), 0 < α →
    mini r (fun z => (f z).map fun p => (α * p.1 + β, p.2.map fun g => α * g)) x
      = ((mini r f x).1, (mini r f x).2.map fun p => (p.1, α * p.2 + β))

/-- The conversion of a told value. -/
def YArg.convert (a c : ℝ) : YArg ℝ → YArg ℝ
  | .num (.fin y) => .num (.fin (a * y + c))
  | y => y

/-- The same call with the values measured as `a * y + c`. -/
def Call.convert (a c : ℝ) : Call ℝ → Call ℝ
  | .one p y fit => .one p (y.convert a c) fit
  | .batch obs fit => .batch (obs.map fun o => (o.1, o.2.convert a c)) fit
  | call => call

/-- All values told are (finite) numbers. -/
def Call.Finite : Call ℝ → Prop
  | .one _ y _ => ∃ v, y = .num (.fin v)
  | .batch obs _ => ∀ o ∈ obs, ∃ v, o.2 = .num (.fin v)
  | _ => True

/-- The conversion of a value. -/
def Flt.convert (a c : ℝ) : Flt ℝ → Flt ℝ
  | .fin y => .fin (a * y + c)
  | .nan => .nan

/-- The same result with converted values. -/
structure Result.Converted (V : Views M) (a c : ℝ) (r r' : Result ℝ M) : Prop where
  x : r'.x = r.x
  fun_ : r'.fun_ = r.fun_.convert a c
  funcVals : r'.funcVals = r.funcVals.map (Flt.convert a c)
  logTime : r'.logTime = r.logTime
  xIters : r'.xIters = r.xIters
  models : List.Forall₂ (Carried V a c) r.models r'.models

/-- The same answer: equal points; results with converted values. -/
inductive Out.Converted (V : Views M) (a c : ℝ) : Out ℝ M → Out ℝ M → Prop
  | point (p) : Out.Converted V a c (.point p) (.point p)
  | points (ps) : Out.Converted V a c (.points ps) (.points ps)
  | result {r r'} (h : r.Converted V a c r') : Out.Converted V a c (.result r) (.result r')
  | none : Out.Converted V a c .none .none

/-- What the configuration and the conversion have to satisfy: the unit may change with LCB only; if the acquisition
function is minimised with its gradient, gradients are available, and LCB (whose values are converted with the objective)
needs a minimiser that does not mind. -/
structure Sensible (V : Views M) (a : ℝ) (mini : AcqMinimiser R) (cfg : Config) : Prop where
  pos : 0 < a
  unit : a = 1 ∨ cfg.acq = .LCB
  mini : cfg.lbfgs = true → V.gradients = true ∧ (.LCB ∈ cfg.acq.candidates → AffineMinimiser mini)

end Skopt

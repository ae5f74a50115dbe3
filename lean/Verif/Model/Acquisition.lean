import Verif.Model.Optimizer
import Mathlib.Analysis.SpecialFunctions.Pow.Real
import Mathlib.MeasureTheory.Integral.Bochner.Set
import Mathlib.MeasureTheory.Measure.Lebesgue.Basic

/-!
# Model of skopt/acquisition.py

Everything is over the real numbers.  `scipy.stats.norm.pdf` and `norm.cdf` are the density and the distribution
function of the standard normal distribution.
-/

namespace Skopt

open MeasureTheory Real

/-- `norm.pdf(x)` of scipy: `exp(-x**2/2) / sqrt(2*pi)`, used at acquisition.py:227, 300. -/
noncomputable def normPdf (x : ℝ) : ℝ := exp (-x ^ 2 / 2) / √(2 * π)

/-- `norm.cdf(x)` of scipy: the integral of the density up to `x`, used at acquisition.py:216, 299. -/
noncomputable def normCdf (x : ℝ) : ℝ := ∫ t in Set.Iic x, normPdf t

/-- The arrays `mu, std` returned by `model.predict(X, return_std=True)` and their numbers of dimensions.
(skopt/acquisition.py:143, 202, 285) -/
structure Pred where
  mu : List ℝ
  std : List ℝ
  muDim : Nat := 1
  stdDim : Nat := 1

/-- The four results of `model.predict(X, return_std=True, return_mean_grad=True, return_std_grad=True)` for one
row `X` (gradients are only available for one row, gpr.py:345-357). -/
structure PredGrad where
  mu : ℝ
  std : ℝ
  muGrad : List ℝ
  stdGrad : List ℝ

/-- `xs[mask]`.  (acquisition.py:214-215, 297-298) -/
def maskSelect {α : Type} : List Bool → List α → List α
  | true :: ms, x :: xs => x :: maskSelect ms xs
  | false :: ms, _ :: xs => maskSelect ms xs
  | _, _ => []

/-- `values = np.zeros_like(mu); values[mask] = vs`.  (acquisition.py:212-216, 295-303) -/
noncomputable def maskAssign : List Bool → List ℝ → List ℝ
  | [], _ => []
  | true :: ms, v :: vs => v :: maskAssign ms vs
  | true :: ms, [] => 0 :: maskAssign ms []
  | false :: ms, vs => 0 :: maskAssign ms vs

/-- `mask = std > 0`, acquisition.py:213, 296. -/
noncomputable def stdMask (std : List ℝ) : List Bool := std.map fun s => decide (0 < s)

/-- The parameter `kappa`: a number or the string "inf".  (acquisition.py:138, 144) -/
inductive Kappa where
  | inf
  | num (k : ℝ)

/-- `gaussian_lcb` without gradient, acquisition.py:142-146. -/
noncomputable def gaussianLcb (p : Pred) (kappa : Kappa) : List ℝ :=
  match kappa with
  | .inf => p.std.map fun s => -s
  | .num k => List.zipWith (fun m s => m - k * s) p.mu p.std

/-- `gaussian_pi` without gradient, acquisition.py:204-216. -/
noncomputable def gaussianPi (p : Pred) (yOpt xi : ℝ) : Except PyErr (List ℝ) :=
  if p.muDim ≠ 1 ∨ p.stdDim ≠ 1 then .error .valueError
  else
    let mask := stdMask p.std
    let improve := (maskSelect mask p.mu).map fun m => yOpt - xi - m
    let scaled := List.zipWith (fun i s => i / s) improve (maskSelect mask p.std)
    .ok (maskAssign mask (scaled.map normCdf))

/-- `gaussian_ei` without gradient, acquisition.py:287-303. -/
noncomputable def gaussianEi (p : Pred) (yOpt xi : ℝ) : Except PyErr (List ℝ) :=
  if p.muDim ≠ 1 ∨ p.stdDim ≠ 1 then .error .valueError
  else
    let mask := stdMask p.std
    let improve := (maskSelect mask p.mu).map fun m => yOpt - xi - m
    let std := maskSelect mask p.std
    let scaled := List.zipWith (fun i s => i / s) improve std
    let cdf := scaled.map normCdf
    let pdf := scaled.map normPdf
    let exploit := List.zipWith (fun i c => i * c) improve cdf
    let explore := List.zipWith (fun s d => s * d) std pdf
    .ok (maskAssign mask (List.zipWith (fun a b => a + b) exploit explore))

/-- `gaussian_lcb` with gradient, acquisition.py:133-140. -/
noncomputable def gaussianLcbGrad (p : PredGrad) (kappa : Kappa) : ℝ × List ℝ :=
  match kappa with
  | .inf => (-p.std, p.stdGrad.map fun g => -g)
  | .num k => (p.mu - k * p.std, List.zipWith (fun m s => m - k * s) p.muGrad p.stdGrad)

/-- `gaussian_pi` with gradient for one row, acquisition.py:212-227. -/
noncomputable def gaussianPiGrad (p : PredGrad) (yOpt xi : ℝ) : ℝ × List ℝ :=
  if 0 < p.std then
    let improve := yOpt - xi - p.mu
    let scaled := improve / p.std
    let improveGrad := List.zipWith (fun m s => (-m * p.std - s * improve) / p.std ^ 2) p.muGrad p.stdGrad
    (normCdf scaled, improveGrad.map fun g => g * normPdf scaled)
  else (0, p.stdGrad.map fun _ => 0)

/-- `gaussian_ei` with gradient for one row, acquisition.py:295-319. -/
noncomputable def gaussianEiGrad (p : PredGrad) (yOpt xi : ℝ) : ℝ × List ℝ :=
  if 0 < p.std then
    let improve := yOpt - xi - p.mu
    let scaled := improve / p.std
    let cdf := normCdf scaled
    let pdf := normPdf scaled
    let improveGrad := List.zipWith (fun m s => (-m * p.std - s * improve) / p.std ^ 2) p.muGrad p.stdGrad
    let cdfGrad := improveGrad.map fun g => g * pdf
    let pdfGrad := cdfGrad.map fun g => -improve * g
    let exploitGrad := List.zipWith (fun m d => -m * cdf - d) p.muGrad pdfGrad
    let exploreGrad := List.zipWith (fun s d => s * pdf + d) p.stdGrad pdfGrad
    (improve * cdf + p.std * pdf, List.zipWith (fun a b => a + b) exploitGrad exploreGrad)
  else (0, p.stdGrad.map fun _ => 0)

/-- What the model passed to `_gaussian_acquisition` predicts at `X`: a single regressor or the `estimators_` of
a `MultiOutputRegressor`.  (acquisition.py:20-40) -/
inductive Surrogate (P : Type) where
  | one (p : P)
  | multi (ps : List P)

/-- `model, time_model = model.estimators_`, acquisition.py:38-40. -/
def Surrogate.pair {P : Type} : Surrogate P → Except PyErr (P × P)
  | .one _ => .error .attributeError
  | .multi [a, b] => .ok (a, b)
  | .multi _ => .error .valueError

/-- The model used as such; `predict` of a `MultiOutputRegressor` takes no `return_std`.  (acquisition.py:38-53) -/
def Surrogate.single {P : Type} : Surrogate P → Except PyErr P
  | .one p => .ok p
  | .multi _ => .error .typeError

/-- `acq_vals *= inv_t` with `inv_t = np.exp(-mu + 0.5*std**2)`, acquisition.py:71-72. -/
noncomputable def perSecond (vals : List ℝ) (t : Pred) : List ℝ :=
  List.zipWith (fun v i => v * i) vals (List.zipWith (fun m s => exp (-m + 0.5 * s ^ 2)) t.mu t.std)

/-- `_gaussian_acquisition` without gradient, acquisition.py:20-87 (`X` two-dimensional; the defaults of `xi`
and `kappa` are 0.01 and 1.96). -/
noncomputable def gaussianAcquisition (model : Surrogate Pred) (yOpt : ℝ) (acq : AcqFunc) (xi : ℝ := 0.01)
    (kappa : Kappa := .num 1.96) : Except PyErr (List ℝ) :=
  match acq with
  | .LCB => do
      let p ← model.single
      .ok (gaussianLcb p kappa)
  | .EI => do
      let p ← model.single
      let v ← gaussianEi p yOpt xi
      .ok (v.map fun x => -x)
  | .PI => do
      let p ← model.single
      let v ← gaussianPi p yOpt xi
      .ok (v.map fun x => -x)
  | .EIps => do
      let (p, t) ← model.pair
      let v ← gaussianEi p yOpt xi
      .ok (perSecond (v.map fun x => -x) t)
  | .PIps => do
      let (p, t) ← model.pair
      let v ← gaussianPi p yOpt xi
      .ok (perSecond (v.map fun x => -x) t)
  | .gpHedge => .error .valueError

/-- `acq_vals *= inv_t; acq_grad *= inv_t; acq_grad += acq_vals * (-mu_grad + std*std_grad)`,
acquisition.py:70-80. -/
noncomputable def perSecondGrad (v : ℝ × List ℝ) (t : PredGrad) : ℝ × List ℝ :=
  let invT := exp (-t.mu + 0.5 * t.std ^ 2)
  let vals := v.1 * invT
  let grad := v.2.map fun g => g * invT
  (vals, List.zipWith (fun g h => g + h) grad
    (List.zipWith (fun m s => vals * (-m + t.std * s)) t.muGrad t.stdGrad))

/-- `_gaussian_acquisition` with gradient at one row, acquisition.py:20-87. -/
noncomputable def gaussianAcquisitionGrad (model : Surrogate PredGrad) (yOpt : ℝ) (acq : AcqFunc)
    (xi : ℝ := 0.01) (kappa : Kappa := .num 1.96) : Except PyErr (ℝ × List ℝ) :=
  match acq with
  | .LCB => do
      let p ← model.single
      .ok (gaussianLcbGrad p kappa)
  | .EI => do
      let p ← model.single
      let v := gaussianEiGrad p yOpt xi
      .ok (-v.1, v.2.map fun g => -g)
  | .PI => do
      let p ← model.single
      let v := gaussianPiGrad p yOpt xi
      .ok (-v.1, v.2.map fun g => -g)
  | .EIps => do
      let (p, t) ← model.pair
      let v := gaussianEiGrad p yOpt xi
      .ok (perSecondGrad (-v.1, v.2.map fun g => -g) t)
  | .PIps => do
      let (p, t) ← model.pair
      let v := gaussianPiGrad p yOpt xi
      .ok (perSecondGrad (-v.1, v.2.map fun g => -g) t)
  | .gpHedge => .error .valueError

end Skopt

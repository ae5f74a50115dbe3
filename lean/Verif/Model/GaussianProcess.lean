import Verif.Model.Kernels
import Mathlib.LinearAlgebra.Matrix.NonsingularInverse

/-!
# Gaussian process regression (skopt/learning/gaussian_process/gpr.py)

`sklearn`'s own `fit` (hyperparameters, Cholesky factor, dual coefficients, normalisation of the targets) is a
parameter; skopt's additions around it and its `predict` are modelled.  Values are real numbers; `check_array` is taken
to let the input through.
-/

namespace Skopt

noncomputable section

variable {n d : Nat}

/-- `kernel.diag(X)` at one point: scikit-learn's `diag`, one for normalised kernels.
(skopt/learning/gaussian_process/gpr.py:309, 331) -/
def Kernel.diag : Kernel d → (Fin d → ℝ) → ℝ
  | .const c, _ => c
  | .white v, _ => v
  | .dot s, x => ∑ i, x i * x i + s ^ 2
  | .sum a b, x => a.diag x + b.diag x
  | .prod a b, x => a.diag x * b.diag x
  | .expo a p, x => a.diag x ^ p
  | _, _ => 1

/-- The attributes of a fitted regressor that `predict` uses, gpr.py:195-235. -/
structure Gp (n d : Nat) where
  /-- `kernel_` -/
  kernel : Kernel d
  /-- `X_train_` -/
  X : Fin n → Fin d → ℝ
  /-- `L_` -/
  L : Matrix (Fin n) (Fin n) ℝ
  /-- `alpha_` -/
  alpha : Fin n → ℝ
  /-- `y_train_mean_` -/
  yMean : ℝ
  /-- `y_train_std_` -/
  yStd : ℝ

/-- `K_inv_`, gpr.py:223-224: `solve_triangular(L.T, eye)` is the inverse of the transposed factor. -/
def Gp.Kinv (g : Gp n d) : Matrix (Fin n) (Fin n) ℝ :=
  let Linv := (g.L.transpose)⁻¹
  Linv * Linv.transpose

/-- One row of `K_trans = self.kernel_(X, self.X_train_)`, gpr.py:315. -/
def Gp.kTrans (g : Gp n d) (x : Fin d → ℝ) : Fin n → ℝ := fun i => g.kernel.value x (g.X i)

/-- One entry of `y_mean`, gpr.py:316-318. -/
def Gp.mean (g : Gp n d) (x : Fin d → ℝ) : ℝ := g.yStd * (∑ i, g.kTrans x i * g.alpha i) + g.yMean

/-- One entry of `y_var` before negative ones are set to zero, gpr.py:331-332. -/
def Gp.rawVar (g : Gp n d) (x : Fin d → ℝ) : ℝ :=
  g.kernel.diag x - ∑ i, ∑ j, g.kTrans x i * g.kTrans x j * g.Kinv i j

/-- One entry of `y_std`, gpr.py:336-343. -/
def Gp.std (g : Gp n d) (x : Fin d → ℝ) : ℝ :=
  Real.sqrt ((if g.rawVar x < 0 then 0 else g.rawVar x) * g.yStd ^ 2)

/-- One entry of `y_cov`, gpr.py:321-324: `cho_solve` applies the inverse of `L L^T`.  `self.kernel_(X)` has the
diagonal of `diag`. -/
def Gp.covEntry (g : Gp n d) (i j : Nat) (x y : Fin d → ℝ) : ℝ :=
  ((if i = j then g.kernel.diag x else g.kernel.value x y) -
    ∑ a, g.kTrans x a * ((g.L * g.L.transpose)⁻¹).mulVec (g.kTrans y) a) * g.yStd ^ 2

/-- `y_cov`.  (gpr.py:322-324) -/
def Gp.cov (g : Gp n d) (xs : List (Fin d → ℝ)) : List (List ℝ) :=
  xs.zipIdx.map fun p => xs.zipIdx.map fun q => g.covEntry p.2 q.2 p.1 q.1

/-- `grad_mean`, gpr.py:347-349. -/
def Gp.gradMean (g : Gp n d) (grad : Fin n → Fin d → ℝ) : Fin d → ℝ :=
  fun j => (∑ i, grad i j * g.alpha i) * g.yStd

/-- `grad_std`, gpr.py:351-356; `np.allclose` with zeros compares with `1e-8`. -/
def Gp.gradStd (g : Gp n d) (x : Fin d → ℝ) (grad : Fin n → Fin d → ℝ) : Fin d → ℝ :=
  if |g.std x| ≤ 1e-8 then fun _ => 0
  else fun j => -(∑ a, g.kTrans x a * ∑ b, g.Kinv a b * grad b j) / g.std x * g.yStd ^ 2

/-- What `predict` returns; the Python code returns a tuple of the components that are there.  (gpr.py:303-368) -/
structure Prediction (d : Nat) where
  mean : List ℝ
  std : Option (List ℝ) := none
  cov : Option (List (List ℝ)) := none
  meanGrad : Option (Fin d → ℝ) := none
  stdGrad : Option (Fin d → ℝ) := none

/-- The flags of `predict`.  (gpr.py:239-240) -/
structure PredictFlags where
  std : Bool := false
  cov : Bool := false
  meanGrad : Bool := false
  stdGrad : Bool := false

/-- The checks at the beginning of `predict`, gpr.py:289-301. -/
def predictChecks (fl : PredictFlags) (xs : List (Fin d → ℝ)) : Except PyErr Unit :=
  if fl.std && fl.cov then .error .runtimeError
  else if fl.stdGrad && !fl.std then .error .valueError
  else if xs.length ≠ 1 ∧ (fl.meanGrad || fl.stdGrad) = true then .error .valueError
  else .ok ()

/-- `self.kernel_.gradient_x(X[0], self.X_train_)`, gpr.py:346. -/
def Gp.gradient (g : Gp n d) (x : Fin d → ℝ) : Except PyErr (Fin n → Fin d → ℝ) := do
  let rows ← g.kernel.gradientX x (List.ofFn g.X)
  .ok fun i => rows.getD i.val fun _ => 0

/-- `predict` of a fitted regressor, gpr.py:289-301, 314-368. -/
def Gp.predict (g : Gp n d) (fl : PredictFlags) (xs : List (Fin d → ℝ)) : Except PyErr (Prediction d) := do
  predictChecks fl xs
  let mean := xs.map g.mean
  if fl.cov then .ok { mean := mean, cov := some (g.cov xs) }
  else
    let std := if fl.std then some (xs.map g.std) else none
    if fl.meanGrad then
      match xs with
      | [] => .error .indexError
      | x :: _ => do
        let grad ← g.gradient x
        if fl.stdGrad then
          .ok { mean := mean, std := std, meanGrad := some (g.gradMean grad), stdGrad := some (g.gradStd x grad) }
        else .ok { mean := mean, std := std, meanGrad := some (g.gradMean grad) }
    else .ok { mean := mean, std := std }

/-- `predict` before fitting, gpr.py:303-312; `none` for the kernel fails when it is used. -/
def predictPrior (kernel : Option (Kernel d)) (fl : PredictFlags) (xs : List (Fin d → ℝ)) :
    Except PyErr (Prediction d) := do
  predictChecks fl xs
  let mean := xs.map fun _ => (0 : ℝ)
  if fl.cov then
    match kernel with
    | none => .error .typeError
    | some k => .ok { mean := mean, cov := some (xs.zipIdx.map fun p => xs.zipIdx.map fun q =>
        if p.2 = q.2 then k.diag p.1 else k.value p.1 q.1) }
  else if fl.std then
    match kernel with
    | none => .error .attributeError
    | some k => .ok { mean := mean, std := some (xs.map fun x => Real.sqrt (k.diag x)) }
  else .ok { mean := mean }

/-! ## Fitting -/

/-- The argument `noise`: nothing (or zero), `"gaussian"`, another string, or a noise level.  (gpr.py:182-194) -/
inductive Noise
  | none
  | gaussian
  | otherString
  | level (v : ℝ)

/-- A white kernel, gpr.py:208. -/
def Kernel.isWhite : Kernel d → Option ℝ
  | .white v => some v
  | _ => Option.none

/-- `_param_for_white_kernel_in_Sum` (gpr.py:17-36) together with the replacement of the kernel found by
`WhiteKernel(noise_level=0.0)` (gpr.py:212-220): the first white kernel among nested sums, and the kernel after the
replacement. -/
def Kernel.zeroWhite : Kernel d → Option (ℝ × Kernel d)
  | .sum a b =>
    match a.isWhite with
    | some v => some (v, .sum (.white 0) b)
    | Option.none =>
      match a.zeroWhite with
      | some (v, a') => some (v, .sum a' b)
      | Option.none =>
        match b.isWhite with
        | some v => some (v, .sum a (.white 0))
        | Option.none =>
          match b.zeroWhite with
          | some (v, b') => some (v, .sum a b')
          | Option.none => Option.none
  | _ => Option.none

/-- The kernel after `fit` has added the default and the noise to the attribute `kernel`, gpr.py:182-194.  The attribute
itself is changed. -/
def fitKernel (kernel : Option (Kernel d)) (noise : Noise) : Except PyErr (Kernel d) :=
  let k := kernel.getD (.prod (.const 1) (.rbf fun _ => 1))
  match noise with
  | .otherString => .error .valueError
  | .gaussian => .ok (.sum k (.white 1))
  | .level v => .ok (if v = 0 then k else .sum k (.white v))
  | .none => .ok k

/-- Removing the noise from the fitted kernel, gpr.py:197-220: the attribute `noise_` and the new `kernel_`. -/
def removeNoise (noise : Noise) (fitted : Kernel d) : Option ℝ × Kernel d :=
  match noise with
  | .none => (Option.none, fitted)
  | .level v =>
    if v = 0 then (Option.none, fitted) else strip fitted
  | _ => strip fitted
where
  /-- Lines 208-220. -/
  strip (k : Kernel d) : Option ℝ × Kernel d :=
    match k.isWhite with
    | some _ => (Option.none, .white 0)
    | Option.none =>
      match k.zeroWhite with
      | some (v, k') => (some v, k')
      | Option.none => (Option.none, k)

/-- `fit`, gpr.py:166-220: the attribute `kernel` afterwards, `noise_` and `kernel_`.  `skFit` is scikit-learn's choice
of hyperparameters, which keeps the form of the kernel. -/
def gpFit (skFit : Kernel d → Kernel d) (kernel : Option (Kernel d)) (noise : Noise) :
    Except PyErr (Kernel d × Option ℝ × Kernel d) := do
  let k ← fitKernel kernel noise
  .ok (k, removeNoise noise (skFit k))

end

end Skopt

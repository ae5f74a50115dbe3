import Verif.Spec.Space
import Mathlib.Analysis.SpecialFunctions.Log.Base
import Mathlib.Analysis.SpecialFunctions.Pow.Real

/-!
# Specification vocabulary for floating-point arithmetic

`F` is the set of floating-point numbers, `val` the real number each of them stands for.  The description is the
standard model of rounding errors: relative error at most `u` per operation, absolute error at most `η` where results
can underflow, barring overflow.
-/

namespace Skopt

variable {F : Type}

/-- `A` is a floating-point arithmetic with unit roundoff `u` and underflow threshold `η`, in which integers up to `N`
are represented. -/
structure FloatLike [LinearOrder F] (A : Arith F) (val : F → ℝ) (u η : ℝ) (N : ℤ) : Prop where
  val_mono : StrictMono val
  mono : MonoArith A
  u_nonneg : 0 ≤ u
  u_small : u ≤ 1 / 1000
  η_nonneg : 0 ≤ η
  η_le : η ≤ u
  N_pos : 1 ≤ N
  ofInt_eq : ∀ k : ℤ, |k| ≤ N → val (A.ofInt k) = k
  add_err : ∀ x y, |val (A.add x y) - (val x + val y)| ≤ u * |val x + val y|
  sub_err : ∀ x y, |val (A.sub x y) - (val x - val y)| ≤ u * |val x - val y|
  mul_err : ∀ x y, |val (A.mul x y) - val x * val y| ≤ u * |val x * val y| + η
  div_err : ∀ x y, val y ≠ 0 → |val (A.div x y) - val x / val y| ≤ u * |val x / val y| + η
  log10_err : ∀ x, 0 < val x → |val (A.log10 x) - Real.logb 10 (val x)| ≤ u * |Real.logb 10 (val x)|
  pow_err : ∀ b x, 0 < val b → |val (A.pow b x) - val b ^ val x| ≤ u * val b ^ val x + η
  round_near : ∀ x (k : ℤ), |val x - k| < 1 / 2 → A.round x = k
  add_ge : ∀ x e, A.ofInt 0 ≤ e → x ≤ A.add x e
  sub_le : ∀ x e, A.ofInt 0 ≤ e → A.sub x e ≤ x
  eps_nonneg : A.ofInt 0 ≤ A.eps
  half_eq : val A.half = 1 / 2

/-- The larger absolute value of the two bounds. -/
noncomputable def boundsSize (val : F → ℝ) (low high : F) : ℝ := max |val low| |val high|

/-- The factor by which rounding errors are magnified by a logarithmic prior. -/
noncomputable def logSize (val : F → ℝ) (low high base : F) : ℝ :=
  60 * max |Real.log (val low)| |Real.log (val high)| + 12 * Real.log (val base) + 1

/-- How far a value `x` of a `Real` dimension may move in a round trip: not at all without a transform, by a few units
in the last place of the bounds when normalized, and by a relative error proportional to the logarithms of the bounds
with a logarithmic prior. -/
noncomputable def realError (val : F → ℝ) (u η : ℝ) (d : RealDim F) (x : F) : ℝ :=
  match d.prior with
  | .logUniform => u * logSize val d.low d.high d.base * val x + η
  | .uniform =>
    if d.transform = .normalize then 10 * u * boundsSize val d.low d.high + η * (4 * boundsSize val d.low d.high + 2)
    else 0

/-- The bounds are small enough, in comparison with the precision, for the encoding to tell neighbouring integers or
categories apart; logarithmic priors have positive bounds and a base above one. -/
def FinePrecision (val : F → ℝ) (u η : ℝ) (N : ℤ) : Dim F → Prop
  | .real d => (∀ x, d.cast x = x) ∧
      (d.prior = .logUniform → 0 < val d.low ∧ 1 < val d.base ∧ u * logSize val d.low d.high d.base ≤ 1)
  | .int d => boundsSize val d.low d.high < N ∧
      (d.prior = .uniform → u * (14 * boundsSize val d.low d.high + 2) < 1 / 2) ∧
      (d.prior = .logUniform → 0 < val d.low ∧ 1 < val d.base ∧
        u * logSize val d.low d.high d.base * val d.high + η < 1 / 2)
  | .cat d => (d.cats.length : ℤ) ≤ N ∧ u * (14 * d.cats.length + 2) < 1 / 2

/-- `w` is what a round trip may make of the value `v` of dimension `d`: the value itself for `Integer` and
`Categorical`, a number of the dimension within `realError` for `Real`. -/
def Recovered [LinearOrder F] (val : F → ℝ) (u η : ℝ) : Dim F → Val F → Val F → Prop
  | .real d, v, w => ∃ x y : F, v = .num x ∧ w = .num y ∧ d.low ≤ y ∧ y ≤ d.high ∧
      |val y - val x| ≤ realError val u η d x
  | _, v, w => w = v

end Skopt

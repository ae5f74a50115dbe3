import Verif.Model.Space
import Verif.Model.Exact
import Mathlib.Probability.ConditionalProbability
import Mathlib.MeasureTheory.Measure.Lebesgue.Basic
import Mathlib.MeasureTheory.Constructions.Pi

/-!
# The scipy distributions behind `rvs`, skopt/space/space.py:205-209, 284-324, 475-511, 623-659

Over the real numbers.  The pseudo-random generator is taken to deliver independent draws from the distributions it
is asked for.
-/

namespace Skopt

open MeasureTheory

/-- `_uniform_inclusive(loc=a, scale=b - a)`, space.py:205-209: uniform on the closed interval (`np.nextafter` is a
matter of floating point numbers). -/
noncomputable def uniformOn (a b : ℝ) : Measure ℝ := ProbabilityTheory.cond volume (Set.Icc a b)

/-- `scipy.stats.randint(low, high + 1)`, space.py:504: each of the integers from `low` to `high` with the same
probability. -/
noncomputable def randintLaw (l h : ℤ) : Measure ℝ :=
  ∑ k ∈ Finset.Icc l h, ENNReal.ofReal (1 / ((h : ℝ) - l + 1)) • Measure.dirac (k : ℝ)

/-- `scipy.stats.rv_discrete(values=(range(n), weights))`, space.py:655-658: the index `i` with probability
`weights[i]`. -/
noncomputable def discreteLaw (ws : List ℝ) : Measure ℝ :=
  ∑ i : Fin ws.length, ENNReal.ofReal ws[i] • Measure.dirac (i.val : ℝ)

/-- `self.prior_` of a `Categorical`, space.py:616-620. -/
noncomputable def CatDim.weights (c : CatDim ℝ) : List ℝ :=
  c.prior.getD (List.replicate c.cats.length (1 / (c.cats.length : ℝ)))

/-- `np.log10(x) / self.log_base`, space.py:312-323, 499-510. -/
noncomputable def lgb (base x : ℝ) : ℝ := Real.logb 10 x / Real.logb 10 base

/-- The distribution `self._rvs`: `Real` space.py:302-324, `Integer` 490-511, `Categorical` 653-659. -/
noncomputable def Dim.rawLaw : Dim ℝ → Measure ℝ
  | .real d => match d.transform, d.prior with
    | .normalize, _ => uniformOn 0 1
    | _, .uniform => uniformOn d.low d.high
    | _, .logUniform => uniformOn (lgb d.base d.low) (lgb d.base d.high)
  | .int d => match d.transform, d.prior with
    | .normalize, _ => uniformOn 0 1
    | _, .uniform => randintLaw ⌊d.low⌋ ⌊d.high⌋
    | _, .logUniform => uniformOn (lgb d.base d.low) (lgb d.base d.high)
  | .cat c => match c.transform with
    | .normalize => uniformOn 0 1
    | _ => discreteLaw c.weights

/-- One draw as the input of `Dim.rvs`; the index of a category is drawn as a number.
(skopt/space/space.py:144-158, 690-700) -/
noncomputable def rawOf (u : ℝ) : RawDraw ℝ := ⟨[u], [⌊u⌋₊]⟩

end Skopt

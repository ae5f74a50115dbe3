import Verif.Model.Sampler
import Verif.Props.Sampling

/-!
# C75: the distribution objects
-/

namespace Skopt

open MeasureTheory

/-- What scipy documents of the distribution objects: uniform on `[loc, loc + scale]`, the integers from `low` up to but
not including `high` with equal probabilities, the positions with the given (or equal) weights. -/
noncomputable def Sampler.law : Sampler ℝ → Measure ℝ
  | .uniform loc scale => uniformOn loc (loc + scale)
  | .randint low high => randintLaw ⌊low⌋ (⌊high⌋ - 1)
  | .discrete n ws => discreteLaw (ws.getD (List.replicate n (1 / (n : ℝ))))

/-- **C75 (distribution objects).** The distribution object a dimension creates has the distribution in terms of which
the other statements of C75 are made; in particular both bounds of an `Integer` can be drawn. -/
theorem C75_sampler_law (d : Dim ℝ) : (d.sampler exact).law = d.rawLaw := by
  cases d with
  | real r =>
    obtain ⟨l, h, prior, b, tr, nm, cast⟩ := r
    cases tr <;> cases prior <;> simp [Dim.sampler, Sampler.law, Dim.rawLaw, exact, lgb]
  | int r =>
    obtain ⟨l, h, prior, b, tr, nm, wrap⟩ := r
    cases tr <;> cases prior <;> simp [Dim.sampler, Sampler.law, Dim.rawLaw, exact, lgb]
  | cat c =>
    obtain ⟨cs, prior, tr, nm, c1, c2⟩ := c
    cases tr <;> simp [Dim.sampler, Sampler.law, Dim.rawLaw, exact, CatDim.weights]

/-- `Integer(1, 3)` with the identity transform draws 3 with probability one third. -/
example : ((Dim.int ⟨(1 : ℤ), (3 : ℤ), .uniform, 10, .identity, none, id⟩ : Dim ℝ).sampler exact).law {3} =
    ENNReal.ofReal (1 / 3) := by
  rw [C75_sampler_law]
  show randintLaw ⌊((1 : ℤ) : ℝ)⌋ ⌊((3 : ℤ) : ℝ)⌋ {3} = _
  rw [Int.floor_intCast, Int.floor_intCast]
  unfold randintLaw
  rw [Measure.finsetSum_apply, Finset.sum_eq_single 3]
  · rw [Measure.smul_apply, Measure.dirac_apply_of_mem (by norm_num), smul_eq_mul, mul_one]
    norm_num
  · intro k _ hk
    rw [Measure.smul_apply, smul_eq_mul, Measure.dirac_apply, Set.indicator_of_notMem, mul_zero]
    rw [Set.mem_singleton_iff]
    exact_mod_cast hk
  · intro h
    simp at h

end Skopt

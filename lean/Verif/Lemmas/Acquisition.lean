import Verif.Model.Acquisition
import Verif.Lemmas.Basic
import Verif.Spec.Acquisition
import Mathlib.Probability.Distributions.Gaussian.Real
import Mathlib.MeasureTheory.Integral.IntegralEqImproper

/-!
# The standard normal density and distribution function
-/

namespace Skopt

open MeasureTheory ProbabilityTheory Real Filter Topology

theorem normPdf_eq : normPdf = gaussianPDFReal 0 1 := by
  funext x
  simp only [normPdf, gaussianPDFReal, NNReal.coe_one, mul_one, sub_zero]
  rw [div_eq_inv_mul]

theorem normPdf_pos (x : ℝ) : 0 < normPdf x := by
  rw [normPdf_eq]
  exact gaussianPDFReal_pos _ _ _ one_ne_zero

theorem normPdf_continuous : Continuous normPdf := by
  unfold normPdf
  fun_prop

theorem normPdf_integrable : Integrable normPdf := by
  rw [normPdf_eq]
  exact integrable_gaussianPDFReal _ _

theorem normPdf_hasDerivAt (x : ℝ) : HasDerivAt normPdf (-x * normPdf x) x := by
  unfold normPdf
  have h1 : HasDerivAt (fun x : ℝ => -x ^ 2 / 2) (-x) x := by
    have := ((hasDerivAt_pow 2 x).neg).div_const 2
    exact this.congr_deriv (by norm_num; ring)
  exact (h1.exp.div_const (√(2 * π))).congr_deriv (by ring)

/-- The distribution function is the mass of the standard normal distribution below its argument. -/
theorem normCdf_eq (x : ℝ) : normCdf x = (gaussianReal 0 1).real (Set.Iic x) := by
  rw [Measure.real, gaussianReal_apply_eq_integral _ one_ne_zero,
    ENNReal.toReal_ofReal (setIntegral_nonneg measurableSet_Iic fun t _ => gaussianPDFReal_nonneg _ _ _),
    ← normPdf_eq]
  rfl

theorem normCdf_nonneg (x : ℝ) : 0 ≤ normCdf x := by
  rw [normCdf_eq]; exact measureReal_nonneg

theorem normCdf_le_one (x : ℝ) : normCdf x ≤ 1 := by
  rw [normCdf_eq]; exact measureReal_le_one

theorem normCdf_hasDerivAt (x : ℝ) : HasDerivAt normCdf (normPdf x) x := by
  have h : ∀ y, normCdf y = normCdf 0 + ∫ t in (0 : ℝ)..y, normPdf t := by
    intro y
    have := intervalIntegral.integral_Iic_sub_Iic (a := 0) (b := y) (f := normPdf) (μ := volume)
      normPdf_integrable.integrableOn normPdf_integrable.integrableOn
    unfold normCdf
    linarith
  have h2 : HasDerivAt (fun y => normCdf 0 + ∫ t in (0 : ℝ)..y, normPdf t) (normPdf x) x :=
    (intervalIntegral.integral_hasDerivAt_right normPdf_integrable.intervalIntegrable
      (normPdf_continuous.stronglyMeasurableAtFilter _ _) normPdf_continuous.continuousAt).const_add _
  exact h2.congr_of_eventuallyEq (Eventually.of_forall h)

theorem normCdf_strictMono : StrictMono normCdf :=
  strictMono_of_hasDerivAt_pos normCdf_hasDerivAt normPdf_pos

theorem normPdf_tendsto_atBot : Tendsto normPdf atBot (𝓝 0) := by
  unfold normPdf
  have h : Tendsto (fun x : ℝ => -x ^ 2 / 2) atBot atBot := by
    have h1 : Tendsto (fun x : ℝ => x ^ 2) atBot atTop := by
      have := (tendsto_pow_atTop (α := ℝ) (n := 2) two_ne_zero).comp tendsto_neg_atBot_atTop
      refine this.congr fun x => ?_
      simp
    have h2 := (tendsto_neg_atTop_atBot.comp h1)
    exact h2.atBot_div_const (by norm_num)
  have := (tendsto_exp_atBot.comp h).div_const (√(2 * π))
  simpa using this

theorem mul_normPdf_integrable : Integrable fun x => x * normPdf x := by
  have := integrable_mul_exp_neg_mul_sq (b := 1 / 2) (by norm_num)
  refine (this.div_const (√(2 * π))).congr (Eventually.of_forall fun x => ?_)
  simp only [normPdf]
  rw [mul_div_assoc]
  congr 3
  ring

/-- `∫_{-∞}^t z φ(z) dz = -φ(t)`. -/
theorem integral_mul_normPdf (t : ℝ) : ∫ z in Set.Iic t, z * normPdf z = -normPdf t := by
  have h := integral_Iic_of_hasDerivAt_of_tendsto (f := fun z => -normPdf z) (f' := fun z => z * normPdf z)
    (a := t) (m := 0) (normPdf_continuous.neg.continuousWithinAt)
    (fun x _ => (normPdf_hasDerivAt x).neg.congr_deriv (by ring))
    mul_normPdf_integrable.integrableOn (by simpa using normPdf_tendsto_atBot.neg)
  simpa using h

/-- Expected shortfall of the standard normal distribution below `t`. -/
theorem integral_shortfall (t : ℝ) :
    ∫ z, max (t - z) 0 ∂(gaussianReal 0 1) = t * normCdf t + normPdf t := by
  rw [integral_gaussianReal_eq_integral_smul one_ne_zero, ← normPdf_eq]
  have e : (fun z => normPdf z • max (t - z) 0) =
      Set.indicator (Set.Iic t) fun z => t * normPdf z - z * normPdf z := by
    funext z
    by_cases hz : z ≤ t
    · rw [Set.indicator_of_mem (Set.mem_Iic.2 hz), max_eq_left (by linarith), smul_eq_mul]
      ring
    · rw [Set.indicator_of_notMem (by simpa using hz), max_eq_right (by linarith), smul_zero]
  rw [e, integral_indicator measurableSet_Iic, integral_sub
    (normPdf_integrable.integrableOn.const_mul t) mul_normPdf_integrable.integrableOn, integral_mul_normPdf,
    integral_const_mul]
  unfold normCdf
  ring

/-- The predictive distribution is the standard one, scaled and shifted. -/
theorem predictive_map (m : ℝ) {s : ℝ} :
    predictive m s = (gaussianReal 0 1).map fun z => s * z + m := by
  have h1 := gaussianReal_map_const_mul (μ := 0) (v := 1) s
  have h2 := gaussianReal_map_add_const (μ := s * 0) (v := (NNReal.mk (s ^ 2) (sq_nonneg s)) * 1) m
  rw [← h1, Measure.map_map (by fun_prop) (by fun_prop)] at h2
  rw [mul_zero, zero_add, mul_one] at h2
  exact h2.symm

/-- The closed form of the expected improvement. -/
theorem expectedImprovement_eq (c m : ℝ) {s : ℝ} (hs : 0 < s) :
    expectedImprovement c m s = (c - m) * normCdf ((c - m) / s) + s * normPdf ((c - m) / s) := by
  unfold expectedImprovement
  rw [predictive_map, integral_map (by fun_prop) (by fun_prop)]
  have e : (fun z => max (c - (s * z + m)) 0) = fun z => s * max ((c - m) / s - z) 0 := by
    funext z
    rw [mul_max_of_nonneg _ _ hs.le, mul_zero]
    congr 1
    field_simp
    ring
  rw [e, integral_const_mul, integral_shortfall]
  field_simp

/-- The closed form of the probability of improvement. -/
theorem improvementProbability_eq (c m : ℝ) {s : ℝ} (hs : 0 < s) :
    improvementProbability c m s = normCdf ((c - m) / s) := by
  unfold improvementProbability
  have hn : ((NNReal.mk (s ^ 2) (sq_nonneg s)) : NNReal) ≠ 0 := by
    intro h
    have := congrArg NNReal.toReal h
    simp only [NNReal.coe_mk, NNReal.coe_zero] at this
    exact hs.ne' (pow_eq_zero_iff two_ne_zero |>.1 this)
  have hac : (predictive m s).real (Set.Iio c) = (predictive m s).real (Set.Iic c) := by
    have : NullSingletonClass (predictive m s) := nullSingletonClass_gaussianReal (μ := m) hn
    unfold Measure.real
    congr 1
    exact measure_congr Iio_ae_eq_Iic
  rw [hac, normCdf_eq, predictive_map, map_measureReal_apply (by fun_prop) measurableSet_Iic]
  congr 1
  ext z
  simp only [Set.mem_preimage, Set.mem_Iic]
  rw [le_div_iff₀ hs]
  constructor <;> intro h <;> linarith

theorem expectedRate_eq (m s : ℝ) : expectedRate m s = exp (-m + 0.5 * s ^ 2) := by
  unfold expectedRate predictive
  have := congrFun (mgf_id_gaussianReal (μ := m) (v := (NNReal.mk (s ^ 2) (sq_nonneg s)))) (-1)
  unfold mgf at this
  simp only [id, neg_mul, one_mul, NNReal.coe_mk] at this
  simp only [← exp_neg]
  rw [this]
  congr 1
  ring

/-! ## Masks -/

theorem maskAssign_map (f : ℝ → ℝ → ℝ) (mu std : List ℝ) :
    maskAssign (stdMask std) (List.zipWith f (maskSelect (stdMask std) mu) (maskSelect (stdMask std) std)) =
      List.zipWith (fun m s => if 0 < s then f m s else 0) mu std ++
        List.replicate (std.length - mu.length) 0 := by
  induction std generalizing mu with
  | nil => cases mu <;> simp [stdMask, maskAssign, maskSelect]
  | cons s std ih =>
    cases mu with
    | nil =>
      have : ∀ ms : List Bool, maskAssign ms [] = List.replicate ms.length 0 := by
        intro ms
        induction ms with
        | nil => rfl
        | cons b ms ih => cases b <;> simp [maskAssign, ih, List.replicate_succ]
      have h0 : ∀ ms : List Bool, maskSelect ms ([] : List ℝ) = [] := by
        intro ms
        cases ms with
        | nil => rfl
        | cons b ms => cases b <;> rfl
      rw [h0, List.zipWith_nil_left, this]
      simp [stdMask]
    | cons m mu =>
      have ih' := ih mu
      unfold stdMask at ih' ⊢
      by_cases hs : 0 < s
      · simp [hs, maskSelect, maskAssign, ih']
      · simp [hs, maskSelect, maskAssign, ih']

end Skopt

import Verif.Props.GpCertainty
import Verif.Spec.Acquisition
import Mathlib.Probability.Distributions.Gaussian.IsGaussianProcess.Basic
import Mathlib.Probability.Distributions.Gaussian.HasGaussianLaw.Independence
import Mathlib.Probability.Moments.Covariance

/-!
# Lemmas for C121: the residual of the Gaussian process is independent of the observations
-/

namespace Skopt

open Matrix MeasureTheory ProbabilityTheory
open scoped ENNReal

variable {n d : Nat} {Ω : Type} [MeasurableSpace Ω]

/-! ## Specification -/

/-- The objective `f` is a sample of the Gaussian process with the kernel of the surrogate, the mean `y_train_mean_` and
the spread `y_train_std_`, and the noise `e` of the observations is normal, independent of it and from observation to
observation, with the variances `nz` in units of the squared spread. -/
structure SampleOf (P : Measure Ω) (g : Gp n d) (nz : Fin n → ℝ) (f : (Fin d → ℝ) → Ω → ℝ) (e : Fin n → Ω → ℝ) : Prop where
  gaussian : IsGaussianProcess (Sum.elim f e) P
  mean : ∀ x, ∫ ω, f x ω ∂P = g.yMean
  noiseMean : ∀ i, ∫ ω, e i ω ∂P = 0
  covariance : ∀ x y, cov[f x, f y; P] = g.yStd ^ 2 * g.kernel.value x y
  uncorrelated : ∀ x i, cov[f x, e i; P] = 0
  noise : ∀ i j, cov[e i, e j; P] = if i = j then g.yStd ^ 2 * nz i else 0

/-- The observed values: the objective at the training points plus noise. -/
def observed (g : Gp n d) (f : (Fin d → ℝ) → Ω → ℝ) (e : Fin n → Ω → ℝ) (ω : Ω) : Fin n → ℝ :=
  fun i => f (g.X i) ω + e i ω

/-- The surrogate fitted to the values `y`: the dual coefficients solve the linear system of the training covariance
for the normalised values (gpr.py:195, where scikit-learn's `fit` computes `alpha_`; `y_train_mean_` and `y_train_std_`
are kept fixed). -/
noncomputable def Gp.fittedTo (g : Gp n d) (K : Matrix (Fin n) (Fin n) ℝ) (y : Fin n → ℝ) : Gp n d :=
  { g with alpha := K⁻¹ *ᵥ fun i => (y i - g.yMean) / g.yStd }

/-! ## Lemmas -/

/-- The weights of the observations in the prediction. -/
noncomputable def gpWeights (g : Gp n d) (K : Matrix (Fin n) (Fin n) ℝ) (x : Fin d → ℝ) : Fin n → ℝ :=
  K⁻¹ *ᵥ g.kTrans x

theorem fittedTo_mean {g : Gp n d} {K : Matrix (Fin n) (Fin n) ℝ} (h : Factored g K) (hs : g.yStd ≠ 0)
    (x : Fin d → ℝ) (y : Fin n → ℝ) :
    (g.fittedTo K y).mean x = g.yMean + ∑ i, gpWeights g K x i * (y i - g.yMean) := by
  have hsymm : (K⁻¹)ᵀ = K⁻¹ := by rw [transpose_nonsing_inv, h.symm]
  have e1 : (g.fittedTo K y).mean x =
      g.yStd * (g.kTrans x ⬝ᵥ (K⁻¹ *ᵥ fun i => (y i - g.yMean) / g.yStd)) + g.yMean := rfl
  have e2 : g.kTrans x ⬝ᵥ (K⁻¹ *ᵥ fun i => (y i - g.yMean) / g.yStd) =
      ∑ i, gpWeights g K x i * ((y i - g.yMean) / g.yStd) := by
    rw [dotProduct_mulVec, ← mulVec_transpose, hsymm]
    rfl
  rw [e1, e2, Finset.mul_sum, add_comm]
  congr 1
  refine Finset.sum_congr rfl fun i _ => ?_
  field_simp

theorem gpWeights_solve {g : Gp n d} {K : Matrix (Fin n) (Fin n) ℝ} (h : Factored g K) (x : Fin d → ℝ) (j : Fin n) :
    ∑ i, gpWeights g K x i * K j i = g.kTrans x j := by
  have : K *ᵥ gpWeights g K x = g.kTrans x := by
    rw [gpWeights, mulVec_mulVec, mul_nonsing_inv _ h.unit, one_mulVec]
  rw [← congrFun this j]
  simp only [mulVec, dotProduct]
  exact Finset.sum_congr rfl fun i _ => mul_comm _ _

/-- What is left of the objective at `x` when the prediction is subtracted. -/
noncomputable def residual (g : Gp n d) (K : Matrix (Fin n) (Fin n) ℝ) (f : (Fin d → ℝ) → Ω → ℝ) (e : Fin n → Ω → ℝ)
    (x : Fin d → ℝ) (ω : Ω) : ℝ :=
  f x ω - (g.fittedTo K (observed g f e ω)).mean x

section
variable {P : Measure Ω} {g : Gp n d} {nz : Fin n → ℝ} {f : (Fin d → ℝ) → Ω → ℝ} {e : Fin n → Ω → ℝ}
  {K : Matrix (Fin n) (Fin n) ℝ}

theorem SampleOf.law (h : SampleOf P g nz f e) (t : (Fin d → ℝ) ⊕ Fin n) : HasGaussianLaw (Sum.elim f e t) P :=
  h.gaussian.hasGaussianLaw_eval t

theorem SampleOf.memF (h : SampleOf P g nz f e) (x : Fin d → ℝ) : MemLp (f x) 2 P := (h.law (.inl x)).memLp_two
theorem SampleOf.memE (h : SampleOf P g nz f e) (i : Fin n) : MemLp (e i) 2 P := (h.law (.inr i)).memLp_two

theorem SampleOf.memY (h : SampleOf P g nz f e) (i : Fin n) : MemLp (fun ω => observed g f e ω i) 2 P :=
  (h.memF _).add (h.memE i)

omit [MeasurableSpace Ω] in
theorem residual_eq (hK : Factored g K) (hs : g.yStd ≠ 0) (x : Fin d → ℝ) (ω : Ω) :
    residual g K f e x ω = (f x ω - ∑ i, gpWeights g K x i * observed g f e ω i) -
      (g.yMean - ∑ i, gpWeights g K x i * g.yMean) := by
  rw [residual, fittedTo_mean hK hs]
  simp only [mul_sub, Finset.sum_sub_distrib]
  ring

theorem SampleOf.covFY (h : SampleOf P g nz f e) (x : Fin d → ℝ) (i : Fin n) :
    cov[f x, fun ω => observed g f e ω i; P] = g.yStd ^ 2 * g.kTrans x i := by
  have := h.gaussian.isProbabilityMeasure
  have e1 := covariance_add_right (μ := P) (h.memF x) (h.memF (g.X i)) (h.memE i)
  have e2 : (fun ω => observed g f e ω i) = f (g.X i) + e i := rfl
  rw [e2, e1, h.covariance, h.uncorrelated, add_zero]
  rfl

theorem SampleOf.covYY (h : SampleOf P g nz f e) (hK : NoisyCov g K nz) (i j : Fin n) :
    cov[fun ω => observed g f e ω i, fun ω => observed g f e ω j; P] = g.yStd ^ 2 * K i j := by
  have := h.gaussian.isProbabilityMeasure
  have e2 : (fun ω => observed g f e ω i) = f (g.X i) + e i := rfl
  have e1 := covariance_add_left (μ := P) (h.memF (g.X i)) (h.memE i) (h.memY j)
  have e3 : (fun ω => observed g f e ω j) = f (g.X j) + e j := rfl
  have e4 := covariance_add_right (μ := P) (h.memE i) (h.memF (g.X j)) (h.memE j)
  rw [e2, e1, h.covFY, e3, e4, covariance_comm (e i), h.uncorrelated, h.noise, hK i j, Gp.kTrans]
  split <;> ring

/-- The residual without its constant part. -/
theorem residual_cov_right (h : SampleOf P g nz f e) (hK : Factored g K) (hs : g.yStd ≠ 0) (x : Fin d → ℝ)
    {Z : Ω → ℝ} (hZ : MemLp Z 2 P) :
    cov[Z, residual g K f e x; P] =
      cov[Z, f x; P] - ∑ i, gpWeights g K x i * cov[Z, fun ω => observed g f e ω i; P] := by
  have := h.gaussian.isProbabilityMeasure
  have e1 : residual g K f e x = fun ω => (f x ω - ∑ i, gpWeights g K x i * observed g f e ω i) -
      (g.yMean - ∑ i, gpWeights g K x i * g.yMean) := funext fun ω => residual_eq hK hs x ω
  have hm : ∀ i, MemLp (fun ω => gpWeights g K x i * observed g f e ω i) 2 P := fun i => (h.memY i).const_mul _
  have hsum : MemLp (fun ω => ∑ i, gpWeights g K x i * observed g f e ω i) 2 P :=
    memLp_finsetSum _ fun i _ => hm i
  have hi : Integrable (fun ω => f x ω - ∑ i, gpWeights g K x i * observed g f e ω i) P :=
    ((h.memF x).sub hsum).integrable (by norm_num)
  rw [e1, covariance_sub_const_right hi,
    covariance_fun_sub_right hZ (h.memF x) hsum, covariance_fun_sum_right hm hZ]
  congr 1
  exact Finset.sum_congr rfl fun i _ => covariance_const_mul_right _

theorem residual_memLp (h : SampleOf P g nz f e) (hK : Factored g K) (hs : g.yStd ≠ 0) (x : Fin d → ℝ) :
    MemLp (residual g K f e x) 2 P := by
  have := h.gaussian.isProbabilityMeasure
  have e1 : residual g K f e x = fun ω => (f x ω - ∑ i, gpWeights g K x i * observed g f e ω i) -
      (g.yMean - ∑ i, gpWeights g K x i * g.yMean) := funext fun ω => residual_eq hK hs x ω
  rw [e1]
  exact ((h.memF x).sub (memLp_finsetSum _ fun i _ => (h.memY i).const_mul _)).sub (memLp_const _)

theorem residual_mean (h : SampleOf P g nz f e) (hK : Factored g K) (hs : g.yStd ≠ 0) (x : Fin d → ℝ) :
    ∫ ω, residual g K f e x ω ∂P = 0 := by
  have := h.gaussian.isProbabilityMeasure
  have hi : ∀ i, Integrable (fun ω => observed g f e ω i) P := fun i => (h.memY i).integrable (by norm_num)
  have hY : ∀ i, ∫ ω, observed g f e ω i ∂P = g.yMean := by
    intro i
    have := integral_add (μ := P) ((h.memF (g.X i)).integrable (by norm_num)) ((h.memE i).integrable (by norm_num))
    rw [h.mean, h.noiseMean, add_zero] at this
    exact this
  simp only [residual_eq hK hs x]
  rw [integral_sub, integral_sub, integral_finsetSum, h.mean, integral_const]
  · simp only [integral_const_mul, hY]
    simp
  · exact fun i _ => (hi i).const_mul _
  · exact (h.memF x).integrable (by norm_num)
  · exact integrable_finsetSum _ fun i _ => (hi i).const_mul _
  · exact ((h.memF x).integrable (by norm_num)).sub (integrable_finsetSum _ fun i _ => (hi i).const_mul _)
  · exact integrable_const _

theorem cov_observed_residual (h : SampleOf P g nz f e) (hK : Factored g K) (hN : NoisyCov g K nz) (hs : g.yStd ≠ 0)
    (x : Fin d → ℝ) (j : Fin n) : cov[fun ω => observed g f e ω j, residual g K f e x; P] = 0 := by
  rw [residual_cov_right h hK hs x (h.memY j), covariance_comm, h.covFY]
  simp only [h.covYY hN]
  rw [← gpWeights_solve hK x j, Finset.mul_sum, ← Finset.sum_sub_distrib]
  exact Finset.sum_eq_zero fun i _ => by ring

theorem cov_residual_residual (h : SampleOf P g nz f e) (hK : Factored g K) (hN : NoisyCov g K nz) (hs : g.yStd ≠ 0)
    (x y : Fin d → ℝ) :
    cov[residual g K f e x, residual g K f e y; P] =
      (g.kernel.value x y - ∑ a, g.kTrans x a * ((g.L * g.L.transpose)⁻¹).mulVec (g.kTrans y) a) * g.yStd ^ 2 := by
  rw [covariance_comm, residual_cov_right h hK hs x (residual_memLp h hK hs y)]
  have e1 : ∀ i, cov[residual g K f e y, fun ω => observed g f e ω i; P] = 0 := by
    intro i; rw [covariance_comm]; exact cov_observed_residual h hK hN hs y i
  simp only [e1, mul_zero, Finset.sum_const_zero, sub_zero]
  rw [covariance_comm, residual_cov_right h hK hs y (h.memF x), h.covariance]
  simp only [h.covFY]
  rw [hK.1, sub_mul, Finset.sum_mul]
  congr 1
  · ring
  · exact Finset.sum_congr rfl fun i _ => by rw [gpWeights]; ring

/-- The observations and the residuals at any points are jointly Gaussian. -/
theorem joint_law (h : SampleOf P g nz f e) (hK : Factored g K) (hs : g.yStd ≠ 0) {m : Nat} (xs : Fin m → Fin d → ℝ) :
    HasGaussianLaw (fun ω => (fun i => observed g f e ω i, fun j => residual g K f e (xs j) ω)) P := by
  classical
  have := h.gaussian.isProbabilityMeasure
  let I : Finset ((Fin d → ℝ) ⊕ Fin n) :=
    Finset.univ.image (fun i => Sum.inl (g.X i)) ∪ Finset.univ.image (fun i : Fin n => Sum.inr i) ∪
      Finset.univ.image fun j => Sum.inl (xs j)
  have hX : ∀ i, Sum.inl (g.X i) ∈ I := fun i => by simp [I]
  have hE : ∀ i : Fin n, Sum.inr i ∈ I := fun i => by simp [I]
  have hF : ∀ j, Sum.inl (xs j) ∈ I := fun j => by simp [I]
  let L : (I → ℝ) →ₗ[ℝ] (Fin n → ℝ) × (Fin m → ℝ) :=
    { toFun := fun v => (fun i => v ⟨_, hX i⟩ + v ⟨_, hE i⟩,
        fun j => v ⟨_, hF j⟩ - ∑ i, gpWeights g K (xs j) i * (v ⟨_, hX i⟩ + v ⟨_, hE i⟩))
      map_add' := by
        intro u v
        refine Prod.ext (funext fun i => ?_) (funext fun j => ?_)
        · simp only [Pi.add_apply, Prod.fst_add]; ring
        · simp only [Pi.add_apply, Prod.snd_add]
          rw [sub_add_sub_comm, ← Finset.sum_add_distrib]
          congr 1
          exact Finset.sum_congr rfl fun i _ => by ring
      map_smul' := by
        intro c v
        refine Prod.ext (funext fun i => ?_) (funext fun j => ?_)
        · simp only [Pi.smul_apply, Prod.smul_fst, smul_eq_mul, RingHom.id_apply]; ring
        · simp only [Pi.smul_apply, Prod.smul_snd, smul_eq_mul, RingHom.id_apply]
          rw [mul_sub, Finset.mul_sum]
          congr 1
          exact Finset.sum_congr rfl fun i _ => by ring }
  have h1 := (h.gaussian.hasGaussianLaw I).map (LinearMap.toContinuousLinearMap L)
  have h2 : IsGaussian ((P.map (LinearMap.toContinuousLinearMap L ∘ fun ω => I.restrict (Sum.elim f e · ω))).map
      (fun v => v + (0, fun j => -(g.yMean - ∑ i, gpWeights g K (xs j) i * g.yMean)))) := by
    have := h1.isGaussian_map
    infer_instance
  refine ⟨?_⟩
  rw [AEMeasurable.map_map_of_aemeasurable (by fun_prop) h1.aemeasurable] at h2
  convert h2 using 2
  funext ω
  refine Prod.ext (funext fun i => ?_) (funext fun j => ?_)
  · simp [L, observed, Finset.restrict]
  · simp [L, residual_eq hK hs, observed, Finset.restrict]
    ring

theorem std_sq (h : SampleOf P g nz f e) (hK : Factored g K) (hN : NoisyCov g K nz) (hs : g.yStd ≠ 0) (x : Fin d → ℝ)
    (hdiag : g.kernel.diag x = g.kernel.value x x) : Var[residual g K f e x; P] = g.std x ^ 2 := by
  have := h.gaussian.isProbabilityMeasure
  have e1 : Var[residual g K f e x; P] = g.rawVar x * g.yStd ^ 2 := by
    rw [← covariance_self (residual_memLp h hK hs x).aestronglyMeasurable.aemeasurable,
      cov_residual_residual h hK hN hs, ← hdiag, Gp.rawVar, quad_form, Kinv_eq]
    rfl
  have h0 : 0 ≤ g.rawVar x := by
    have h1 := variance_nonneg (residual g K f e x) P
    rw [e1] at h1
    exact nonneg_of_mul_nonneg_left h1 (by positivity)
  rw [e1, Gp.std, if_neg (not_lt.2 h0), Real.sq_sqrt (by positivity)]

/-- The residual at a point is independent of the observations and normal with the predicted standard deviation. -/
theorem residual_independent (h : SampleOf P g nz f e) (hK : Factored g K) (hN : NoisyCov g K nz) (hs : g.yStd ≠ 0)
    (x : Fin d → ℝ) (hdiag : g.kernel.diag x = g.kernel.value x x) :
    P.map (fun ω => (observed g f e ω, residual g K f e x ω)) =
      (P.map (observed g f e)).prod (predictive 0 (g.std x)) := by
  have := h.gaussian.isProbabilityMeasure
  have hj := joint_law h hK hs (fun _ : Fin 1 => x)
  have hind := hj.indepFun_of_covariance_eval (X := fun i ω => observed g f e ω i)
    (Y := fun _ ω => residual g K f e x ω) fun i _ => cov_observed_residual h hK hN hs x i
  have hind' : IndepFun (observed g f e) (residual g K f e x) P :=
    hind.comp measurable_id (measurable_pi_apply (0 : Fin 1))
  have hr : HasGaussianLaw (residual g K f e x) P := hj.snd.eval (X := fun _ ω => residual g K f e x ω) 0
  have hy : AEMeasurable (observed g f e) P := hj.fst.aemeasurable
  rw [(indepFun_iff_map_prod_eq_prod_map_map hy hr.aemeasurable).1 hind', hr.map_eq_gaussianReal,
    residual_mean h hK hs, std_sq h hK hN hs x hdiag]
  congr 2
  rw [Real.toNNReal_of_nonneg (sq_nonneg _)]

end

/-- Averages of functions of the data and the objective at a point are computed with the predictive distribution. -/
theorem posterior_lintegral {P : Measure Ω} {g : Gp n d} {nz : Fin n → ℝ} {f : (Fin d → ℝ) → Ω → ℝ} {e : Fin n → Ω → ℝ}
    {K : Matrix (Fin n) (Fin n) ℝ} (h : SampleOf P g nz f e) (hK : Factored g K) (hN : NoisyCov g K nz) (hs : g.yStd ≠ 0)
    (x : Fin d → ℝ) (hdiag : g.kernel.diag x = g.kernel.value x x) (F : (Fin n → ℝ) × ℝ → ℝ≥0∞) (hF : Measurable F) :
    ∫⁻ ω, F (observed g f e ω, f x ω) ∂P =
      ∫⁻ ω, ∫⁻ z, F (observed g f e ω, z) ∂(predictive ((g.fittedTo K (observed g f e ω)).mean x) (g.std x)) ∂P := by
  have := h.gaussian.isProbabilityMeasure
  have hj := joint_law h hK hs (fun _ : Fin 1 => x)
  have hr : HasGaussianLaw (residual g K f e x) P := hj.snd.eval (X := fun _ ω => residual g K f e x ω) 0
  have hy : AEMeasurable (observed g f e) P := hj.fst.aemeasurable
  have hmean : Measurable fun y : Fin n → ℝ => (g.fittedTo K y).mean x := by
    simp only [fittedTo_mean hK hs]
    fun_prop
  have hF' : Measurable fun q : (Fin n → ℝ) × ℝ => F (q.1, q.2 + (g.fittedTo K q.1).mean x) := by
    exact hF.comp (measurable_fst.prodMk (measurable_snd.add (hmean.comp measurable_fst)))
  have e1 : ∀ ω, F (observed g f e ω, f x ω) =
      (fun q : (Fin n → ℝ) × ℝ => F (q.1, q.2 + (g.fittedTo K q.1).mean x)) (observed g f e ω, residual g K f e x ω) := by
    intro ω
    simp only [residual, sub_add_cancel]
  simp only [e1]
  rw [← lintegral_map' (f := fun q : (Fin n → ℝ) × ℝ => F (q.1, q.2 + (g.fittedTo K q.1).mean x))
    hF'.aemeasurable (hy.prodMk hr.aemeasurable), residual_independent h hK hN hs x hdiag]
  have : IsProbabilityMeasure (predictive 0 (g.std x)) := by unfold predictive; infer_instance
  rw [lintegral_prod _ hF'.aemeasurable, lintegral_map' _ hy]
  · refine lintegral_congr fun ω => ?_
    have e2 : predictive ((g.fittedTo K (observed g f e ω)).mean x) (g.std x) =
        (predictive 0 (g.std x)).map (fun r => r + (g.fittedTo K (observed g f e ω)).mean x) := by
      unfold predictive
      rw [gaussianReal_map_add_const, zero_add]
    have hz : Measurable fun z => F (observed g f e ω, z) := hF.comp (measurable_const.prodMk measurable_id)
    rw [e2, lintegral_map hz (by fun_prop)]
  · exact hF'.lintegral_prod_right'.aemeasurable

theorem predictive_memLp (m s : ℝ) : MemLp (fun z : ℝ => z) 2 (predictive m s) := by
  unfold predictive
  exact memLp_id_gaussianReal 2

/-- The mean squared distance of a normal number from `c`. -/
theorem predictive_square (m s c : ℝ) :
    ∫⁻ z, ENNReal.ofReal ((z - c) ^ 2) ∂(predictive m s) = ENNReal.ofReal (s ^ 2 + (m - c) ^ 2) := by
  have : IsProbabilityMeasure (predictive m s) := by unfold predictive; infer_instance
  have hm : MemLp (fun z : ℝ => z - c) 2 (predictive m s) := (predictive_memLp m s).sub (memLp_const c)
  rw [← ofReal_integral_eq_lintegral_ofReal hm.integrable_sq (.of_forall fun z => sq_nonneg _)]
  congr 1
  have h1 := variance_eq_sub hm
  have h2 : ∫ z, z ∂(predictive m s) = m := by unfold predictive; exact integral_id_gaussianReal
  have h3 : Var[fun z : ℝ => z; predictive m s] = s ^ 2 := by
    unfold predictive; exact variance_fun_id_gaussianReal
  have h4 : ∫ z, (z - c) ∂(predictive m s) = m - c := by
    rw [integral_sub ((predictive_memLp m s).integrable (by norm_num)) (integrable_const _), h2]
    simp
  rw [variance_sub_const (predictive_memLp m s).aestronglyMeasurable, h3, h4] at h1
  have h5 : ∫ z, ((fun z : ℝ => z - c) ^ 2) z ∂(predictive m s) = ∫ z, (z - c) ^ 2 ∂(predictive m s) := rfl
  rw [h5] at h1
  linarith

/-- The expected improvement as an average of non-negative numbers. -/
theorem predictive_improvement (c m s : ℝ) :
    ∫⁻ z, ENNReal.ofReal (max (c - z) 0) ∂(predictive m s) = ENNReal.ofReal (expectedImprovement c m s) := by
  have : IsProbabilityMeasure (predictive m s) := by unfold predictive; infer_instance
  have hi : Integrable (fun z : ℝ => c - z) (predictive m s) :=
    (integrable_const c).sub ((predictive_memLp m s).integrable (by norm_num))
  rw [expectedImprovement, ofReal_integral_eq_lintegral_ofReal hi.pos_part (.of_forall fun z => le_max_right _ _)]

end Skopt

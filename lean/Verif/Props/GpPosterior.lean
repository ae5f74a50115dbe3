import Verif.Lemmas.GpPosterior
import Verif.Props.GpPrior

/-!
# C121: the predictions of the Gaussian process are the conditional distribution given the observations
-/

namespace Skopt

open Matrix MeasureTheory ProbabilityTheory
open scoped ENNReal

variable {n d : Nat} {Ω : Type} [MeasurableSpace Ω]

/-! ## The property -/

/-- The surrogate's answer at `x`, whatever values it is fitted to: mean and standard deviation as returned by
`predict(X, return_std=True)`. -/
def PredictsFor (g : Gp n d) (K : Matrix (Fin n) (Fin n) ℝ) (x : Fin d → ℝ) (μ : (Fin n → ℝ) → ℝ) (s : ℝ) : Prop :=
  ∀ y, ∃ p, (g.fittedTo K y).predict { std := true } [x] = .ok p ∧ p.mean = [μ y] ∧ p.std = some [s]

theorem PredictsFor.eq {g : Gp n d} {K : Matrix (Fin n) (Fin n) ℝ} {x : Fin d → ℝ} {μ : (Fin n → ℝ) → ℝ} {s : ℝ}
    (h : PredictsFor g K x μ s) : (∀ y, μ y = (g.fittedTo K y).mean x) ∧ s = g.std x := by
  have key : ∀ y, (g.fittedTo K y).mean x = μ y ∧ g.std x = s := by
    intro y
    obtain ⟨p, h1, h2, h3⟩ := h y
    have e : (g.fittedTo K y).predict { std := true } [x] =
      .ok { mean := [(g.fittedTo K y).mean x], std := some [(g.fittedTo K y).std x] } := rfl
    rw [e] at h1
    injection h1 with h1
    subst h1
    simp only [List.cons.injEq, and_true, Option.some.injEq] at h2 h3
    exact ⟨h2, h3⟩
  exact ⟨fun y => (key y).1.symm, (key 0).2.symm⟩

section
variable (P : Measure Ω) (g : Gp n d) (nz : Fin n → ℝ) (f : (Fin d → ℝ) → Ω → ℝ) (e : Fin n → Ω → ℝ)
  (K : Matrix (Fin n) (Fin n) ℝ) (h : SampleOf P g nz f e) (hK : Factored g K) (hN : NoisyCov g K nz) (hs : g.yStd ≠ 0)
  (x : Fin d → ℝ) (hk : Noiseless g.kernel) (μ : (Fin n → ℝ) → ℝ) (s : ℝ) (ha : PredictsFor g K x μ s)
include h hK hN hs hk ha

/-- **C121.** If the objective is a sample of the process, then given the observations its value at any point is
normally distributed with the predicted mean and standard deviation: whatever is said about the data and the value, its
probability is the average over the data of the probability under the prediction. -/
theorem C121_posterior (A : Set ((Fin n → ℝ) × ℝ)) (hA : MeasurableSet A) :
    P {ω | (observed g f e ω, f x ω) ∈ A} =
      ∫⁻ ω, predictive (μ (observed g f e ω)) s {z | (observed g f e ω, z) ∈ A} ∂P := by
  obtain ⟨hμ, rfl⟩ := ha.eq
  have hj := joint_law h hK hs (fun _ : Fin 1 => x)
  have hy : AEMeasurable (observed g f e) P := hj.fst.aemeasurable
  have hfx : AEMeasurable (f x) P := (h.law (.inl x)).aemeasurable
  have key := posterior_lintegral h hK hN hs x (C57_prior_variance _ hk x).1 (A.indicator 1) (measurable_one.indicator hA)
  have hz : ∀ ω, ∫⁻ z, A.indicator (1 : (Fin n → ℝ) × ℝ → ℝ≥0∞) (observed g f e ω, z)
      ∂(predictive ((g.fittedTo K (observed g f e ω)).mean x) (g.std x)) =
      predictive (μ (observed g f e ω)) (g.std x) {z | (observed g f e ω, z) ∈ A} := by
    intro ω
    have hm : MeasurableSet {z : ℝ | (observed g f e ω, z) ∈ A} := measurable_prodMk_left hA
    rw [hμ, ← lintegral_indicator_one hm]
    rfl
  simp only [hz] at key
  have hn : NullMeasurableSet {ω | (observed g f e ω, f x ω) ∈ A} P := (hy.prodMk hfx).nullMeasurable hA
  rw [← key, ← lintegral_indicator_one₀ hn]
  rfl

/-- **C121.** Credible intervals hold the value with the stated probability: the error of the prediction in units of the
predicted standard deviation is standard normal. -/
theorem C121_interval (hpos : 0 < s) (S : Set ℝ) (hS : MeasurableSet S) :
    P {ω | (f x ω - μ (observed g f e ω)) / s ∈ S} = gaussianReal 0 1 S := by
  obtain ⟨hμ, rfl⟩ := ha.eq
  have := h.gaussian.isProbabilityMeasure
  have hj := joint_law h hK hs (fun _ : Fin 1 => x)
  have hr : HasGaussianLaw (residual g K f e x) P := hj.snd.eval (X := fun _ ω => residual g K f e x ω) 0
  have e1 : P.map (residual g K f e x) = predictive 0 (g.std x) := by
    rw [hr.map_eq_gaussianReal, residual_mean h hK hs, std_sq h hK hN hs x (C57_prior_variance _ hk x).1,
      Real.toNNReal_of_nonneg (sq_nonneg _)]
    rfl
  have e2 : {ω | (f x ω - μ (observed g f e ω)) / g.std x ∈ S} =
      residual g K f e x ⁻¹' ((fun r => r / g.std x) ⁻¹' S) := by
    ext ω
    simp only [Set.mem_ofPred_eq, Set.mem_preimage, residual, hμ]
  have hm : Measurable fun r : ℝ => r / g.std x := measurable_id.div_const _
  rw [e2, ← Measure.map_apply_of_aemeasurable hr.aemeasurable (hm hS), e1, ← Measure.map_apply hm hS]
  unfold predictive
  rw [gaussianReal_map_div_const, zero_div]
  congr 1
  show gaussianReal 0 _ = _
  congr 1
  refine div_self fun h0 => ?_
  have := congrArg NNReal.toReal h0
  exact (pow_pos hpos 2).ne' this

/-- **C121.** No way of predicting the value from the observations – linear or not – has a smaller mean squared error than
the predicted mean, and this smallest error is the square of the predicted standard deviation. -/
theorem C121_best_estimate (q : (Fin n → ℝ) → ℝ) (hq : Measurable q) :
    ∫⁻ ω, ENNReal.ofReal ((f x ω - μ (observed g f e ω)) ^ 2) ∂P = ENNReal.ofReal (s ^ 2) ∧
    ENNReal.ofReal (s ^ 2) ≤ ∫⁻ ω, ENNReal.ofReal ((f x ω - q (observed g f e ω)) ^ 2) ∂P := by
  obtain ⟨hμ, rfl⟩ := ha.eq
  have := h.gaussian.isProbabilityMeasure
  have hmean : Measurable μ := by
    have : μ = fun y => (g.fittedTo K y).mean x := funext hμ
    rw [this]
    simp only [fittedTo_mean hK hs]
    fun_prop
  have gen : ∀ r : (Fin n → ℝ) → ℝ, Measurable r →
      ∫⁻ ω, ENNReal.ofReal ((f x ω - r (observed g f e ω)) ^ 2) ∂P =
      ∫⁻ ω, ENNReal.ofReal (g.std x ^ 2 + (μ (observed g f e ω) - r (observed g f e ω)) ^ 2) ∂P := by
    intro r hr
    have key := posterior_lintegral h hK hN hs x (C57_prior_variance _ hk x).1 (fun p => ENNReal.ofReal ((p.2 - r p.1) ^ 2))
      (by fun_prop)
    rw [key]
    refine lintegral_congr fun ω => ?_
    rw [← hμ]
    exact predictive_square (μ (observed g f e ω)) (g.std x) (r (observed g f e ω))
  constructor
  · rw [gen μ hmean]
    simp
  · rw [gen q hq]
    refine le_trans ?_ (lintegral_mono (f := fun _ => ENNReal.ofReal (g.std x ^ 2)) fun ω => ?_)
    · simp
    · exact ENNReal.ofReal_le_ofReal (by nlinarith [sq_nonneg (μ (observed g f e ω) - q (observed g f e ω))])

/-- **C121.** The expected improvement computed from the prediction is the conditional expectation of the improvement
given the data, over any incumbent that is computed from the data: on every event `B` of the data the two have the same
average. -/
theorem C121_expected_improvement (best : (Fin n → ℝ) → ℝ) (hb : Measurable best) (B : Set (Fin n → ℝ))
    (hB : MeasurableSet B) :
    ∫⁻ ω in {ω | observed g f e ω ∈ B}, ENNReal.ofReal (max (best (observed g f e ω) - f x ω) 0) ∂P =
      ∫⁻ ω in {ω | observed g f e ω ∈ B},
        ENNReal.ofReal (expectedImprovement (best (observed g f e ω)) (μ (observed g f e ω)) s) ∂P := by
  obtain ⟨hμ, rfl⟩ := ha.eq
  have hj := joint_law h hK hs (fun _ : Fin 1 => x)
  have hy : AEMeasurable (observed g f e) P := hj.fst.aemeasurable
  have hn : NullMeasurableSet {ω | observed g f e ω ∈ B} P := hy.nullMeasurable hB
  have key := posterior_lintegral h hK hN hs x (C57_prior_variance _ hk x).1
    (fun p => (Prod.fst ⁻¹' B).indicator (fun p => ENNReal.ofReal (max (best p.1 - p.2) 0)) p)
    (Measurable.indicator (by fun_prop) (measurable_fst hB))
  rw [← lintegral_indicator₀ hn, ← lintegral_indicator₀ hn]
  refine Eq.trans (lintegral_congr fun ω => ?_) (key.trans (lintegral_congr fun ω => ?_))
  · rfl
  · by_cases hω : observed g f e ω ∈ B
    · have h1 : ∀ z : ℝ, (observed g f e ω, z) ∈ Prod.fst ⁻¹' B := fun z => hω
      simp only [Set.indicator_of_mem (h1 _)]
      rw [Set.indicator_of_mem (by exact hω), predictive_improvement, hμ]
    · have h1 : ∀ z : ℝ, (observed g f e ω, z) ∉ Prod.fst ⁻¹' B := fun z => hω
      simp only [Set.indicator_of_notMem (h1 _)]
      rw [Set.indicator_of_notMem (by exact hω), lintegral_zero]

end

/-- **C121 (several points).** With `return_cov=True`: given the observations, the values of the objective at any points
are jointly normal with the predicted means and the predicted covariance matrix – the deviations from the means are
independent of the observations, jointly Gaussian, centred, and have the covariances that are returned. -/
theorem C121_joint (P : Measure Ω) (g : Gp n d) (nz : Fin n → ℝ) (f : (Fin d → ℝ) → Ω → ℝ) (e : Fin n → Ω → ℝ)
    (K : Matrix (Fin n) (Fin n) ℝ) (h : SampleOf P g nz f e) (hK : Factored g K) (hN : NoisyCov g K nz) (hs : g.yStd ≠ 0)
    {m : Nat} (xs : Fin m → Fin d → ℝ) (hk : Noiseless g.kernel) :
    ∃ (μ : (Fin n → ℝ) → Fin m → ℝ) (C : List (List ℝ)),
      (∀ y, ∃ p, (g.fittedTo K y).predict { cov := true } (List.ofFn xs) = .ok p ∧ p.mean = List.ofFn (μ y) ∧
        p.cov = some C) ∧
      IndepFun (observed g f e) (fun ω j => f (xs j) ω - μ (observed g f e ω) j) P ∧
      HasGaussianLaw (fun ω j => f (xs j) ω - μ (observed g f e ω) j) P ∧
      (∀ j, ∫ ω, (f (xs j) ω - μ (observed g f e ω) j) ∂P = 0) ∧
      ∀ a b : Fin m, ∃ row v, C[a.1]? = some row ∧ row[b.1]? = some v ∧
        cov[fun ω => f (xs a) ω - μ (observed g f e ω) a, fun ω => f (xs b) ω - μ (observed g f e ω) b; P] = v := by
  have hj := joint_law h hK hs xs
  refine ⟨fun y j => (g.fittedTo K y).mean (xs j), g.cov (List.ofFn xs), ?_, ?_, ?_, ?_, ?_⟩
  · intro y
    have e1 : (g.fittedTo K y).predict { cov := true } (List.ofFn xs) =
        .ok { mean := (List.ofFn xs).map (g.fittedTo K y).mean, cov := some ((g.fittedTo K y).cov (List.ofFn xs)) } := by
      simp [Gp.predict, predictChecks, bind, Except.bind]
    refine ⟨_, e1, ?_, rfl⟩
    simp only [List.map_ofFn]
    rfl
  · exact hj.indepFun_of_covariance_eval (X := fun i ω => observed g f e ω i)
      (Y := fun j ω => residual g K f e (xs j) ω) fun i j => cov_observed_residual h hK hN hs (xs j) i
  · exact hj.snd
  · exact fun j => residual_mean h hK hs (xs j)
  · intro a b
    refine ⟨(List.ofFn xs).zipIdx.map fun q => g.covEntry a.1 q.2 (xs a) q.1, g.covEntry a.1 b.1 (xs a) (xs b), ?_, ?_, ?_⟩
    · simp [Gp.cov]
    · simp
    · refine (cov_residual_residual h hK hN hs (xs a) (xs b)).trans ?_
      rw [Gp.covEntry]
      split
      · next hab => rw [Fin.ext hab, (C57_prior_variance _ hk _).1]
      · rfl

/-- One observation of a constant with as much noise as spread. -/
noncomputable def oneNoisy : Gp 1 1 :=
  { kernel := .const 1, X := fun _ _ => 0, L := !![Real.sqrt 2], alpha := ![0], yMean := 0, yStd := 1 }

/-- The objective is a constant drawn from the standard normal distribution, observed once with standard normal noise.
The surrogate answers half the observed value and a positive standard deviation.
Meets the hypotheses of `C121_posterior`, `C121_interval`, `C121_best_estimate`, `C121_expected_improvement`,
`C121_joint`. -/
example : SampleOf ((gaussianReal 0 1).prod (gaussianReal 0 1)) oneNoisy (fun _ => 1) (fun _ ω => ω.1) (fun _ ω => ω.2) ∧
    Factored oneNoisy !![2] ∧ NoisyCov oneNoisy !![2] (fun _ => 1) ∧ oneNoisy.yStd ≠ 0 ∧
    Noiseless oneNoisy.kernel ∧
    ∀ x, PredictsFor oneNoisy !![2] x (fun y => y 0 / 2) (Real.sqrt (1 / 2)) := by
  have hv : Var[fun z : ℝ => z; gaussianReal 0 1] = 1 := by
    rw [variance_fun_id_gaussianReal]; rfl
  have hm : MemLp (fun z : ℝ => z) 2 (gaussianReal 0 1) := memLp_id_gaussianReal 2
  have hm1 : MemLp (fun ω : ℝ × ℝ => ω.1) 2 ((gaussianReal 0 1).prod (gaussianReal 0 1)) := hm.comp_fst _
  have hm2 : MemLp (fun ω : ℝ × ℝ => ω.2) 2 ((gaussianReal 0 1).prod (gaussianReal 0 1)) := hm.comp_snd _
  have hinv : (!![2] : Matrix (Fin 1) (Fin 1) ℝ)⁻¹ = !![1 / 2] := by
    refine inv_eq_right_inv ?_
    ext i j
    fin_cases i; fin_cases j
    simp
  refine ⟨⟨⟨fun I => ?_⟩, ?_, ?_, ?_, ?_, ?_⟩, ⟨?_, ?_⟩, ?_, ?_, trivial, ?_⟩
  · have h0 : HasGaussianLaw (id : ℝ × ℝ → ℝ × ℝ) ((gaussianReal 0 1).prod (gaussianReal 0 1)) :=
      IsGaussian.hasGaussianLaw_id
    have := h0.map (ContinuousLinearMap.pi fun t : I =>
      (match t.1 with
        | .inl _ => ContinuousLinearMap.fst ℝ ℝ ℝ
        | .inr _ => ContinuousLinearMap.snd ℝ ℝ ℝ : ℝ × ℝ →L[ℝ] ℝ))
    refine this.congr (.of_forall fun ω => ?_)
    funext t
    obtain ⟨t, ht⟩ := t
    cases t <;> rfl
  · intro x
    rw [integral_fun_fst (f := fun z : ℝ => z)]
    simp [oneNoisy]
  · intro i
    rw [integral_fun_snd (f := fun z : ℝ => z)]
    simp
  · intro x y
    rw [covariance_self hm1.aestronglyMeasurable.aemeasurable,
      (measurePreserving_fst (μ := gaussianReal 0 1) (ν := gaussianReal 0 1)).variance_fun_comp
        (f := fun z : ℝ => z) aemeasurable_id, hv]
    simp [oneNoisy, Kernel.value]
  · intro x i
    exact covariance_fst_snd_prod hm hm
  · intro i j
    rw [if_pos (Subsingleton.elim _ _), covariance_self hm2.aestronglyMeasurable.aemeasurable,
      (measurePreserving_snd (μ := gaussianReal 0 1) (ν := gaussianReal 0 1)).variance_fun_comp
        (f := fun z : ℝ => z) aemeasurable_id, hv]
    simp [oneNoisy]
  · ext i j
    fin_cases i; fin_cases j
    simp [oneNoisy, Matrix.mul_apply]
  · simp [oneNoisy]
  · intro i j
    fin_cases i; fin_cases j
    simp [oneNoisy, Kernel.value]
    norm_num
  · simp [oneNoisy]
  · intro x y
    refine ⟨_, rfl, ?_, ?_⟩
    · simp [Gp.fittedTo, oneNoisy, Gp.mean, Gp.kTrans, Kernel.value, hinv, dotProduct]
      ring
    · have h1 : oneNoisy.L⁻¹ = !![1 / Real.sqrt 2] := by
        refine inv_eq_right_inv ?_
        ext i j
        fin_cases i; fin_cases j
        simp [oneNoisy, Matrix.mul_apply]
      have h2 : oneNoisy.rawVar x = 1 / 2 := by
        simp only [Gp.rawVar, Gp.Kinv, ← transpose_nonsing_inv, h1]
        simp [oneNoisy, Gp.kTrans, Kernel.value, Kernel.diag, Matrix.mul_apply]
        rw [← mul_inv, Real.mul_self_sqrt (by norm_num)]
        norm_num
      have h3 : (oneNoisy.fittedTo !![2] y).std x = Real.sqrt (1 / 2) := by
        have h4 : oneNoisy.std x = Real.sqrt (1 / 2) := by
          rw [Gp.std, h2, if_neg (by norm_num)]
          simp [oneNoisy]
        exact h4
      show some [(oneNoisy.fittedTo !![2] y).std x] = _
      rw [h3]

end Skopt

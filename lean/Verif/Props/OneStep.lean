import Verif.Lemmas.OneStep

/-!
# C122: one step ahead no rule does better than EI and PI, and the suggestion of LCB is nearly the best candidate
-/

namespace Skopt

open Matrix MeasureTheory ProbabilityTheory
open scoped ENNReal

variable {n d m : Nat} {Ω : Type} [MeasurableSpace Ω]

/-! ## The property -/

section
variable (P : Measure Ω) (g : Gp n d) (nz : Fin n → ℝ) (f : (Fin d → ℝ) → Ω → ℝ) (e : Fin n → Ω → ℝ)
  (K : Matrix (Fin n) (Fin n) ℝ) (h : SampleOf P g nz f e) (hK : Factored g K) (hN : NoisyCov g K nz) (hs : g.yStd ≠ 0)
  (hk : Noiseless g.kernel) (xs : Fin m → Fin d → ℝ) (best : (Fin n → ℝ) → ℝ) (hb : Measurable best) (xi : ℝ)
  (kappa : Kappa) (pick : (Fin n → ℝ) → Fin m)
include h hK hN hs hk hb

/-- **C122 (EI), restricted.** If the objective is a sample of the Gaussian process, then no rule for choosing one of the
candidates from the observed values has a larger expected improvement over the incumbent (by more than `xi`) than the
suggestion of `acq_func="EI"`.  (The incumbent is any function of the observed values, in the code the smallest.)

Missing: rules that choose candidates about which the surrogate is certain; see `C122_refuted_certain`. -/
theorem C122_ei_optimal_partial (hp : Picks g K xs .EI best xi kappa pick) (q : (Fin n → ℝ) → Fin m) (hq : Measurable q)
    (hu : ∀ y, Uncertain g (xs (q y))) :
    ∫⁻ ω, ENNReal.ofReal (max (best (observed g f e ω) - xi - f (xs (q (observed g f e ω))) ω) 0) ∂P ≤
      ∫⁻ ω, ENNReal.ofReal (max (best (observed g f e ω) - xi - f (xs (pick (observed g f e ω))) ω) 0) ∂P := by
  have hv := fun y => gp_ei_values (g := g) (K := K) xs y (best y) xi kappa
  have hpm : Measurable pick := hp.measurable _ hv fun j => ei_measurable hK hs (xs j) hb xi
  have hF : Measurable fun p : (Fin n → ℝ) × ℝ => ENNReal.ofReal (max (best p.1 - xi - p.2) 0) := by fun_prop
  rw [rule_lintegral h hK hN hs hk xs q hq _ hF, rule_lintegral h hK hN hs hk xs pick hpm _ hF]
  refine lintegral_mono fun ω => ?_
  simp only [predictive_improvement]
  refine ENNReal.ofReal_le_ofReal ?_
  have h1 := (hp.values _ hv (observed g f e ω)).1 (q (observed g f e ω))
  have h2 := (hu (observed g f e ω)).pos
  simp only [if_pos h2] at h1
  have h3 := expectedImprovement_pos (best (observed g f e ω) - xi)
    ((g.fittedTo K (observed g f e ω)).mean (xs (q (observed g f e ω)))) h2
  split at h1
  · linarith
  · linarith

/-- **C122 (PI), restricted.** No rule has a larger probability of improving on the incumbent by more than `xi` than the
suggestion of `acq_func="PI"`.

Missing: rules that choose candidates about which the surrogate is certain; see `C122_refuted_certain`. -/
theorem C122_pi_optimal_partial (hp : Picks g K xs .PI best xi kappa pick) (q : (Fin n → ℝ) → Fin m) (hq : Measurable q)
    (hu : ∀ y, Uncertain g (xs (q y))) :
    P {ω | f (xs (q (observed g f e ω))) ω < best (observed g f e ω) - xi} ≤
      P {ω | f (xs (pick (observed g f e ω))) ω < best (observed g f e ω) - xi} := by
  have hv := fun y => gp_pi_values (g := g) (K := K) xs y (best y) xi kappa
  have hpm : Measurable pick := hp.measurable _ hv fun j => pi_measurable hK hs (xs j) hb xi
  have hA : MeasurableSet {p : (Fin n → ℝ) × ℝ | p.2 < best p.1 - xi} :=
    measurableSet_lt measurable_snd (by fun_prop)
  have hF : Measurable ({p : (Fin n → ℝ) × ℝ | p.2 < best p.1 - xi}.indicator (1 : (Fin n → ℝ) × ℝ → ℝ≥0∞)) :=
    measurable_one.indicator hA
  have hj := joint_law h hK hs (fun _ : Fin 1 => (0 : Fin d → ℝ))
  have hy : AEMeasurable (observed g f e) P := hj.fst.aemeasurable
  have e1 : ∀ r : (Fin n → ℝ) → Fin m, Measurable r →
      P {ω | f (xs (r (observed g f e ω))) ω < best (observed g f e ω) - xi} =
      ∫⁻ ω, ENNReal.ofReal (improvementProbability (best (observed g f e ω) - xi)
        ((g.fittedTo K (observed g f e ω)).mean (xs (r (observed g f e ω)))) (g.std (xs (r (observed g f e ω))))) ∂P := by
    intro r hr
    have hn : NullMeasurableSet {ω | f (xs (r (observed g f e ω))) ω < best (observed g f e ω) - xi} P :=
      (hy.prodMk (rule_aemeasurable h hK hs xs r hr)).nullMeasurable hA
    have e2 := rule_lintegral h hK hN hs hk xs r hr _ hF
    rw [← lintegral_indicator_one₀ hn]
    refine Eq.trans (lintegral_congr fun ω => ?_) (e2.trans (lintegral_congr fun ω => ?_))
    · rfl
    · have : IsProbabilityMeasure (predictive ((g.fittedTo K (observed g f e ω)).mean (xs (r (observed g f e ω))))
          (g.std (xs (r (observed g f e ω))))) := by unfold predictive; infer_instance
      rw [improvementProbability, ofReal_measureReal, ← lintegral_indicator_one measurableSet_Iio]
      rfl
  rw [e1 q hq, e1 pick hpm]
  refine lintegral_mono fun ω => ENNReal.ofReal_le_ofReal ?_
  have h1 := (hp.values _ hv (observed g f e ω)).1 (q (observed g f e ω))
  have h2 := (hu (observed g f e ω)).pos
  simp only [if_pos h2] at h1
  have h3 : 0 < improvementProbability (best (observed g f e ω) - xi)
    ((g.fittedTo K (observed g f e ω)).mean (xs (q (observed g f e ω)))) (g.std (xs (q (observed g f e ω)))) := by
    rw [improvementProbability_eq _ _ h2]
    exact normCdf_pos _
  split at h1
  · linarith
  · linarith

end

section
variable (P : Measure Ω) (g : Gp n d) (nz : Fin n → ℝ) (f : (Fin d → ℝ) → Ω → ℝ) (e : Fin n → Ω → ℝ)
  (K : Matrix (Fin n) (Fin n) ℝ) (h : SampleOf P g nz f e) (hK : Factored g K) (hN : NoisyCov g K nz) (hs : g.yStd ≠ 0)
  (hk : Noiseless g.kernel)
include h hK hN hs hk

/-- The prediction is off by more than `k` standard deviations with the probability for a standard normal number. -/
theorem outside_band (x : Fin d → ℝ) (k : ℝ) :
    P {ω | k * g.std x < |f x ω - (g.fittedTo K (observed g f e ω)).mean x|} ≤ gaussianReal 0 1 {z | k < |z|} := by
  have ha : PredictsFor g K x (fun y => (g.fittedTo K y).mean x) (g.std x) := fun y => ⟨_, rfl, rfl, rfl⟩
  have h0 : 0 ≤ g.std x := Real.sqrt_nonneg _
  have hm : MeasurableSet {z : ℝ | k < |z|} := measurableSet_lt measurable_const (by fun_prop)
  rcases h0.eq_or_lt with h0 | h0
  · have h1 := (C121_best_estimate P g nz f e K h hK hN hs x hk _ _ ha (fun _ => 0) measurable_const).1
    rw [← h0] at h1 ⊢
    have hj := joint_law h hK hs (fun _ : Fin 1 => x)
    have hr : HasGaussianLaw (residual g K f e x) P := hj.snd.eval (X := fun _ ω => residual g K f e x ω) 0
    have h2 := (lintegral_eq_zero_iff' (by
      have := hr.aemeasurable
      have e1 : (fun ω => ENNReal.ofReal ((f x ω - (g.fittedTo K (observed g f e ω)).mean x) ^ 2)) =
        fun ω => ENNReal.ofReal (residual g K f e x ω ^ 2) := rfl
      rw [e1]
      fun_prop)).1 (h1.trans (by simp))
    refine le_of_eq_of_le ?_ zero_le
    refine measure_mono_null (fun ω hω => ?_) h2
    simp only [Set.mem_ofPred_eq, mul_zero, abs_pos] at hω
    simp only [Set.mem_compl_iff, Set.mem_ofPred_eq, Pi.zero_apply, ENNReal.ofReal_eq_zero, not_le]
    positivity
  · rw [← C121_interval P g nz f e K h hK hN hs x hk _ _ ha h0 _ hm]
    refine measure_mono fun ω hω => ?_
    simp only [Set.mem_ofPred_eq, abs_div, abs_of_pos h0] at hω ⊢
    rwa [lt_div_iff₀ h0]

/-- **C122 (LCB).** With `acq_func="LCB"` the value at the suggestion exceeds the smallest value at the candidates by at
most `2 * kappa` times the predicted standard deviation at the suggestion, except with a probability of at most the
number of candidates times the probability that a standard normal number exceeds `kappa` in size. -/
theorem C122_lcb_regret (xs : Fin m → Fin d → ℝ) (best : (Fin n → ℝ) → ℝ) (xi k : ℝ) (pick : (Fin n → ℝ) → Fin m)
    (hp : Picks g K xs .LCB best xi (.num k) pick) :
    1 - m * gaussianReal 0 1 {z | k < |z|} ≤
      P {ω | ∀ p sd s, (g.fittedTo K (observed g f e ω)).predict { std := true } (List.ofFn xs) = .ok p →
        p.std = some sd → sd[(pick (observed g f e ω)).val]? = some s →
        ∀ j, f (xs (pick (observed g f e ω))) ω ≤ f (xs j) ω + 2 * k * s} := by
  have := h.gaussian.isProbabilityMeasure
  have hv := fun y => gp_lcb_values (g := g) (K := K) xs y (best y) xi k
  set E := {ω | ∀ p sd s, (g.fittedTo K (observed g f e ω)).predict { std := true } (List.ofFn xs) = .ok p →
        p.std = some sd → sd[(pick (observed g f e ω)).val]? = some s →
        ∀ j, f (xs (pick (observed g f e ω))) ω ≤ f (xs j) ω + 2 * k * s} with hE
  let B : Fin m → Set Ω := fun j => {ω | k * g.std (xs j) < |f (xs j) ω - (g.fittedTo K (observed g f e ω)).mean (xs j)|}
  have hcover : (Set.univ : Set Ω) ⊆ E ∪ ⋃ j, B j := by
    intro ω _
    by_cases hb : ω ∈ ⋃ j, B j
    · exact .inr hb
    · refine .inl ?_
      simp only [B, Set.mem_iUnion, Set.mem_ofPred_eq, not_exists, not_lt] at hb
      intro p sd s h1 h2 h3 j
      have e1 : (g.fittedTo K (observed g f e ω)).predict { std := true } (List.ofFn xs) =
          .ok { mean := (List.ofFn xs).map (g.fittedTo K (observed g f e ω)).mean,
                std := some ((List.ofFn xs).map (g.fittedTo K (observed g f e ω)).std) } := by
        simp [Gp.predict, predictChecks, bind, Except.bind]
      rw [e1] at h1
      injection h1 with h1
      subst h1
      injection h2 with h2
      subst h2
      have h4 : s = g.std (xs (pick (observed g f e ω))) := by
        simp at h3
        exact h3.symm
      subst h4
      have h5 := (hp.values _ hv (observed g f e ω)).1 j
      have h6 := abs_le.1 (hb (pick (observed g f e ω)))
      have h7 := abs_le.1 (hb j)
      linarith [h6.2, h7.1]
  have h1 : (1 : ℝ≥0∞) ≤ P E + m * gaussianReal 0 1 {z | k < |z|} := by
    calc (1 : ℝ≥0∞) = P Set.univ := measure_univ.symm
      _ ≤ P (E ∪ ⋃ j, B j) := measure_mono hcover
      _ ≤ P E + P (⋃ j, B j) := measure_union_le _ _
      _ ≤ P E + ∑ j, P (B j) := by gcongr; exact measure_iUnion_fintype_le _ _
      _ ≤ P E + ∑ _j : Fin m, gaussianReal 0 1 {z | k < |z|} := by
        gcongr with j
        exact outside_band P g nz f e K h hK hN hs hk (xs j) k
      _ = _ := by simp
  exact tsub_le_iff_right.2 h1

end

/-- A rule of the code exists for every non-empty list of candidates. -/
theorem picks_exists (g : Gp n d) (K : Matrix (Fin n) (Fin n) ℝ) (xs : Fin (m + 1) → Fin d → ℝ) (acq : AcqFunc)
    (best : (Fin n → ℝ) → ℝ) (xi : ℝ) (kappa : Kappa) (v : Fin (m + 1) → (Fin n → ℝ) → ℝ)
    (hv : ∀ y, gaussianAcquisition (.one (predAt g K xs y)) (best y) acq xi kappa = .ok (List.ofFn fun j => v j y)) :
    ∃ pick, Picks g K xs acq best xi kappa pick := by
  have key : ∀ y, ∃ j : Fin (m + 1), ∃ p sd vals, (g.fittedTo K y).predict { std := true } (List.ofFn xs) = .ok p ∧
      p.std = some sd ∧ gaussianAcquisition (.one { mu := p.mean, std := sd }) (best y) acq xi kappa = .ok vals ∧
      npArgmin (vals.map Flt.fin) = .ok j.val := by
    intro y
    obtain ⟨i, hi⟩ := npArgmin_ok (xs := List.ofFn fun j => v j y) (by simp)
    obtain ⟨hlt, -⟩ := npArgmin_spec hi
    rw [List.length_ofFn] at hlt
    refine ⟨⟨i, hlt⟩,
      { mean := (List.ofFn xs).map (g.fittedTo K y).mean, std := some ((List.ofFn xs).map (g.fittedTo K y).std) },
      _, List.ofFn fun j => v j y, ?_, rfl, ?_, ?_⟩
    · simp [Gp.predict, predictChecks, bind, Except.bind]
    · refine Eq.trans ?_ (hv y)
      simp only [List.map_ofFn]
      rfl
    · rw [npArgmin_fin]
      exact hi
  choose pick hpick using key
  exact ⟨pick, hpick⟩

/-- A linear function through the origin observed at one, with noise of the variance `v`. -/
noncomputable def lineGp (v : ℝ) : Gp 1 1 :=
  { kernel := .dot 0, X := fun _ _ => 1, L := !![Real.sqrt (1 + v)], alpha := ![0], yMean := 0, yStd := 1 }

theorem lineGp_sample (v : NNReal) : SampleOf ((gaussianReal 0 1).prod (gaussianReal 0 v)) (lineGp v) (fun _ => v)
    (fun x ω => x 0 * ω.1) (fun _ ω => ω.2) := by
  have hv1 : Var[fun z : ℝ => z; gaussianReal 0 1] = 1 := by
    rw [variance_fun_id_gaussianReal]; rfl
  have hv2 : Var[fun z : ℝ => z; gaussianReal 0 v] = v := variance_fun_id_gaussianReal
  have hm : MemLp (fun z : ℝ => z) 2 (gaussianReal 0 1) := memLp_id_gaussianReal 2
  have hm' : MemLp (fun z : ℝ => z) 2 (gaussianReal 0 v) := memLp_id_gaussianReal 2
  have hm1 : MemLp (fun ω : ℝ × ℝ => ω.1) 2 ((gaussianReal 0 1).prod (gaussianReal 0 v)) := hm.comp_fst _
  have hm2 : MemLp (fun ω : ℝ × ℝ => ω.2) 2 ((gaussianReal 0 1).prod (gaussianReal 0 v)) := hm'.comp_snd _
  refine ⟨⟨fun I => ?_⟩, ?_, ?_, ?_, ?_, ?_⟩
  · have h0 : HasGaussianLaw (id : ℝ × ℝ → ℝ × ℝ) ((gaussianReal 0 1).prod (gaussianReal 0 v)) :=
      IsGaussian.hasGaussianLaw_id
    have := h0.map (ContinuousLinearMap.pi fun t : I =>
      (match t.1 with
        | .inl x => x 0 • ContinuousLinearMap.fst ℝ ℝ ℝ
        | .inr _ => ContinuousLinearMap.snd ℝ ℝ ℝ : ℝ × ℝ →L[ℝ] ℝ))
    refine this.congr (.of_forall fun ω => ?_)
    funext t
    obtain ⟨t, ht⟩ := t
    cases t <;> rfl
  · intro x
    rw [integral_const_mul, integral_fun_fst (f := fun z : ℝ => z)]
    simp [lineGp]
  · intro i
    rw [integral_fun_snd (f := fun z : ℝ => z)]
    simp
  · intro x y
    rw [covariance_const_mul_left, covariance_const_mul_right, covariance_self hm1.aestronglyMeasurable.aemeasurable,
      (measurePreserving_fst (μ := gaussianReal 0 1) (ν := gaussianReal 0 v)).variance_fun_comp
        (f := fun z : ℝ => z) aemeasurable_id, hv1]
    simp [lineGp, Kernel.value]
  · intro x i
    rw [covariance_const_mul_left, covariance_fst_snd_prod (X := fun z : ℝ => z) (Y := fun z : ℝ => z) hm hm', mul_zero]
  · intro i j
    rw [if_pos (Subsingleton.elim _ _), covariance_self hm2.aestronglyMeasurable.aemeasurable,
      (measurePreserving_snd (μ := gaussianReal 0 1) (ν := gaussianReal 0 v)).variance_fun_comp
        (f := fun z : ℝ => z) aemeasurable_id, hv2]
    simp [lineGp]

theorem lineGp_factored (v : NNReal) : Factored (lineGp v) !![1 + (v : ℝ)] ∧
    NoisyCov (lineGp v) !![1 + (v : ℝ)] (fun _ => v) := by
  have h0 : (0 : ℝ) < 1 + v := by positivity
  refine ⟨⟨?_, ?_⟩, ?_⟩
  · ext i j
    fin_cases i; fin_cases j
    simp [lineGp, Matrix.mul_apply, Real.mul_self_sqrt h0.le]
  · simpa [lineGp] using (Real.sqrt_pos.2 h0).ne'
  · intro i j
    fin_cases i; fin_cases j
    simp [lineGp, Kernel.value]

theorem lineGp_std (v : NNReal) (x : Fin 1 → ℝ) : (lineGp v).std x = Real.sqrt (x 0 ^ 2 * (v / (1 + v))) := by
  have h0 : (0 : ℝ) < 1 + v := by positivity
  have h1 : (lineGp v).L⁻¹ = !![1 / Real.sqrt (1 + v)] := by
    refine inv_eq_right_inv ?_
    ext i j
    fin_cases i; fin_cases j
    simp [lineGp, Matrix.mul_apply, (Real.sqrt_pos.2 h0).ne']
  have h2 : (lineGp v).rawVar x = x 0 ^ 2 * (v / (1 + v)) := by
    simp only [Gp.rawVar, Gp.Kinv, ← transpose_nonsing_inv, h1]
    simp [lineGp, Gp.kTrans, Kernel.value, Kernel.diag, Matrix.mul_apply]
    rw [← mul_inv, Real.mul_self_sqrt h0.le]
    field_simp
    ring
  rw [Gp.std, h2, if_neg (not_lt.2 (by positivity))]
  simp [lineGp]

/-- A line with random slope, observed at one with standard normal noise; the candidates one and two.
Meets the hypotheses of `C122_ei_optimal_partial`, `C122_pi_optimal_partial`, `C122_lcb_regret`. -/
example (xi : ℝ) (kappa : Kappa) (k : ℝ) :
    SampleOf ((gaussianReal 0 1).prod (gaussianReal 0 1)) (lineGp 1) (fun _ => 1) (fun x ω => x 0 * ω.1) (fun _ ω => ω.2) ∧
    Factored (lineGp 1) !![1 + 1] ∧ NoisyCov (lineGp 1) !![1 + 1] (fun _ => 1) ∧ (lineGp 1).yStd ≠ 0 ∧
    Noiseless (lineGp 1).kernel ∧ (∀ j, Uncertain (lineGp 1) ((![fun _ => 1, fun _ => 2] : Fin 2 → Fin 1 → ℝ) j)) ∧
    (∃ pick, Picks (lineGp 1) !![1 + 1] (![fun _ => 1, fun _ => 2] : Fin 2 → Fin 1 → ℝ) .EI (fun y => y 0) xi kappa pick) ∧
    (∃ pick, Picks (lineGp 1) !![1 + 1] (![fun _ => 1, fun _ => 2] : Fin 2 → Fin 1 → ℝ) .PI (fun y => y 0) xi kappa pick) ∧
    ∃ pick, Picks (lineGp 1) !![1 + 1] (![fun _ => 1, fun _ => 2] : Fin 2 → Fin 1 → ℝ) .LCB (fun y => y 0) xi (.num k) pick := by
  refine ⟨by simpa using lineGp_sample 1, by simpa using (lineGp_factored 1).1, by simpa using (lineGp_factored 1).2,
    one_ne_zero, trivial, fun j => ⟨_, _, rfl, rfl, ?_⟩,
    picks_exists _ _ _ _ _ _ _ _ fun y => gp_ei_values _ _ _ _ _, picks_exists _ _ _ _ _ _ _ _ fun y => gp_pi_values _ _ _ _ _,
    picks_exists _ _ _ _ _ _ _ _ fun y => gp_lcb_values _ _ _ _ _⟩
  have := lineGp_std 1 ((![fun _ => 1, fun _ => 2] : Fin 2 → Fin 1 → ℝ) j)
  rw [NNReal.coe_one] at this
  rw [this]
  fin_cases j <;> simp

/-- **C122 is false of candidates about which the surrogate is certain**: a line with random slope is observed without
noise, after which it is known everywhere.  Going from the candidate one to the candidate two is an improvement whenever
the slope is negative, but EI and PI are zero for both and the first is suggested. -/
theorem C122_refuted_certain :
    let P := (gaussianReal 0 1).prod (gaussianReal 0 0)
    let f : (Fin 1 → ℝ) → ℝ × ℝ → ℝ := fun x ω => x 0 * ω.1
    let e : Fin 1 → ℝ × ℝ → ℝ := fun _ ω => ω.2
    let xs : Fin 2 → Fin 1 → ℝ := ![fun _ => 1, fun _ => 2]
    SampleOf P (lineGp 0) (fun _ => 0) f e ∧ Factored (lineGp 0) !![1] ∧ NoisyCov (lineGp 0) !![1] (fun _ => 0) ∧
    (∀ acq, acq = .EI ∨ acq = .PI → Picks (lineGp 0) !![1] xs acq (fun y => y 0) 0 .inf (fun _ => 0)) ∧
    ∫⁻ ω, ENNReal.ofReal (max (observed (lineGp 0) f e ω 0 - 0 - f (xs 0) ω) 0) ∂P <
      ∫⁻ ω, ENNReal.ofReal (max (observed (lineGp 0) f e ω 0 - 0 - f (xs 1) ω) 0) ∂P ∧
    P {ω | f (xs 0) ω < observed (lineGp 0) f e ω 0 - 0} < P {ω | f (xs 1) ω < observed (lineGp 0) f e ω 0 - 0} := by
  intro P f e xs
  have hP : P = (gaussianReal 0 1).map fun z => (z, (0 : ℝ)) := by
    simp only [P, gaussianReal_zero_var, Measure.prod_dirac]
  have hmk : Measurable fun z : ℝ => (z, (0 : ℝ)) := by fun_prop
  have hg : gaussianReal 0 1 = predictive 0 1 := by
    unfold predictive
    congr 1
    exact NNReal.eq (by simp)
  have hstd : ∀ x, (lineGp 0).std x = 0 := by
    intro x
    have := lineGp_std 0 x
    simpa using this
  refine ⟨by simpa only [NNReal.coe_zero] using lineGp_sample 0, by simpa using (lineGp_factored 0).1, by simpa using (lineGp_factored 0).2,
    ?_, ?_, ?_⟩
  · intro acq hacq y
    refine ⟨{ mean := (List.ofFn xs).map ((lineGp 0).fittedTo !![1] y).mean,
              std := some ((List.ofFn xs).map ((lineGp 0).fittedTo !![1] y).std) }, _, [-0, -0], ?_, rfl, ?_, ?_⟩
    · simp [Gp.predict, predictChecks, bind, Except.bind]
    · rcases hacq with rfl | rfl
      · refine Eq.trans ?_ ((gp_ei_values (g := lineGp 0) (K := !![1]) xs y (y 0) 0 .inf).trans ?_)
        · simp only [List.map_ofFn]
          rfl
        · simp [hstd]
      · refine Eq.trans ?_ ((gp_pi_values (g := lineGp 0) (K := !![1]) xs y (y 0) 0 .inf).trans ?_)
        · simp only [List.map_ofFn]
          rfl
        · simp [hstd]
    · rw [npArgmin_fin]
      simp [npArgmin, argBest, argBest.go]
  · have m0 : ∀ j, Measurable fun ω => ENNReal.ofReal (max (observed (lineGp 0) f e ω 0 - 0 - f (xs j) ω) 0) := by
      intro j
      simp only [observed, f, e]
      fun_prop
    rw [hP, lintegral_map (m0 0) hmk, lintegral_map (m0 1) hmk]
    have e0 : ∀ z : ℝ, observed (lineGp 0) f e (z, 0) 0 - 0 - f (xs 0) (z, 0) = 0 := by
      intro z; simp [observed, f, e, lineGp, xs]
    have e1 : ∀ z : ℝ, observed (lineGp 0) f e (z, 0) 0 - 0 - f (xs 1) (z, 0) = 0 - z := by
      intro z; simp [observed, f, e, lineGp, xs]; ring
    simp only [e0, e1]
    rw [hg, predictive_improvement]
    simpa using expectedImprovement_pos 0 0 one_pos
  · have m0 : ∀ j, MeasurableSet {ω | f (xs j) ω < observed (lineGp 0) f e ω 0 - 0} := by
      intro j
      refine measurableSet_lt ?_ ?_
      · simp only [f]; fun_prop
      · simp only [observed, f, e]; fun_prop
    rw [hP, Measure.map_apply hmk (m0 0), Measure.map_apply hmk (m0 1)]
    have e0 : (fun z : ℝ => (z, (0 : ℝ))) ⁻¹' {ω | f (xs 0) ω < observed (lineGp 0) f e ω 0 - 0} = ∅ := by
      ext z; simp [observed, f, e, lineGp, xs]
    have e1 : (fun z : ℝ => (z, (0 : ℝ))) ⁻¹' {ω | f (xs 1) ω < observed (lineGp 0) f e ω 0 - 0} = Set.Iio 0 := by
      ext z
      simp only [observed, f, e, lineGp, xs, Set.mem_preimage, Set.mem_ofPred_eq, Set.mem_Iio, cons_val_one, cons_val_fin_one]
      constructor <;> intro h <;> linarith
    rw [e0, e1, measure_empty, hg]
    have h1 := improvementProbability_eq 0 0 one_pos
    have h2 : 0 < improvementProbability 0 0 1 := by rw [h1]; exact normCdf_pos _
    exact (ENNReal.toReal_pos_iff.1 h2).1

end Skopt

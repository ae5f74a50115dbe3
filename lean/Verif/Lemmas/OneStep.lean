import Verif.Props.GpPosterior
import Verif.Props.BestCandidate
import Verif.Lemmas.ObjectiveUnits

/-!
# Lemmas for C122: choosing among candidates by the data
-/

namespace Skopt

open Matrix MeasureTheory ProbabilityTheory
open scoped ENNReal

variable {n d m : Nat} {Ω : Type} [MeasurableSpace Ω]

/-! ## Specification -/

/-- `pick y` is the position of the candidate that is suggested when the surrogate has been fitted to the values `y`: the
surrogate predicts at the candidates, the acquisition function is evaluated against the incumbent `best y`, and the first
smallest value wins. -/
def Picks (g : Gp n d) (K : Matrix (Fin n) (Fin n) ℝ) (xs : Fin m → Fin d → ℝ) (acq : AcqFunc) (best : (Fin n → ℝ) → ℝ)
    (xi : ℝ) (kappa : Kappa) (pick : (Fin n → ℝ) → Fin m) : Prop :=
  ∀ y, ∃ p sd vals, (g.fittedTo K y).predict { std := true } (List.ofFn xs) = .ok p ∧ p.std = some sd ∧
    gaussianAcquisition (.one { mu := p.mean, std := sd }) (best y) acq xi kappa = .ok vals ∧
    npArgmin (vals.map Flt.fin) = .ok (pick y).val

/-- The surrogate is not certain about the value at `x`. -/
def Uncertain (g : Gp n d) (x : Fin d → ℝ) : Prop :=
  ∃ p s, g.predict { std := true } [x] = .ok p ∧ p.std = some [s] ∧ 0 < s

/-! ## Lemmas -/

theorem Uncertain.pos {g : Gp n d} {x : Fin d → ℝ} (h : Uncertain g x) : 0 < g.std x := by
  obtain ⟨p, s, h1, h2, h3⟩ := h
  have e : g.predict { std := true } [x] = .ok { mean := [g.mean x], std := some [g.std x] } := rfl
  rw [e] at h1
  injection h1 with h1
  subst h1
  simp only [List.cons.injEq, and_true, Option.some.injEq] at h2
  rwa [h2]

/-- The predictions at the candidates. -/
noncomputable def predAt (g : Gp n d) (K : Matrix (Fin n) (Fin n) ℝ) (xs : Fin m → Fin d → ℝ) (y : Fin n → ℝ) : Pred :=
  { mu := List.ofFn fun j => (g.fittedTo K y).mean (xs j), std := List.ofFn fun j => g.std (xs j) }

/-- The values of which the smallest is chosen, candidate by candidate. -/
theorem Picks.values {g : Gp n d} {K : Matrix (Fin n) (Fin n) ℝ} {xs : Fin m → Fin d → ℝ} {acq : AcqFunc}
    {best : (Fin n → ℝ) → ℝ} {xi : ℝ} {kappa : Kappa} {pick : (Fin n → ℝ) → Fin m} (h : Picks g K xs acq best xi kappa pick)
    (v : Fin m → (Fin n → ℝ) → ℝ)
    (hv : ∀ y, gaussianAcquisition (.one (predAt g K xs y)) (best y) acq xi kappa = .ok (List.ofFn fun j => v j y))
    (y : Fin n → ℝ) :
    (∀ i, v (pick y) y ≤ v i y) ∧ ∀ i < pick y, v (pick y) y < v i y := by
  obtain ⟨p, sd, vals, h1, h2, h3, h4⟩ := h y
  have e : (g.fittedTo K y).predict { std := true } (List.ofFn xs) =
      .ok { mean := (List.ofFn xs).map (g.fittedTo K y).mean, std := some ((List.ofFn xs).map (g.fittedTo K y).std) } := by
    simp [Gp.predict, predictChecks, bind, Except.bind]
  rw [e] at h1
  injection h1 with h1
  subst h1
  injection h2 with h2
  subst h2
  simp only [List.map_ofFn] at h3
  have h5 := hv y
  have h6 : vals = List.ofFn fun j => v j y := by
    have : (Except.ok vals : Except PyErr (List ℝ)) = .ok (List.ofFn fun j => v j y) := h3.symm.trans h5
    injection this
  subst h6
  rw [npArgmin_fin] at h4
  obtain ⟨h7, h8, h9⟩ := npArgmin_spec h4
  simp only [List.getElem_ofFn, Fin.eta] at h8 h9
  refine ⟨fun i => h8 _ (List.mem_ofFn.2 ⟨i, rfl⟩), fun i hi => ?_⟩
  have := h9 i.1 hi
  simpa using this

theorem Picks.measurable {g : Gp n d} {K : Matrix (Fin n) (Fin n) ℝ} {xs : Fin m → Fin d → ℝ} {acq : AcqFunc}
    {best : (Fin n → ℝ) → ℝ} {xi : ℝ} {kappa : Kappa} {pick : (Fin n → ℝ) → Fin m} (h : Picks g K xs acq best xi kappa pick)
    (v : Fin m → (Fin n → ℝ) → ℝ)
    (hv : ∀ y, gaussianAcquisition (.one (predAt g K xs y)) (best y) acq xi kappa = .ok (List.ofFn fun j => v j y))
    (hm : ∀ j, Measurable (v j)) : Measurable pick := by
  refine measurable_to_countable' fun j => ?_
  have e : pick ⁻¹' {j} = (⋂ i, {y | v j y ≤ v i y}) ∩ ⋂ i, ⋂ _ : i < j, {y | v j y < v i y} := by
    ext y
    obtain ⟨h1, h2⟩ := h.values v hv y
    simp only [Set.mem_preimage, Set.mem_singleton_iff, Set.mem_inter_iff, Set.mem_iInter, Set.mem_ofPred_eq]
    constructor
    · rintro rfl
      exact ⟨h1, h2⟩
    · rintro ⟨h3, h4⟩
      rcases lt_trichotomy (pick y) j with hlt | heq | hgt
      · exact absurd (h4 _ hlt) (not_lt.2 (h1 j))
      · exact heq
      · exact absurd (h2 _ hgt) (not_lt.2 (h3 _))
  rw [e]
  exact (MeasurableSet.iInter fun i => measurableSet_le (hm j) (hm i)).inter
    (MeasurableSet.iInter fun i => MeasurableSet.iInter fun _ => measurableSet_lt (hm j) (hm i))

section
variable {P : Measure Ω} {g : Gp n d} {nz : Fin n → ℝ} {f : (Fin d → ℝ) → Ω → ℝ} {e : Fin n → Ω → ℝ}
  {K : Matrix (Fin n) (Fin n) ℝ}

theorem predictive_lintegral_measurable (hK : Factored g K) (hs : g.yStd ≠ 0) (x : Fin d → ℝ)
    (F : (Fin n → ℝ) × ℝ → ℝ≥0∞) (hF : Measurable F) :
    Measurable fun y => ∫⁻ z, F (y, z) ∂(predictive ((g.fittedTo K y).mean x) (g.std x)) := by
  have hmean : Measurable fun y : Fin n → ℝ => (g.fittedTo K y).mean x := by
    simp only [fittedTo_mean hK hs]
    fun_prop
  have hF' : Measurable fun q : (Fin n → ℝ) × ℝ => F (q.1, q.2 + (g.fittedTo K q.1).mean x) := by
    exact hF.comp (measurable_fst.prodMk (measurable_snd.add (hmean.comp measurable_fst)))
  have : IsProbabilityMeasure (predictive 0 (g.std x)) := by unfold predictive; infer_instance
  have e2 : ∀ y, ∫⁻ z, F (y, z) ∂(predictive ((g.fittedTo K y).mean x) (g.std x)) =
      ∫⁻ r, F (y, r + (g.fittedTo K y).mean x) ∂(predictive 0 (g.std x)) := by
    intro y
    have e3 : predictive ((g.fittedTo K y).mean x) (g.std x) =
        (predictive 0 (g.std x)).map (fun r => r + (g.fittedTo K y).mean x) := by
      unfold predictive
      rw [gaussianReal_map_add_const, zero_add]
    have hz : Measurable fun z => F (y, z) := hF.comp (measurable_const.prodMk measurable_id)
    rw [e3, lintegral_map hz (by fun_prop)]
  simp only [e2]
  exact hF'.lintegral_prod_right'

/-- Averages under a rule that chooses the point by the data. -/
theorem rule_lintegral (h : SampleOf P g nz f e) (hK : Factored g K) (hN : NoisyCov g K nz) (hs : g.yStd ≠ 0)
    (hk : Noiseless g.kernel) (xs : Fin m → Fin d → ℝ) (q : (Fin n → ℝ) → Fin m) (hq : Measurable q)
    (F : (Fin n → ℝ) × ℝ → ℝ≥0∞) (hF : Measurable F) :
    ∫⁻ ω, F (observed g f e ω, f (xs (q (observed g f e ω))) ω) ∂P =
      ∫⁻ ω, ∫⁻ z, F (observed g f e ω, z) ∂(predictive ((g.fittedTo K (observed g f e ω)).mean (xs (q (observed g f e ω))))
        (g.std (xs (q (observed g f e ω))))) ∂P := by
  have hj := joint_law h hK hs (fun _ : Fin 1 => (0 : Fin d → ℝ))
  have hy : AEMeasurable (observed g f e) P := hj.fst.aemeasurable
  have hB : ∀ j, MeasurableSet {p : (Fin n → ℝ) × ℝ | q p.1 = j} := fun j =>
    (hq.comp measurable_fst) (measurableSet_singleton j)
  have hG : ∀ j, Measurable ({p : (Fin n → ℝ) × ℝ | q p.1 = j}.indicator F) := fun j => hF.indicator (hB j)
  have key := fun j => posterior_lintegral h hK hN hs (xs j) (C57_prior_variance _ hk (xs j)).1 _ (hG j)
  have hfx : ∀ j, AEMeasurable (f (xs j)) P := fun j => (h.law (.inl (xs j))).aemeasurable
  have e1 : ∀ ω, F (observed g f e ω, f (xs (q (observed g f e ω))) ω) =
      ∑ j, {p : (Fin n → ℝ) × ℝ | q p.1 = j}.indicator F (observed g f e ω, f (xs j) ω) := by
    intro ω
    rw [Finset.sum_eq_single (q (observed g f e ω))]
    · exact (Set.indicator_of_mem (by simp) _).symm
    · intro j _ hne
      exact Set.indicator_of_notMem (fun hm => hne (by simpa using hm.symm)) _
    · exact fun hn => absurd (Finset.mem_univ _) hn
  have e2 : ∀ ω, ∫⁻ z, F (observed g f e ω, z) ∂(predictive ((g.fittedTo K (observed g f e ω)).mean
        (xs (q (observed g f e ω)))) (g.std (xs (q (observed g f e ω))))) =
      ∑ j, ∫⁻ z, {p : (Fin n → ℝ) × ℝ | q p.1 = j}.indicator F (observed g f e ω, z)
        ∂(predictive ((g.fittedTo K (observed g f e ω)).mean (xs j)) (g.std (xs j))) := by
    intro ω
    rw [Finset.sum_eq_single (q (observed g f e ω))]
    · refine lintegral_congr fun z => ?_
      exact (Set.indicator_of_mem (by simp) _).symm
    · intro j _ hne
      rw [← lintegral_zero (μ := predictive ((g.fittedTo K (observed g f e ω)).mean (xs j)) (g.std (xs j)))]
      refine lintegral_congr fun z => ?_
      exact Set.indicator_of_notMem (fun hm => hne (by simpa using hm.symm)) _
    · exact fun hn => absurd (Finset.mem_univ _) hn
  simp only [e1, e2]
  rw [lintegral_finsetSum', lintegral_finsetSum']
  · exact Finset.sum_congr rfl fun j _ => key j
  · exact fun j _ => (predictive_lintegral_measurable hK hs (xs j) _ (hG j)).comp_aemeasurable hy
  · exact fun j _ => (hG j).comp_aemeasurable (hy.prodMk (hfx j))

theorem rule_aemeasurable (h : SampleOf P g nz f e) (hK : Factored g K) (hs : g.yStd ≠ 0) (xs : Fin m → Fin d → ℝ)
    (q : (Fin n → ℝ) → Fin m) (hq : Measurable q) : AEMeasurable (fun ω => f (xs (q (observed g f e ω))) ω) P := by
  have hj := joint_law h hK hs (fun _ : Fin 1 => (0 : Fin d → ℝ))
  have hy : AEMeasurable (observed g f e) P := hj.fst.aemeasurable
  have e1 : (fun ω => f (xs (q (observed g f e ω))) ω) =
      fun ω => ∑ j, {ω | q (observed g f e ω) = j}.indicator (f (xs j)) ω := by
    funext ω
    rw [Finset.sum_eq_single (q (observed g f e ω))]
    · exact (Set.indicator_of_mem (by simp) _).symm
    · intro j _ hne
      exact Set.indicator_of_notMem (fun hm => hne (by simpa using hm.symm)) _
    · exact fun hn => absurd (Finset.mem_univ _) hn
  rw [e1]
  refine Finset.aemeasurable_fun_sum _ fun j _ => ?_
  exact AEMeasurable.indicator₀ (h.law (.inl (xs j))).aemeasurable
    ((hq.comp_aemeasurable hy).nullMeasurable (measurableSet_singleton j))

theorem mean_measurable (hK : Factored g K) (hs : g.yStd ≠ 0) (x : Fin d → ℝ) :
    Measurable fun y : Fin n → ℝ => (g.fittedTo K y).mean x := by
  simp only [fittedTo_mean hK hs]
  fun_prop

theorem normCdf_measurable : Measurable normCdf := normCdf_strictMono.monotone.measurable

theorem zipWith_ofFn {α β γ : Type} (r : α → β → γ) (a : Fin m → α) (b : Fin m → β) :
    List.zipWith r (List.ofFn a) (List.ofFn b) = List.ofFn fun j => r (a j) (b j) := by
  refine List.ext_getElem (by simp) fun i h1 h2 => ?_
  simp

theorem gp_ei_values (xs : Fin m → Fin d → ℝ) (y : Fin n → ℝ) (b xi : ℝ) (kappa : Kappa) :
    gaussianAcquisition (.one (predAt g K xs y)) b .EI xi kappa = .ok (List.ofFn fun j =>
      -(if 0 < g.std (xs j) then expectedImprovement (b - xi) ((g.fittedTo K y).mean (xs j)) (g.std (xs j)) else 0)) := by
  simp only [gaussianAcquisition, Surrogate.single, ok_bind]
  rw [gaussianEi_eq _ rfl rfl (by simp [predAt]), ok_bind, predAt, zipWith_ofFn, List.map_ofFn]
  congr 2
  funext j
  simp only [Function.comp_apply]
  split
  · next h => rw [expectedImprovement_eq _ _ h]
  · rfl

theorem gp_pi_values (xs : Fin m → Fin d → ℝ) (y : Fin n → ℝ) (b xi : ℝ) (kappa : Kappa) :
    gaussianAcquisition (.one (predAt g K xs y)) b .PI xi kappa = .ok (List.ofFn fun j =>
      -(if 0 < g.std (xs j) then improvementProbability (b - xi) ((g.fittedTo K y).mean (xs j)) (g.std (xs j)) else 0)) := by
  simp only [gaussianAcquisition, Surrogate.single, ok_bind]
  rw [gaussianPi_eq _ rfl rfl (by simp [predAt]), ok_bind, predAt, zipWith_ofFn, List.map_ofFn]
  congr 2
  funext j
  simp only [Function.comp_apply]
  split
  · next h => rw [improvementProbability_eq _ _ h]
  · rfl

theorem gp_lcb_values (xs : Fin m → Fin d → ℝ) (y : Fin n → ℝ) (b xi k : ℝ) :
    gaussianAcquisition (.one (predAt g K xs y)) b .LCB xi (.num k) = .ok (List.ofFn fun j =>
      (g.fittedTo K y).mean (xs j) - k * g.std (xs j)) := by
  simp only [gaussianAcquisition, Surrogate.single, ok_bind, gaussianLcb, predAt, zipWith_ofFn]

theorem ei_measurable (hK : Factored g K) (hs : g.yStd ≠ 0) (x : Fin d → ℝ) {best : (Fin n → ℝ) → ℝ}
    (hb : Measurable best) (xi : ℝ) : Measurable fun y => -(if 0 < g.std x then
      expectedImprovement (best y - xi) ((g.fittedTo K y).mean x) (g.std x) else 0) := by
  by_cases h : 0 < g.std x
  · simp only [if_pos h, expectedImprovement_eq _ _ h]
    have h1 := mean_measurable hK hs x
    have h2 := normCdf_measurable
    have h3 := normPdf_continuous.measurable
    fun_prop
  · simp only [if_neg h]
    fun_prop

theorem pi_measurable (hK : Factored g K) (hs : g.yStd ≠ 0) (x : Fin d → ℝ) {best : (Fin n → ℝ) → ℝ}
    (hb : Measurable best) (xi : ℝ) : Measurable fun y => -(if 0 < g.std x then
      improvementProbability (best y - xi) ((g.fittedTo K y).mean x) (g.std x) else 0) := by
  by_cases h : 0 < g.std x
  · simp only [if_pos h, improvementProbability_eq _ _ h]
    have h1 := mean_measurable hK hs x
    have h2 := normCdf_measurable
    fun_prop
  · simp only [if_neg h]
    fun_prop

end

end Skopt

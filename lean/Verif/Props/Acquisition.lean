import Verif.Lemmas.Acquisition

/-!
# C53: acquisition values; C54: acquisition gradients
-/

namespace Skopt

open MeasureTheory ProbabilityTheory Real

/-! # C53 – values -/

/-- One value per predicted mean, computed from that mean and the standard deviation at the same position. -/
theorem gaussianEi_eq (p : Pred) (hm : p.muDim = 1) (hs : p.stdDim = 1) (hl : p.mu.length = p.std.length)
    (yOpt xi : ℝ) : gaussianEi p yOpt xi = .ok (List.zipWith (fun m s => if 0 < s then
      (yOpt - xi - m) * normCdf ((yOpt - xi - m) / s) + s * normPdf ((yOpt - xi - m) / s) else 0) p.mu p.std) := by
  unfold gaussianEi
  rw [if_neg (by simp [hm, hs])]
  have h := maskAssign_map (fun m s => (yOpt - xi - m) * normCdf ((yOpt - xi - m) / s) +
    s * normPdf ((yOpt - xi - m) / s)) p.mu p.std
  rw [hl, Nat.sub_self, List.replicate_zero, List.append_nil] at h
  rw [← h]
  simp only [Except.ok.injEq]
  congr 1
  generalize maskSelect (stdMask p.std) p.mu = a
  generalize maskSelect (stdMask p.std) p.std = b
  induction a generalizing b with
  | nil => simp
  | cons x a ih =>
    cases b with
    | nil => simp
    | cons y b => simpa using ih b

theorem gaussianPi_eq (p : Pred) (hm : p.muDim = 1) (hs : p.stdDim = 1) (hl : p.mu.length = p.std.length)
    (yOpt xi : ℝ) : gaussianPi p yOpt xi = .ok (List.zipWith (fun m s => if 0 < s then
      normCdf ((yOpt - xi - m) / s) else 0) p.mu p.std) := by
  unfold gaussianPi
  rw [if_neg (by simp [hm, hs])]
  have h := maskAssign_map (fun m s => normCdf ((yOpt - xi - m) / s)) p.mu p.std
  rw [hl, Nat.sub_self, List.replicate_zero, List.append_nil] at h
  rw [← h]
  simp only [Except.ok.injEq]
  congr 1
  generalize maskSelect (stdMask p.std) p.mu = a
  generalize maskSelect (stdMask p.std) p.std = b
  induction a generalizing b with
  | nil => simp
  | cons x a ih =>
    cases b with
    | nil => simp
    | cons y b => simpa using ih b

/-- **C53 (EI).** At every row with a positive predicted standard deviation, `gaussian_ei` is the expectation of
the improvement below `y_opt - xi`, clipped at zero, under the predictive distribution.  At rows with standard
deviation zero the value is 0 (there the statement is false, see `C53_refuted_ei_zero_std`). -/
theorem C53_expected_improvement_partial (p : Pred) (hm : p.muDim = 1) (hs : p.stdDim = 1)
    (hl : p.mu.length = p.std.length) (yOpt xi : ℝ) :
    ∃ vals, gaussianEi p yOpt xi = .ok vals ∧ vals.length = p.mu.length ∧
      ∀ (i : Nat) (m s v : ℝ), p.mu[i]? = some m → p.std[i]? = some s → vals[i]? = some v →
        (0 < s → v = expectedImprovement (yOpt - xi) m s) ∧ (s ≤ 0 → v = 0) := by
  refine ⟨_, gaussianEi_eq p hm hs hl yOpt xi, by simp [hl], ?_⟩
  intro i m s v h1 h2 h3
  rw [List.getElem?_zipWith, h1, h2] at h3
  simp only [Option.some.injEq] at h3
  subst h3
  constructor
  · intro h
    rw [if_pos h, expectedImprovement_eq _ _ h]
  · intro h
    rw [if_neg (not_lt.2 h)]

/-- A prediction at two rows. -/
example := C53_expected_improvement_partial ⟨[1, 5 / 2], [1 / 2, 2], 1, 1⟩ rfl rfl rfl 2 0.01

/-- Mean 1 and standard deviation 0 against an incumbent of 3: the improvement is 2 for certain (`xi = 0`), but
the value is 0. -/
theorem C53_refuted_ei_zero_std :
    gaussianEi ⟨[1], [0], 1, 1⟩ 3 0 = .ok [0] ∧ expectedImprovement (3 - 0) 1 0 = 2 := by
  constructor
  · rw [gaussianEi_eq _ rfl rfl rfl]
    simp
  · unfold expectedImprovement predictive
    have : (NNReal.mk ((0 : ℝ) ^ 2) (sq_nonneg 0)) = 0 := by ext; simp
    rw [this, gaussianReal_zero_var, integral_dirac]
    norm_num

/-- **C53 (PI).** At every row with a positive predicted standard deviation, `gaussian_pi` is the probability of a
value below `y_opt - xi` under the predictive distribution. -/
theorem C53_probability_of_improvement_partial (p : Pred) (hm : p.muDim = 1) (hs : p.stdDim = 1)
    (hl : p.mu.length = p.std.length) (yOpt xi : ℝ) :
    ∃ vals, gaussianPi p yOpt xi = .ok vals ∧ vals.length = p.mu.length ∧
      ∀ (i : Nat) (m s v : ℝ), p.mu[i]? = some m → p.std[i]? = some s → vals[i]? = some v →
        (0 < s → v = improvementProbability (yOpt - xi) m s) ∧ (s ≤ 0 → v = 0) := by
  refine ⟨_, gaussianPi_eq p hm hs hl yOpt xi, by simp [hl], ?_⟩
  intro i m s v h1 h2 h3
  rw [List.getElem?_zipWith, h1, h2] at h3
  simp only [Option.some.injEq] at h3
  subst h3
  constructor
  · intro h
    rw [if_pos h, improvementProbability_eq _ _ h]
  · intro h
    rw [if_neg (not_lt.2 h)]

example := C53_probability_of_improvement_partial ⟨[1, 5 / 2], [1 / 2, 2], 1, 1⟩ rfl rfl rfl 2 0.01

/-- The same for the probability: improvement is certain, but the value is 0. -/
theorem C53_refuted_pi_zero_std :
    gaussianPi ⟨[1], [0], 1, 1⟩ 3 0 = .ok [0] ∧ improvementProbability (3 - 0) 1 0 = 1 := by
  constructor
  · rw [gaussianPi_eq _ rfl rfl rfl]
    simp
  · unfold improvementProbability predictive
    have : (NNReal.mk ((0 : ℝ) ^ 2) (sq_nonneg 0)) = 0 := by ext; simp
    rw [this, gaussianReal_zero_var, measureReal_def, Measure.dirac_apply' _ measurableSet_Iio]
    norm_num

/-- **C53 (LCB).** With a number `kappa`, the value below which the predictive distribution has the fixed mass
`Φ(-kappa)`, at every row: a lower confidence bound. -/
theorem C53_lower_confidence_bound (p : Pred) (hl : p.mu.length = p.std.length) (k : ℝ) :
    (gaussianLcb p (.num k)).length = p.mu.length ∧
    ∀ (i : Nat) (m s v : ℝ), p.mu[i]? = some m → p.std[i]? = some s → (gaussianLcb p (.num k))[i]? = some v →
      0 < s → improvementProbability v m s = normCdf (-k) := by
  refine ⟨by simp [gaussianLcb, hl], ?_⟩
  intro i m s v h1 h2 h3 hs
  simp only [gaussianLcb, List.getElem?_zipWith, h1, h2, Option.some.injEq] at h3
  subst h3
  rw [improvementProbability_eq _ _ hs]
  congr 1
  field_simp
  ring

example := C53_lower_confidence_bound ⟨[1, 5 / 2], [1 / 2, 2], 1, 1⟩ rfl 1.96

/-- **C53 (range and monotonicity of EI).** Never negative; larger predicted means give smaller values, larger
standard deviations larger ones. -/
theorem C53_ei_monotone (p : Pred) (hm : p.muDim = 1) (hs : p.stdDim = 1) (hl : p.mu.length = p.std.length)
    (yOpt xi : ℝ) (vals : List ℝ) (h : gaussianEi p yOpt xi = .ok vals) :
    (∀ v ∈ vals, 0 ≤ v) ∧
    ∀ (i j : Nat) (m m' s s' v v' : ℝ), p.mu[i]? = some m → p.std[i]? = some s → vals[i]? = some v →
      p.mu[j]? = some m' → p.std[j]? = some s' → vals[j]? = some v' →
      m ≤ m' → s' ≤ s → v' ≤ v := by
  rw [gaussianEi_eq p hm hs hl] at h
  injection h with h
  subst h
  have key : ∀ m s : ℝ, (if 0 < s then (yOpt - xi - m) * normCdf ((yOpt - xi - m) / s) +
      s * normPdf ((yOpt - xi - m) / s) else 0) = if 0 < s then expectedImprovement (yOpt - xi) m s else 0 := by
    intro m s
    split
    · next h => rw [expectedImprovement_eq _ _ h]
    · rfl
  have nonneg : ∀ m s : ℝ, 0 ≤ expectedImprovement (yOpt - xi) m s := fun m s =>
    integral_nonneg fun f => le_max_right _ _
  have antiM : ∀ m m' s : ℝ, 0 < s → m ≤ m' →
      expectedImprovement (yOpt - xi) m' s ≤ expectedImprovement (yOpt - xi) m s := by
    intro m m' s hs hmm
    have hint : ∀ a : ℝ, Integrable (fun z : ℝ => max (yOpt - xi - (s * z + a)) 0) (gaussianReal 0 1) := by
      intro a
      have h1 : Integrable (fun z : ℝ => z) (gaussianReal 0 1) :=
        (memLp_id_gaussianReal (μ := 0) (v := 1) 1).integrable (by norm_num)
      have h2 : Integrable (fun z : ℝ => yOpt - xi - (s * z + a)) (gaussianReal 0 1) :=
        (integrable_const _).sub ((h1.const_mul s).add (integrable_const _))
      exact h2.pos_part
    unfold expectedImprovement
    rw [predictive_map, predictive_map, integral_map (by fun_prop) (by fun_prop),
      integral_map (by fun_prop) (by fun_prop)]
    refine integral_mono (hint _) (hint _) fun z => ?_
    exact max_le_max (by linarith) le_rfl
  have monoS : ∀ m s s' : ℝ, 0 < s' → s' ≤ s →
      expectedImprovement (yOpt - xi) m s' ≤ expectedImprovement (yOpt - xi) m s := by
    intro m s s' hs' hss
    rw [expectedImprovement_eq _ _ hs', expectedImprovement_eq _ _ (hs'.trans_le hss)]
    set c := yOpt - xi - m with hc
    have hmono : MonotoneOn (fun u : ℝ => c * normCdf (c / u) + u * normPdf (c / u)) (Set.Ioi 0) := by
      have hd : ∀ u ∈ Set.Ioi (0 : ℝ), HasDerivAt (fun u : ℝ => c * normCdf (c / u) + u * normPdf (c / u))
          (normPdf (c / u)) u := by
        intro u hu
        have hu' : u ≠ 0 := ne_of_gt hu
        have h1 : HasDerivAt (fun u : ℝ => c / u) (-c / u ^ 2) u := by
          have := (hasDerivAt_inv hu').const_mul c
          refine (this.congr_deriv ?_).congr_of_eventuallyEq (Filter.Eventually.of_forall fun x => ?_)
          · field_simp
          · simp [div_eq_mul_inv]
        have h2 := ((normCdf_hasDerivAt (c / u)).comp u h1).const_mul c
        have h3 := (hasDerivAt_id u).mul ((normPdf_hasDerivAt (c / u)).comp u h1)
        refine (h2.add h3).congr_deriv ?_
        simp only [id, Function.comp_apply]
        field_simp
        ring
      refine monotoneOn_of_deriv_nonneg (convex_Ioi 0)
        (fun u hu => (hd u hu).continuousAt.continuousWithinAt)
        (fun u hu => (hd u (interior_subset hu)).differentiableAt.differentiableWithinAt) ?_
      intro u hu
      rw [(hd u (interior_subset hu)).deriv]
      exact (normPdf_pos _).le
    exact hmono hs' (hs'.trans_le hss) hss
  constructor
  · intro v hv
    obtain ⟨i, hi⟩ := List.getElem?_of_mem hv
    rw [List.getElem?_zipWith] at hi
    split at hi
    · injection hi with hi
      subst hi
      rw [key]
      split
      · exact nonneg _ _
      · exact le_rfl
    · cases hi
  · intro i j m m' s s' v v' h1 h2 h3 h4 h5 h6 hmm hss
    rw [List.getElem?_zipWith, h1, h2] at h3
    rw [List.getElem?_zipWith, h4, h5] at h6
    simp only [Option.some.injEq] at h3 h6
    subst h3 h6
    rw [key, key]
    by_cases hs' : 0 < s'
    · have hs : 0 < s := hs'.trans_le hss
      rw [if_pos hs', if_pos hs]
      exact (antiM m m' s' hs' hmm).trans (monoS m s s' hs' hss)
    · rw [if_neg hs']
      split
      · exact nonneg _ _
      · exact le_rfl

/-- Of two rows the one with the smaller mean and the larger standard deviation has the larger value. -/
example (vals : List ℝ) (h : gaussianEi ⟨[1, 3], [2, 1], 1, 1⟩ 2 0.01 = .ok vals) (v v' : ℝ) (h0 : vals[0]? = some v)
    (h1 : vals[1]? = some v') : v' ≤ v :=
  (C53_ei_monotone ⟨[1, 3], [2, 1], 1, 1⟩ rfl rfl rfl 2 0.01 vals h).2 0 1 1 3 2 1 v v' rfl rfl h0 rfl rfl h1
    (by norm_num) (by norm_num)

/-- **C53 (PI range and monotonicity).** Values are in [0, 1] and larger predicted means give smaller values at
equal standard deviations. -/
theorem C53_pi_monotone (p : Pred) (hm : p.muDim = 1) (hs : p.stdDim = 1) (hl : p.mu.length = p.std.length)
    (yOpt xi : ℝ) (vals : List ℝ) (h : gaussianPi p yOpt xi = .ok vals) :
    (∀ v ∈ vals, 0 ≤ v ∧ v ≤ 1) ∧
    ∀ (i j : Nat) (m m' s v v' : ℝ), p.mu[i]? = some m → p.std[i]? = some s → vals[i]? = some v →
      p.mu[j]? = some m' → p.std[j]? = some s → vals[j]? = some v' → 0 < s → m < m' → v' < v := by
  rw [gaussianPi_eq p hm hs hl] at h
  injection h with h
  subst h
  constructor
  · intro v hv
    obtain ⟨i, hi⟩ := List.getElem?_of_mem hv
    rw [List.getElem?_zipWith] at hi
    split at hi
    · injection hi with hi
      subst hi
      split
      · exact ⟨normCdf_nonneg _, normCdf_le_one _⟩
      · exact ⟨le_rfl, zero_le_one⟩
    · cases hi
  · intro i j m m' s v v' h1 h2 h3 h4 h5 h6 hs hmm
    rw [List.getElem?_zipWith, h1, h2] at h3
    rw [List.getElem?_zipWith, h4, h5] at h6
    simp only [Option.some.injEq, if_pos hs] at h3 h6
    subst h3 h6
    exact normCdf_strictMono (by gcongr)

example (vals : List ℝ) (h : gaussianPi ⟨[1, 3], [2, 2], 1, 1⟩ 2 0.01 = .ok vals) (v v' : ℝ) (h0 : vals[0]? = some v)
    (h1 : vals[1]? = some v') : v' < v :=
  (C53_pi_monotone ⟨[1, 3], [2, 2], 1, 1⟩ rfl rfl rfl 2 0.01 vals h).2 0 1 1 3 2 v v' rfl rfl h0 rfl rfl h1
    (by norm_num) (by norm_num)

/-- **C53 (what is minimised).** `_gaussian_acquisition`, which the optimizer minimises, is minus the expected
improvement (probability of improvement), times the expectation of the inverse of the time in the per-second
modes, at every row with positive standard deviation. -/
theorem C53_acquisition_partial (p t : Pred) (hm : p.muDim = 1) (hs : p.stdDim = 1)
    (hl : p.mu.length = p.std.length) (yOpt xi : ℝ) (kappa : Kappa) :
    ∃ ei pi eips pips, gaussianAcquisition (.one p) yOpt .EI xi kappa = .ok ei ∧
      gaussianAcquisition (.one p) yOpt .PI xi kappa = .ok pi ∧
      gaussianAcquisition (.multi [p, t]) yOpt .EIps xi kappa = .ok eips ∧
      gaussianAcquisition (.multi [p, t]) yOpt .PIps xi kappa = .ok pips ∧
      ∀ (i : Nat) (m s l u : ℝ), p.mu[i]? = some m → p.std[i]? = some s → t.mu[i]? = some l →
        t.std[i]? = some u → 0 < s →
        ei[i]? = some (-expectedImprovement (yOpt - xi) m s) ∧
        pi[i]? = some (-improvementProbability (yOpt - xi) m s) ∧
        eips[i]? = some (-(expectedImprovement (yOpt - xi) m s * expectedRate l u)) ∧
        pips[i]? = some (-(improvementProbability (yOpt - xi) m s * expectedRate l u)) := by
  refine ⟨_, _, _, _, by simp only [gaussianAcquisition, Surrogate.single, ok_bind, gaussianEi_eq p hm hs hl]; rfl,
    by simp only [gaussianAcquisition, Surrogate.single, ok_bind, gaussianPi_eq p hm hs hl]; rfl,
    by simp only [gaussianAcquisition, Surrogate.pair, ok_bind, gaussianEi_eq p hm hs hl]; rfl,
    by simp only [gaussianAcquisition, Surrogate.pair, ok_bind, gaussianPi_eq p hm hs hl]; rfl, ?_⟩
  intro i m s l u h1 h2 h3 h4 hs
  simp only [perSecond, List.getElem?_map, List.getElem?_zipWith, h1, h2, h3, h4, Option.map_some, if_pos hs,
    expectedImprovement_eq _ _ hs, improvementProbability_eq _ _ hs, expectedRate_eq, Option.some.injEq]
  refine ⟨trivial, trivial, ?_, ?_⟩ <;> ring

/-- The hypotheses are met by a prediction at three rows, one of them with standard deviation zero. -/
example : ∃ vals, gaussianEi ⟨[1, 2, 3], [1/2, 0, 2], 1, 1⟩ 2 0.01 = .ok vals ∧ vals.length = 3 ∧
    vals[2]? = some (expectedImprovement (2 - 0.01) 3 2) ∧ vals[1]? = some 0 := by
  obtain ⟨vals, h1, h2, h3⟩ := C53_expected_improvement_partial ⟨[1, 2, 3], [1/2, 0, 2], 1, 1⟩ rfl rfl rfl 2 0.01
  refine ⟨vals, h1, h2, ?_, ?_⟩
  · have : 2 < vals.length := by rw [h2]; decide
    rw [List.getElem?_eq_getElem this]
    rw [(h3 2 3 2 vals[2] rfl rfl (List.getElem?_eq_getElem this)).1 (by norm_num)]
  · have : 1 < vals.length := by rw [h2]; decide
    rw [List.getElem?_eq_getElem this]
    rw [(h3 1 2 0 vals[1] rfl rfl (List.getElem?_eq_getElem this)).2 le_rfl]

/-! # C54 – gradients -/

/-- The gradients predicted at `x` are the partial derivatives of the predicted mean and standard deviation. -/
structure PredictsGradient {d : Nat} (P : (Fin d → ℝ) → PredGrad) (x : Fin d → ℝ) : Prop where
  muLength : (P x).muGrad.length = d
  stdLength : (P x).stdGrad.length = d
  mu : ∀ (i : Fin d) (g : ℝ), (P x).muGrad[i.val]? = some g →
    HasDerivAt (fun t => (P (Function.update x i t)).mu) g (x i)
  std : ∀ (i : Fin d) (g : ℝ), (P x).stdGrad[i.val]? = some g →
    HasDerivAt (fun t => (P (Function.update x i t)).std) g (x i)

/-- The value part of a returned pair. -/
def acqValueOf : Except PyErr (ℝ × List ℝ) → ℝ
  | .ok (v, _) => v
  | .error _ => 0

/-- Derivative of `t = (c - μ) / σ`. -/
theorem hasDerivAt_scaled {m s : ℝ → ℝ} {m' s' c a : ℝ} (hm : HasDerivAt m m' a) (hs : HasDerivAt s s' a)
    (h0 : 0 < s a) : HasDerivAt (fun t => (c - m t) / s t) ((-m' * s a - s' * (c - m a)) / s a ^ 2) a := by
  have h := (hm.const_sub c).div hs h0.ne'
  exact h.congr_deriv (by ring)

theorem hasDerivAt_pi {m s : ℝ → ℝ} {m' s' c a : ℝ} (hm : HasDerivAt m m' a) (hs : HasDerivAt s s' a)
    (h0 : 0 < s a) : HasDerivAt (fun t => if 0 < s t then normCdf ((c - m t) / s t) else 0)
      ((-m' * s a - s' * (c - m a)) / s a ^ 2 * normPdf ((c - m a) / s a)) a := by
  have h := (normCdf_hasDerivAt _).comp a (hasDerivAt_scaled (c := c) hm hs h0)
  refine (h.congr_deriv (mul_comm _ _)).congr_of_eventuallyEq ?_
  filter_upwards [hs.continuousAt.eventually (lt_mem_nhds h0)] with t ht
  rw [if_pos ht]
  rfl

theorem hasDerivAt_ei {m s : ℝ → ℝ} {m' s' c a : ℝ} (hm : HasDerivAt m m' a) (hs : HasDerivAt s s' a)
    (h0 : 0 < s a) : HasDerivAt (fun t => if 0 < s t then (c - m t) * normCdf ((c - m t) / s t) +
        s t * normPdf ((c - m t) / s t) else 0)
      ((-m' * normCdf ((c - m a) / s a) - -(c - m a) * ((-m' * s a - s' * (c - m a)) / s a ^ 2 *
        normPdf ((c - m a) / s a))) + (s' * normPdf ((c - m a) / s a) + -(c - m a) *
        ((-m' * s a - s' * (c - m a)) / s a ^ 2 * normPdf ((c - m a) / s a)))) a := by
  have ht := hasDerivAt_scaled (c := c) hm hs h0
  have h1 := (hm.const_sub c).mul ((normCdf_hasDerivAt _).comp a ht)
  have h2 := hs.mul ((normPdf_hasDerivAt _).comp a ht)
  refine ((h1.add h2).congr_deriv ?_).congr_of_eventuallyEq ?_
  · simp only [Function.comp_apply]
    have := h0.ne'
    field_simp
    ring
  · filter_upwards [hs.continuousAt.eventually (lt_mem_nhds h0)] with t ht
    rw [if_pos ht]
    rfl

theorem getElem?_of_lengths {d : Nat} {xs : List ℝ} (h : xs.length = d) (i : Fin d) :
    ∃ g, xs[i.val]? = some g := ⟨_, List.getElem?_eq_getElem (by rw [h]; exact i.isLt)⟩

theorem update_self {d : Nat} (x : Fin d → ℝ) (i : Fin d) : Function.update x i (x i) = x :=
  Function.update_eq_self i x

/-- The gradient of `gaussian_ei` at a point with positive standard deviation. -/
theorem ei_gradient {d : Nat} {P : (Fin d → ℝ) → PredGrad} {x : Fin d → ℝ} (hP : PredictsGradient P x)
    (h0 : 0 < (P x).std) (yOpt xi : ℝ) :
    (gaussianEiGrad (P x) yOpt xi).2.length = d ∧ ∀ (i : Fin d) (g : ℝ),
      (gaussianEiGrad (P x) yOpt xi).2[i.val]? = some g →
      HasDerivAt (fun t => (gaussianEiGrad (P (Function.update x i t)) yOpt xi).1) g (x i) := by
  constructor
  · simp only [gaussianEiGrad, if_pos h0, List.length_zipWith, List.length_map, hP.muLength, hP.stdLength,
      min_self]
  · intro i g hg
    obtain ⟨a, ha⟩ := getElem?_of_lengths hP.muLength i
    obtain ⟨b, hb⟩ := getElem?_of_lengths hP.stdLength i
    have h := hasDerivAt_ei (c := yOpt - xi) (hP.mu i a ha) (hP.std i b hb) (by rw [update_self]; exact h0)
    rw [update_self] at h
    simp only [gaussianEiGrad, if_pos h0, List.getElem?_zipWith, List.getElem?_map, ha, hb, Option.map_some,
      Option.some.injEq] at hg
    rw [hg] at h
    refine h.congr_of_eventuallyEq (Filter.Eventually.of_forall fun t => ?_)
    simp only [gaussianEiGrad]
    split <;> rfl

/-- The gradient of `gaussian_pi` at a point with positive standard deviation. -/
theorem pi_gradient {d : Nat} {P : (Fin d → ℝ) → PredGrad} {x : Fin d → ℝ} (hP : PredictsGradient P x)
    (h0 : 0 < (P x).std) (yOpt xi : ℝ) :
    (gaussianPiGrad (P x) yOpt xi).2.length = d ∧ ∀ (i : Fin d) (g : ℝ),
      (gaussianPiGrad (P x) yOpt xi).2[i.val]? = some g →
      HasDerivAt (fun t => (gaussianPiGrad (P (Function.update x i t)) yOpt xi).1) g (x i) := by
  constructor
  · simp only [gaussianPiGrad, if_pos h0, List.length_zipWith, List.length_map, hP.muLength, hP.stdLength,
      min_self]
  · intro i g hg
    obtain ⟨a, ha⟩ := getElem?_of_lengths hP.muLength i
    obtain ⟨b, hb⟩ := getElem?_of_lengths hP.stdLength i
    have h := hasDerivAt_pi (c := yOpt - xi) (hP.mu i a ha) (hP.std i b hb) (by rw [update_self]; exact h0)
    rw [update_self] at h
    simp only [gaussianPiGrad, if_pos h0, List.getElem?_zipWith, List.getElem?_map, ha, hb, Option.map_some,
      Option.some.injEq] at hg
    rw [hg] at h
    refine h.congr_of_eventuallyEq (Filter.Eventually.of_forall fun t => ?_)
    simp only [gaussianPiGrad]
    split <;> rfl

/-- The gradient of the per-second quantity. -/
theorem perSecond_gradient {d : Nat} {V : (Fin d → ℝ) → ℝ × List ℝ} {T : (Fin d → ℝ) → PredGrad}
    {x : Fin d → ℝ} (hT : PredictsGradient T x) (hl : (V x).2.length = d)
    (hV : ∀ (i : Fin d) (g : ℝ), (V x).2[i.val]? = some g →
      HasDerivAt (fun t => (V (Function.update x i t)).1) g (x i)) :
    (perSecondGrad (V x) (T x)).2.length = d ∧ ∀ (i : Fin d) (g : ℝ),
      (perSecondGrad (V x) (T x)).2[i.val]? = some g →
      HasDerivAt (fun t => (perSecondGrad (V (Function.update x i t)) (T (Function.update x i t))).1) g (x i) := by
  constructor
  · simp only [perSecondGrad, List.length_zipWith, List.length_map, hl, hT.muLength, hT.stdLength, min_self]
  · intro i g hg
    obtain ⟨a, ha⟩ := getElem?_of_lengths hT.muLength i
    obtain ⟨b, hb⟩ := getElem?_of_lengths hT.stdLength i
    obtain ⟨v, hv⟩ := getElem?_of_lengths hl i
    have h1 := (hT.mu i a ha).neg.add (((hT.std i b hb).pow 2).const_mul 0.5)
    have h2 := (hV i v hv).mul h1.exp
    simp only [perSecondGrad, List.getElem?_zipWith, List.getElem?_map, ha, hb, hv, Option.map_some,
      Option.some.injEq] at hg
    subst hg
    refine (h2.congr_deriv ?_).congr_of_eventuallyEq (Filter.Eventually.of_forall fun t => ?_)
    · simp only [update_self, Pi.add_apply, Pi.neg_apply, Pi.pow_apply]
      norm_num
      ring
    · simp [perSecondGrad]

/-- **C54.** Where the standard deviation is positive and the predicted gradients are the derivatives of the
predictions, the gradient returned by `_gaussian_acquisition` consists of the partial derivatives of the value it
returns, for every acquisition function. -/
theorem C54_acquisition_gradient {d : Nat} (P T : (Fin d → ℝ) → PredGrad) (x : Fin d → ℝ)
    (hP : PredictsGradient P x) (hT : PredictsGradient T x) (h0 : 0 < (P x).std) (yOpt xi : ℝ) (kappa : Kappa)
    (acq : AcqFunc) (hacq : acq ≠ .gpHedge) :
    let f := fun z => gaussianAcquisitionGrad (if acq.isPs then .multi [P z, T z] else .one (P z)) yOpt acq xi kappa
    ∃ v grad, f x = .ok (v, grad) ∧ grad.length = d ∧ ∀ (i : Fin d) (g : ℝ), grad[i.val]? = some g →
      HasDerivAt (fun t => acqValueOf (f (Function.update x i t))) g (x i) := by
  have negGrad : ∀ {V : (Fin d → ℝ) → ℝ × List ℝ}, (V x).2.length = d →
      (∀ (i : Fin d) (g : ℝ), (V x).2[i.val]? = some g →
        HasDerivAt (fun t => (V (Function.update x i t)).1) g (x i)) →
      ((V x).2.map fun g => -g).length = d ∧ ∀ (i : Fin d) (g : ℝ), ((V x).2.map fun g => -g)[i.val]? = some g →
        HasDerivAt (fun t => -(V (Function.update x i t)).1) g (x i) := by
    intro V hl hV
    refine ⟨by simpa using hl, fun i g hg => ?_⟩
    rw [List.getElem?_map] at hg
    obtain ⟨v, hv⟩ := getElem?_of_lengths hl i
    rw [hv] at hg
    simp only [Option.map_some, Option.some.injEq] at hg
    subst hg
    exact (hV i v hv).neg
  obtain ⟨e1, e2⟩ := ei_gradient hP h0 yOpt xi
  obtain ⟨p1, p2⟩ := pi_gradient hP h0 yOpt xi
  obtain ⟨e3, e4⟩ := negGrad (V := fun z => gaussianEiGrad (P z) yOpt xi) e1 e2
  obtain ⟨p3, p4⟩ := negGrad (V := fun z => gaussianPiGrad (P z) yOpt xi) p1 p2
  intro f
  cases acq with
  | gpHedge => exact absurd rfl hacq
  | EI => exact ⟨_, _, rfl, e3, e4⟩
  | PI => exact ⟨_, _, rfl, p3, p4⟩
  | EIps => exact ⟨_, _, rfl, perSecond_gradient
      (V := fun z => (-(gaussianEiGrad (P z) yOpt xi).1, (gaussianEiGrad (P z) yOpt xi).2.map fun g => -g)) hT e3 e4⟩
  | PIps => exact ⟨_, _, rfl, perSecond_gradient
      (V := fun z => (-(gaussianPiGrad (P z) yOpt xi).1, (gaussianPiGrad (P z) yOpt xi).2.map fun g => -g)) hT p3 p4⟩
  | LCB =>
    cases kappa with
    | inf =>
      refine ⟨_, _, rfl, by simpa using hP.stdLength, fun i g hg => ?_⟩
      obtain ⟨b, hb⟩ := getElem?_of_lengths hP.stdLength i
      rw [List.getElem?_map, hb] at hg
      simp only [Option.map_some, Option.some.injEq] at hg
      subst hg
      exact (hP.std i b hb).neg
    | num k =>
      refine ⟨_, _, rfl, by simp [hP.stdLength, hP.muLength], fun i g hg => ?_⟩
      obtain ⟨a, ha⟩ := getElem?_of_lengths hP.muLength i
      obtain ⟨b, hb⟩ := getElem?_of_lengths hP.stdLength i
      rw [List.getElem?_zipWith, ha, hb] at hg
      simp only [Option.some.injEq] at hg
      subst hg
      exact (hP.mu i a ha).sub ((hP.std i b hb).const_mul k)

/-- **C54 (same value).** Asking for the gradient does not change the value. -/
theorem C54_same_value (p t : PredGrad) (yOpt xi : ℝ) (kappa : Kappa) (acq : AcqFunc) (v : ℝ) (g : List ℝ)
    (h : gaussianAcquisitionGrad (if acq.isPs then .multi [p, t] else .one p) yOpt acq xi kappa = .ok (v, g)) :
    gaussianAcquisition (if acq.isPs then .multi [⟨[p.mu], [p.std], 1, 1⟩, ⟨[t.mu], [t.std], 1, 1⟩]
      else .one ⟨[p.mu], [p.std], 1, 1⟩) yOpt acq xi kappa = .ok [v] := by
  have he := gaussianEi_eq ⟨[p.mu], [p.std], 1, 1⟩ rfl rfl rfl yOpt xi
  have hp := gaussianPi_eq ⟨[p.mu], [p.std], 1, 1⟩ rfl rfl rfl yOpt xi
  have he' : (gaussianEiGrad p yOpt xi).1 = if 0 < p.std then (yOpt - xi - p.mu) *
      normCdf ((yOpt - xi - p.mu) / p.std) + p.std * normPdf ((yOpt - xi - p.mu) / p.std) else 0 := by
    unfold gaussianEiGrad
    split <;> rfl
  have hp' : (gaussianPiGrad p yOpt xi).1 = if 0 < p.std then normCdf ((yOpt - xi - p.mu) / p.std) else 0 := by
    unfold gaussianPiGrad
    split <;> rfl
  cases acq with
  | gpHedge => cases h
  | LCB =>
    cases kappa <;>
    · simp only [gaussianAcquisitionGrad, AcqFunc.isPs, Surrogate.single, ok_bind, gaussianLcbGrad,
        Bool.false_eq_true, if_false, Except.ok.injEq, Prod.mk.injEq] at h
      rw [← h.1]
      rfl
  | EI =>
    simp only [gaussianAcquisitionGrad, AcqFunc.isPs, Surrogate.single, ok_bind, Bool.false_eq_true, if_false,
      Except.ok.injEq, Prod.mk.injEq] at h
    rw [← h.1, he']
    simp [gaussianAcquisition, AcqFunc.isPs, Surrogate.single, ok_bind, he]
  | PI =>
    simp only [gaussianAcquisitionGrad, AcqFunc.isPs, Surrogate.single, ok_bind, Bool.false_eq_true, if_false,
      Except.ok.injEq, Prod.mk.injEq] at h
    rw [← h.1, hp']
    simp [gaussianAcquisition, AcqFunc.isPs, Surrogate.single, ok_bind, hp]
  | EIps =>
    simp only [gaussianAcquisitionGrad, AcqFunc.isPs, Surrogate.pair, ok_bind, if_true, perSecondGrad,
      Except.ok.injEq, Prod.mk.injEq] at h
    rw [← h.1, he']
    simp [gaussianAcquisition, AcqFunc.isPs, Surrogate.pair, ok_bind, he, perSecond]
  | PIps =>
    simp only [gaussianAcquisitionGrad, AcqFunc.isPs, Surrogate.pair, ok_bind, if_true, perSecondGrad,
      Except.ok.injEq, Prod.mk.injEq] at h
    rw [← h.1, hp']
    simp [gaussianAcquisition, AcqFunc.isPs, Surrogate.pair, ok_bind, hp, perSecond]

/-- A surrogate in two variables: mean `x₀²  + x₁`, standard deviation `1 + x₀²`. -/
noncomputable def toyPred (x : Fin 2 → ℝ) : PredGrad :=
  ⟨x 0 ^ 2 + x 1, 1 + x 0 ^ 2, [2 * x 0, 1], [2 * x 0, 0]⟩

theorem toyPred_gradient (x : Fin 2 → ℝ) : PredictsGradient toyPred x := by
  have hsq : ∀ a : ℝ, HasDerivAt (fun t : ℝ => t ^ 2) (2 * a) a := fun a =>
    (hasDerivAt_pow 2 a).congr_deriv (by norm_num)
  refine ⟨rfl, rfl, ?_, ?_⟩
  · intro i g hg
    fin_cases i
    · simp only [toyPred, List.getElem?_cons_zero, Option.some.injEq] at hg
      subst hg
      simpa [toyPred] using (hsq (x 0)).add_const (x 1)
    · simp only [toyPred, List.getElem?_cons_succ, List.getElem?_cons_zero, Option.some.injEq] at hg
      subst hg
      simpa [toyPred] using (hasDerivAt_id (x 1)).const_add (x 0 ^ 2)
  · intro i g hg
    fin_cases i
    · simp only [toyPred, List.getElem?_cons_zero, Option.some.injEq] at hg
      subst hg
      simpa [toyPred] using (hsq (x 0)).const_add 1
    · simp only [toyPred, List.getElem?_cons_succ, List.getElem?_cons_zero, Option.some.injEq] at hg
      subst hg
      simpa [toyPred] using hasDerivAt_const (x 1) (1 : ℝ)

/-- The hypotheses are met by this surrogate at every point, here with `EIps`. -/
example (x : Fin 2 → ℝ) : ∃ v grad, gaussianAcquisitionGrad (.multi [toyPred x, toyPred x]) 1 .EIps =
      .ok (v, grad) ∧ grad.length = 2 := by
  obtain ⟨v, grad, h1, h2, -⟩ := C54_acquisition_gradient toyPred toyPred x (toyPred_gradient x)
    (toyPred_gradient x) (by simp only [toyPred]; positivity) 1 0.01 (.num 1.96) .EIps (by simp)
  exact ⟨v, grad, h1, h2⟩

/-- Meets the hypothesis of `C54_same_value`: the value returned with the gradient is the one returned without. -/
example (x : Fin 2 → ℝ) : ∃ v grad, gaussianAcquisitionGrad (.multi [toyPred x, toyPred x]) 1 .EIps = .ok (v, grad) ∧
    gaussianAcquisition (.multi [⟨[(toyPred x).mu], [(toyPred x).std], 1, 1⟩, ⟨[(toyPred x).mu], [(toyPred x).std], 1, 1⟩])
      1 .EIps = .ok [v] := by
  obtain ⟨v, grad, h1, h2, -⟩ := C54_acquisition_gradient toyPred toyPred x (toyPred_gradient x)
    (toyPred_gradient x) (by simp only [toyPred]; positivity) 1 0.01 (.num 1.96) .EIps (by simp)
  exact ⟨v, grad, h1, C54_same_value (toyPred x) (toyPred x) 1 0.01 (.num 1.96) .EIps v grad h1⟩

end Skopt

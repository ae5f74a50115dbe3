import Verif.Props.BestCandidate
import Verif.Lemmas.RandomSearch
import Mathlib.MeasureTheory.Integral.Prod

/-!
# C130: improvement per second
-/

namespace Skopt

open MeasureTheory ProbabilityTheory Real

/-! ## Specification -/

/-- Expected improvement per second below `c`: value and logarithm of the time are independent and have the predicted
normal distributions.  (What skopt/acquisition.py:60-73 should maximise.) -/
noncomputable def improvementPerSecond (c m s l u : ℝ) : ℝ :=
  ∫ z, max (c - z.1) 0 / exp z.2 ∂((predictive m s).prod (predictive l u))

/-- Expected number of successes per second, where a value below `c` is a success.  (skopt/acquisition.py:60-73) -/
noncomputable def successesPerSecond (c m s l u : ℝ) : ℝ :=
  ∫ z, (Set.Iio c).indicator 1 z.1 / exp z.2 ∂((predictive m s).prod (predictive l u))

/-- The expected time of an evaluation, if the logarithm of the time has the predicted normal distribution.
(`E(t)` in skopt/acquisition.py:70) -/
noncomputable def expectedTime (l u : ℝ) : ℝ := ∫ z, exp z ∂(predictive l u)

/-! ## Helpers -/

theorem expectedTime_eq (l u : ℝ) : expectedTime l u = exp (l + 0.5 * u ^ 2) := by
  unfold expectedTime predictive
  have := congrFun (mgf_id_gaussianReal (μ := l) (v := (NNReal.mk (u ^ 2) (sq_nonneg u)))) 1
  unfold mgf at this
  simp only [id, one_mul, NNReal.coe_mk] at this
  rw [this]
  congr 1
  ring

instance predictive_isProbabilityMeasure (m s : ℝ) : IsProbabilityMeasure (predictive m s) := by
  unfold predictive; infer_instance

theorem improvementPerSecond_eq (c m s l u : ℝ) :
    improvementPerSecond c m s l u = expectedImprovement c m s * expectedRate l u := by
  unfold improvementPerSecond expectedImprovement expectedRate
  rw [← integral_prod_mul]
  rfl

theorem successesPerSecond_eq (c m s l u : ℝ) :
    successesPerSecond c m s l u = improvementProbability c m s * expectedRate l u := by
  unfold successesPerSecond improvementProbability expectedRate
  rw [← integral_indicator_one measurableSet_Iio, ← integral_prod_mul]
  rfl

/-! ## The theorems -/

/-- **C130 (values), restricted.** In the per-second modes minus the expected improvement per second, and minus the
expected number of successes per second, is minimised, if the time is independent of the value.

Missing: rows with standard deviation zero, where C53 fails. -/
theorem C130_per_second_partial (p t : Pred) (hm : p.muDim = 1) (hs : p.stdDim = 1)
    (hl : p.mu.length = p.std.length) (yOpt xi : ℝ) (kappa : Kappa) :
    ∃ eips pips, gaussianAcquisition (.multi [p, t]) yOpt .EIps xi kappa = .ok eips ∧
      gaussianAcquisition (.multi [p, t]) yOpt .PIps xi kappa = .ok pips ∧
      ∀ (i : Nat) (m s l u : ℝ), p.mu[i]? = some m → p.std[i]? = some s → t.mu[i]? = some l →
        t.std[i]? = some u → 0 < s →
        eips[i]? = some (-improvementPerSecond (yOpt - xi) m s l u) ∧
        pips[i]? = some (-successesPerSecond (yOpt - xi) m s l u) := by
  obtain ⟨_, _, eips, pips, _, _, h3, h4, h⟩ := C53_acquisition_partial p t hm hs hl yOpt xi kappa
  refine ⟨eips, pips, h3, h4, fun i m s l u h5 h6 h7 h8 h9 => ?_⟩
  obtain ⟨_, _, h10, h11⟩ := h i m s l u h5 h6 h7 h8 h9
  rw [improvementPerSecond_eq, successesPerSecond_eq]
  exact ⟨h10, h11⟩

/-- **C130 (preference).** Of two candidates with the same predicted values the one is preferred for which the mean of
the logarithm of the time minus half of its variance is smaller.  So with equal uncertainty about the times it is the
faster one, and with equal means the one whose time is less certain. -/
theorem C130_preference (p t : Pred) (hm : p.muDim = 1) (hs : p.stdDim = 1)
    (hl : p.mu.length = p.std.length) (yOpt xi : ℝ) (kappa : Kappa) (acq : AcqFunc) (hacq : acq = .EIps ∨ acq = .PIps)
    (vals : List ℝ) (h : gaussianAcquisition (.multi [p, t]) yOpt acq xi kappa = .ok vals)
    (i j : Nat) (m s l l' u u' v v' : ℝ) (hmi : p.mu[i]? = some m) (hmj : p.mu[j]? = some m) (hsi : p.std[i]? = some s)
    (hsj : p.std[j]? = some s) (hli : t.mu[i]? = some l) (hlj : t.mu[j]? = some l') (hui : t.std[i]? = some u)
    (huj : t.std[j]? = some u') (hvi : vals[i]? = some v) (hvj : vals[j]? = some v') (h0 : 0 < s) :
    v < v' ↔ l - u ^ 2 / 2 < l' - u' ^ 2 / 2 := by
  obtain ⟨_, _, eips, pips, _, _, h3, h4, hr⟩ := C53_acquisition_partial p t hm hs hl yOpt xi kappa
  obtain ⟨_, _, e1, e2⟩ := hr i m s l u hmi hsi hli hui h0
  obtain ⟨_, _, e3, e4⟩ := hr j m s l' u' hmj hsj hlj huj h0
  have key : ∀ q : ℝ, 0 < q → (-(q * expectedRate l u) < -(q * expectedRate l' u') ↔
      l - u ^ 2 / 2 < l' - u' ^ 2 / 2) := by
    intro q hq
    rw [neg_lt_neg_iff, mul_lt_mul_iff_right₀ hq, expectedRate_eq, expectedRate_eq, exp_lt_exp]
    constructor <;> intro h <;> linarith
  rcases hacq with rfl | rfl
  · rw [h3] at h
    cases h
    rw [e1] at hvi
    rw [e3] at hvj
    cases hvi
    cases hvj
    exact key _ (expectedImprovement_pos _ _ h0)
  · rw [h4] at h
    cases h
    rw [e2] at hvi
    rw [e4] at hvj
    cases hvi
    cases hvj
    refine key _ ?_
    rw [improvementProbability_eq _ _ h0]
    exact normCdf_pos _

/-- **C130 is false of the expected time**: two candidates with the same predictions of the value.  Evaluating the first
takes one second for certain, evaluating the second takes `exp 2` seconds on average; but the second is preferred (in
both modes, for every incumbent, `xi` and `kappa`). -/
theorem C130_refuted_expected_time (yOpt xi : ℝ) (kappa : Kappa) :
    expectedTime 0 0 = 1 ∧ expectedTime 0 2 = exp 2 ∧ ∃ a b c d,
      gaussianAcquisition (.multi [⟨[0, 0], [1, 1], 1, 1⟩, ⟨[0, 0], [0, 2], 1, 1⟩]) yOpt .EIps xi kappa = .ok [a, b] ∧ b < a ∧
      gaussianAcquisition (.multi [⟨[0, 0], [1, 1], 1, 1⟩, ⟨[0, 0], [0, 2], 1, 1⟩]) yOpt .PIps xi kappa = .ok [c, d] ∧ d < c := by
  refine ⟨by rw [expectedTime_eq]; norm_num, by rw [expectedTime_eq]; norm_num, ?_⟩
  have e1 : gaussianAcquisition (.multi [⟨[0, 0], [1, 1], 1, 1⟩, ⟨[0, 0], [0, 2], 1, 1⟩]) yOpt .EIps xi kappa =
      .ok (perSecond ((List.zipWith (fun m s => if 0 < s then
        (yOpt - xi - m) * normCdf ((yOpt - xi - m) / s) + s * normPdf ((yOpt - xi - m) / s) else 0) [0, 0] [1, 1]).map
        fun x => -x) ⟨[0, 0], [0, 2], 1, 1⟩) := by
    simp only [gaussianAcquisition, Surrogate.pair, ok_bind]
    rw [gaussianEi_eq _ rfl rfl rfl]
    rfl
  have e2 : gaussianAcquisition (.multi [⟨[0, 0], [1, 1], 1, 1⟩, ⟨[0, 0], [0, 2], 1, 1⟩]) yOpt .PIps xi kappa =
      .ok (perSecond ((List.zipWith (fun m s => if 0 < s then normCdf ((yOpt - xi - m) / s) else 0) [0, 0] [1, 1]).map
        fun x => -x) ⟨[0, 0], [0, 2], 1, 1⟩) := by
    simp only [gaussianAcquisition, Surrogate.pair, ok_bind]
    rw [gaussianPi_eq _ rfl rfl rfl]
    rfl
  refine ⟨_, _, _, _, e1, ?_, e2, ?_⟩
  · exact (C130_preference _ _ rfl rfl rfl yOpt xi kappa .EIps (.inl rfl) _ e1 1 0 0 1 0 0 2 0 _ _ rfl rfl rfl rfl rfl
      rfl rfl rfl rfl rfl one_pos).2 (by norm_num)
  · exact (C130_preference _ _ rfl rfl rfl yOpt xi kappa .PIps (.inr rfl) _ e2 1 0 0 1 0 0 2 0 _ _ rfl rfl rfl rfl rfl
      rfl rfl rfl rfl rfl one_pos).2 (by norm_num)

/-- Meets the hypotheses of `C130_per_second_partial` and `C130_preference`: two candidates, the second is faster by a
factor of `exp 1` and preferred. -/
example : ∃ a b, gaussianAcquisition (.multi [⟨[3, 3], [1, 1], 1, 1⟩, ⟨[1, 0], [2, 2], 1, 1⟩]) 2 .EIps = .ok [a, b] ∧
    a = -improvementPerSecond (2 - 0.01) 3 1 1 2 ∧ b < a := by
  obtain ⟨eips, _, h1, _, h2⟩ := C130_per_second_partial ⟨[3, 3], [1, 1], 1, 1⟩ ⟨[1, 0], [2, 2], 1, 1⟩ rfl rfl rfl 2 0.01
    (.num 1.96)
  have h3 := (h2 0 3 1 1 2 rfl rfl rfl rfl one_pos).1
  have h4 := (h2 1 3 1 0 2 rfl rfl rfl rfl one_pos).1
  have hlen : eips.length = 2 := by
    simp only [gaussianAcquisition, Surrogate.pair, ok_bind] at h1
    rw [gaussianEi_eq _ rfl rfl rfl, ok_bind] at h1
    cases h1
    rfl
  match eips, hlen, h1, h3, h4 with
  | [a, b], _, h1, h3, h4 =>
    refine ⟨a, b, h1, by simpa using h3, ?_⟩
    exact (C130_preference _ _ rfl rfl rfl 2 0.01 (.num 1.96) .EIps (.inl rfl) _ h1 1 0 3 1 0 1 2 2 b a rfl rfl rfl rfl rfl
      rfl rfl rfl rfl rfl one_pos).2 (by norm_num)

/-! ## The suggestion -/

variable {M R G : Type}

/-- The acquisition values are those of `_gaussian_acquisition` (acquisition.py:20-87) for the means and standard
deviations that the two surrogates predict, of the value and of the logarithm of the time. -/
structure TimedValues (W : World ℝ M R G) (value time : M → List (List (Val ℝ)) → Pred) (c : AcqFunc) (xi : ℝ)
    (kappa : Kappa) : Prop where
  values : ∀ est X y, W.acquisition est X (.fin y) c =
    (gaussianAcquisition (.multi [value est X, time est X]) y c xi kappa).map (List.map Flt.fin)
  muDim : ∀ est X, (value est X).muDim = 1
  stdDim : ∀ est X, (value est X).stdDim = 1
  mu : ∀ est X, (value est X).mu.length = X.length
  std : ∀ est X, (value est X).std.length = X.length
  timeMu : ∀ est X, (time est X).mu.length = X.length
  timeStd : ∀ est X, (time est X).std.length = X.length

/-- What a per-second mode is after: improvement or success per second.  (skopt/acquisition.py:41-73) -/
noncomputable def gainPerSecond (acq : AcqFunc) : ℝ → ℝ → ℝ → ℝ → ℝ → ℝ :=
  if acq = .EIps then improvementPerSecond else successesPerSecond

theorem gainPerSecond_pos {acq : AcqFunc} (c m l u : ℝ) {s : ℝ} (hs : 0 < s) : 0 < gainPerSecond acq c m s l u := by
  have hr : 0 < expectedRate l u := by rw [expectedRate_eq]; exact exp_pos _
  unfold gainPerSecond
  split
  · rw [improvementPerSecond_eq]
    exact mul_pos (expectedImprovement_pos _ _ hs) hr
  · rw [successesPerSecond_eq, improvementProbability_eq _ _ hs]
    exact mul_pos (normCdf_pos _) hr

/-- The acquisition values of the per-second modes, one by one. -/
theorem timed_values (p t : Pred) (hm : p.muDim = 1) (hs : p.stdDim = 1) (hl : p.mu.length = p.std.length)
    (ht : t.mu.length = p.mu.length) (hu : t.std.length = p.mu.length) (yOpt xi : ℝ) (kappa : Kappa) {acq : AcqFunc}
    (hacq : acq = .EIps ∨ acq = .PIps) {vals : List ℝ}
    (h : gaussianAcquisition (.multi [p, t]) yOpt acq xi kappa = .ok vals) :
    vals.length = p.mu.length ∧ ∀ (i : Nat) (m s l u v : ℝ), p.mu[i]? = some m → p.std[i]? = some s →
      t.mu[i]? = some l → t.std[i]? = some u → vals[i]? = some v →
      (0 < s → v = -gainPerSecond acq (yOpt - xi) m s l u) ∧ (s ≤ 0 → v = 0) := by
  obtain ⟨eips, pips, h1, h2, h3⟩ := C130_per_second_partial p t hm hs hl yOpt xi kappa
  rcases hacq with rfl | rfl
  · have e : eips = vals := by rw [h1] at h; exact Except.ok.inj h
    subst e
    simp only [gaussianAcquisition, Surrogate.pair, ok_bind, gaussianEi_eq _ hm hs hl, Except.ok.injEq] at h
    refine ⟨by rw [← h]; simp [perSecond, hl, ht, hu], fun i m s l u v k1 k2 k3 k4 k5 => ⟨fun hp => ?_, fun hz => ?_⟩⟩
    · have := (h3 i m s l u k1 k2 k3 k4 hp).1
      rw [this] at k5
      simpa [gainPerSecond] using k5.symm
    · rw [← h] at k5
      simp only [perSecond, List.getElem?_zipWith, List.getElem?_map, k1, k2, k3, k4, Option.map_some,
        if_neg (not_lt.2 hz), neg_zero, zero_mul, Option.some.injEq] at k5
      exact k5.symm
  · have e : pips = vals := by rw [h2] at h; exact Except.ok.inj h
    subst e
    simp only [gaussianAcquisition, Surrogate.pair, ok_bind, gaussianPi_eq _ hm hs hl, Except.ok.injEq] at h
    refine ⟨by rw [← h]; simp [perSecond, hl, ht, hu], fun i m s l u v k1 k2 k3 k4 k5 => ⟨fun hp => ?_, fun hz => ?_⟩⟩
    · have := (h3 i m s l u k1 k2 k3 k4 hp).2
      rw [this] at k5
      simpa [gainPerSecond] using k5.symm
    · rw [← h] at k5
      simp only [perSecond, List.getElem?_zipWith, List.getElem?_map, k1, k2, k3, k4, Option.map_some,
        if_neg (not_lt.2 hz), neg_zero, zero_mul, Option.some.injEq] at k5
      exact k5.symm

/-- **C130 (suggestion), restricted.** With `acq_func="EIps"` or `"PIps"` and `acq_optimizer="sampling"`, after a `tell`
that fitted surrogates to values and times: if the surrogate is uncertain about at least one candidate, the suggested
point is one of those about which it is uncertain, and no candidate gives more improvement (more successes) per second
below `best - xi`.

Missing: `best` is the smallest of all recorded numbers, values and logarithms of times together, instead of the smallest
value (`C69_refuted_per_second_incumbent`); real arithmetic and dimensions as in C62. -/
theorem C130_suggestion_partial (W : World ℝ M R G) (hW : WellBehaved exact W) (dims : List (Dim ℝ)) (hne : dims ≠ [])
    (hv : ∀ d ∈ dims, ValidDim exact d) (hi : ∀ d ∈ dims, Invertible (0 : ℝ) 1 d)
    (hg : ∀ d ∈ dims, GoodBounds exact d) (hrep : ∀ d ∈ dims, ∀ v, Representable d v) (s : Opt ℝ M R)
    (hsamp : s.cfg.lbfgs = false) (hest : s.cfg.hasEst = true) (hacq : s.cfg.acq = .EIps ∨ s.cfg.acq = .PIps)
    (x : XArg ℝ) (y : YArg ℝ) (res : Result ℝ M)
    (h : (tell exact W dims s x y true).2 = .ok res) (hn : (tell exact W dims s x y true).1.nInit ≤ 0)
    (obs : List (ℝ × ℝ)) (hne' : obs ≠ [])
    (hys : (tell exact W dims s x y true).1.yi = obs.map fun o => .seq [.num (.fin o.1), .num (.fin o.2)])
    (value time : M → List (List (Val ℝ)) → Pred) (xi : ℝ) (kappa : Kappa)
    (hp : TimedValues W value time s.cfg.acq xi kappa) :
    let t := (tell exact W dims s x y true).1
    ∃ (est : M) (pts : List (Point ℝ)) (X : List (List (Val ℝ))) (best : ℝ) (i : Nat) (p : Point ℝ) (m sd l u : ℝ),
      t.models.getLast? = some est ∧ (∃ o ∈ obs, best = o.1 ∨ best = o.2) ∧ (∀ o ∈ obs, best ≤ o.1 ∧ best ≤ o.2) ∧
      pts.length = s.cfg.nPoints ∧ (∀ q ∈ pts, InSpace exact dims q) ∧ Space.transform exact dims pts = .ok X ∧
      pts[i]? = some p ∧ t.nextX = some p ∧ (value est X).mu[i]? = some m ∧ (value est X).std[i]? = some sd ∧
      (time est X).mu[i]? = some l ∧ (time est X).std[i]? = some u ∧
      ∀ (j : Nat) (m' sd' l' u' : ℝ), (value est X).mu[j]? = some m' → (value est X).std[j]? = some sd' →
        (time est X).mu[j]? = some l' → (time est X).std[j]? = some u' → 0 < sd' →
        0 < sd ∧ gainPerSecond s.cfg.acq (best - xi) m' sd' l' u' ≤ gainPerSecond s.cfg.acq (best - xi) m sd l u := by
  obtain ⟨est, pts, X, yOpt, cand, values, i, p, v, h1, h2, h3, h4, h5, h6, h7, h8, h9, h10, h11⟩ :=
    C62_suggestion_minimises_acquisition_partial W hW dims hne hv hi hg hrep s hsamp hest x y res h hn
  have hcand : cand = s.cfg.acq := by
    rcases hacq with e | e <;> rw [e] at h6 ⊢ <;> simpa [AcqFunc.candidates] using h6
  subst hcand
  have hflat : flatNums (obs.map fun o => (.seq [.num (.fin o.1), .num (.fin o.2)] : YArg ℝ)) =
      .ok (obs.flatMap fun o => [.fin o.1, .fin o.2]) := by
    unfold flatNums
    rw [asColumns_of_pairs hne', ok_bind]
    simp [List.flatMap_map]
  rw [hys, hflat, ok_bind, fltMin_iff] at h2
  obtain ⟨hmem, hle⟩ := h2
  obtain ⟨o, ho, hmem⟩ := List.mem_flatMap.1 hmem
  obtain ⟨best, rfl⟩ : ∃ b, yOpt = .fin b := by
    rcases List.mem_cons.1 hmem with e | e
    · exact ⟨_, e⟩
    · exact ⟨_, List.mem_singleton.1 e⟩
  rw [hp.values] at h7
  cases hvals : gaussianAcquisition (.multi [value est X, time est X]) best s.cfg.acq xi kappa with
  | error e => rw [hvals] at h7; cases h7
  | ok vals =>
    rw [hvals] at h7
    injection h7 with h7
    subst h7
    obtain ⟨l1, l2⟩ := timed_values (value est X) (time est X) (hp.muDim est X) (hp.stdDim est X)
      (by rw [hp.mu, hp.std]) (by rw [hp.timeMu, hp.mu]) (by rw [hp.timeStd, hp.mu]) best xi kappa hacq hvals
    rw [List.getElem?_map] at h9
    obtain ⟨w, hw, rfl⟩ := Option.map_eq_some_iff.1 h9
    have hiv := (List.getElem?_eq_some_iff.1 hw).1
    have hiX : i < X.length := by rw [← hp.mu est X]; omega
    have a1 : i < (value est X).mu.length := by rw [hp.mu]; exact hiX
    have a2 : i < (value est X).std.length := by rw [hp.std]; exact hiX
    have a3 : i < (time est X).mu.length := by rw [hp.timeMu]; exact hiX
    have a4 : i < (time est X).std.length := by rw [hp.timeStd]; exact hiX
    refine ⟨est, pts, X, best, i, p, _, _, _, _, h1, ⟨o, ho, ?_⟩, fun o ho => ⟨?_, ?_⟩, h3, h4, h5, h8, h11,
      List.getElem?_eq_getElem a1, List.getElem?_eq_getElem a2, List.getElem?_eq_getElem a3,
      List.getElem?_eq_getElem a4, ?_⟩
    · simpa using hmem
    · exact Flt.fin_le_fin.1 (hle _ (List.mem_flatMap.2 ⟨o, ho, by simp⟩))
    · exact Flt.fin_le_fin.1 (hle _ (List.mem_flatMap.2 ⟨o, ho, by simp⟩))
    intro j m' sd' l' u' b1 b2 b3 b4 hpos
    have hj : j < vals.length := by rw [l1]; exact (List.getElem?_eq_some_iff.1 b1).1
    have e1 := (l2 j m' sd' l' u' _ b1 b2 b3 b4 (List.getElem?_eq_getElem hj)).1 hpos
    have hle' : w ≤ vals[j] := Flt.fin_le_fin.1 (h10 _ (List.mem_map_of_mem (List.getElem_mem hj)))
    have hgt := gainPerSecond_pos (acq := s.cfg.acq) (best - xi) m' l' u' hpos
    have e2 := l2 i _ _ _ _ w (List.getElem?_eq_getElem a1) (List.getElem?_eq_getElem a2) (List.getElem?_eq_getElem a3)
      (List.getElem?_eq_getElem a4) hw
    by_cases hsd : 0 < (value est X).std[i]
    · refine ⟨hsd, ?_⟩
      have := e2.1 hsd
      linarith
    · have := e2.2 (not_lt.1 hsd)
      linarith

/-- Predicted logarithms of times: minus the first coordinates, with the standard deviation one. -/
noncomputable def toyTime (_ : Unit) (X : List (List (Val ℝ))) : Pred where
  mu := X.map fun row => match row with
    | .num x :: _ => -x
    | _ => 0
  std := X.map fun _ => 1

/-- The world of the examples of C69 with a surrogate for times. -/
noncomputable def timedWorld : World ℝ Unit Unit Unit :=
  { gaussWorld with
    acquisition := fun est X y c => match y, gaussianAcquisition (.multi [toyPredict est X, toyTime est X]) (match y with
        | .fin y => y
        | .nan => 0) c 0.01 (.num 1.96) with
      | .fin _, .ok v => .ok (v.map .fin)
      | _, _ => .ok (X.map fun _ => .nan) }

theorem timedWorld_values (c : AcqFunc) (hc : c = .EIps ∨ c = .PIps) :
    TimedValues timedWorld toyPredict toyTime c 0.01 (.num 1.96) where
  values est X y := by
    have hl : (toyPredict est X).mu.length = (toyPredict est X).std.length := by simp [toyPredict]
    rcases hc with rfl | rfl
    · simp only [timedWorld, gaussianAcquisition, Surrogate.pair, ok_bind, gaussianEi_eq _ rfl rfl hl, Except.map]
    · simp only [timedWorld, gaussianAcquisition, Surrogate.pair, ok_bind, gaussianPi_eq _ rfl rfl hl, Except.map]
  muDim _ _ := rfl
  stdDim _ _ := rfl
  mu _ _ := by simp [toyPredict]
  std _ _ := by simp [toyPredict]
  timeMu _ _ := by simp [toyTime]
  timeStd _ _ := by simp [toyTime]

theorem timedWorld_reliable : Reliable timedWorld gaussDims :=
  { gaussWorld_reliable with
    acquisition := by
      intro est X y a _ _
      have hl : (toyPredict est X).mu.length = (toyPredict est X).std.length := by simp [toyPredict]
      cases y with
      | nan => exact ⟨_, rfl, by simp⟩
      | fin y =>
        cases a <;> simp only [timedWorld, gaussianAcquisition, Surrogate.single, Surrogate.pair, ok_bind,
          gaussianEi_eq _ rfl rfl hl, gaussianPi_eq _ rfl rfl hl] <;>
          exact ⟨_, rfl, by simp [toyPredict, toyTime, perSecond]⟩ }

theorem timedWorld_wellBehaved : WellBehaved exact timedWorld where
  draws := gaussWorld_wellBehaved.draws
  restores := gaussWorld_wellBehaved.restores
  generated := gaussWorld_wellBehaved.generated

/-- Meets the hypotheses of `C130_suggestion_partial`: `Real(0, 10)`, four candidates, one observation with the value 3
that took 2 seconds. -/
example (acq : AcqFunc) (hacq : acq = .EIps ∨ acq = .PIps) : ∃ (res : Result ℝ Unit) (obs : List (ℝ × ℝ)),
    let q := tell exact timedWorld gaussDims (gaussOpt acq) (.lst [.num 5]) (.seq [.num (.fin 3), .num (.fin 2)]) true
    q.2 = .ok res ∧ q.1.nInit ≤ 0 ∧ obs ≠ [] ∧ q.1.yi = obs.map (fun o => .seq [.num (.fin o.1), .num (.fin o.2)]) ∧
    TimedValues timedWorld toyPredict toyTime (gaussOpt acq).cfg.acq 0.01 (.num 1.96) ∧
    ∃ (pts : List (Point ℝ)) (i : Nat) (p : Point ℝ), q.1.nextX = some p ∧ pts.length = 4 ∧ pts[i]? = some p := by
  have hwork : Workable gaussDims := ⟨by simp [gaussDims], gaussDims_valid, gaussDims_invertible, gaussDims_bounds,
    fun d hd v _ => gaussDims_representable d hd v⟩
  have hin : InSpace exact gaussDims [.num (5 : ℝ)] := .cons ⟨5, rfl, by norm_num, by norm_num⟩ .nil
  have hps : (gaussOpt acq).cfg.acq.isPs = true := by rcases hacq with rfl | rfl <;> rfl
  have hflat : Flat [.num (5 : ℝ)] := ⟨.num 5, by simp, rfl⟩
  obtain ⟨t, r, h1, h2, h3, -⟩ := tell_one_live hwork timedWorld_reliable (s := gaussOpt acq)
    (live_fresh gaussDims _ () none) ⟨by show 4 ≠ 0; norm_num, fun _ => (by show 1 ≠ 0; norm_num), fun k hk => (by cases hk)⟩
    hin hflat (y := .seq [.num (.fin 3), .num (.fin 2)]) (by rw [hps]; exact ⟨3, 2, by norm_num, rfl⟩) true
  obtain ⟨⟨y', k1, k2⟩, k3, -⟩ := tell_one_state hflat h1
  have hcfg : t.cfg = (gaussOpt acq).cfg := by
    rcases tell_one exact timedWorld gaussDims (gaussOpt acq) hflat (.seq [.num (.fin 3), .num (.fin 2)]) true with
      ⟨e, he⟩ | ⟨y'', -, -, e3, e4⟩
    · rw [he] at h1; cases h1
    · have hc := tellCore_frame exact timedWorld gaussDims (gaussOpt acq) (.lst [.num 5]) y'' true e4
      rw [← e3, h1] at hc
      exact hc.cfg
  have hv := h2.values
  rw [hcfg, hps] at hv
  obtain ⟨obs, hobs⟩ := observed_pairs hv
  have hn : t.nInit ≤ 0 := by
    rw [k3]
    show (1 : ℤ) - 1 ≤ 0
    norm_num
  have hne : obs ≠ [] := by
    rintro rfl
    rw [k2] at hobs
    simp at hobs
  refine ⟨r, obs, by rw [h1], by rw [h1]; exact hn, hne, by rw [h1]; exact hobs, timedWorld_values acq hacq, ?_⟩
  obtain ⟨est, pts, X, best, i, p, m, sd, l, u, -, -, -, g4, -, -, g7, g8, -⟩ :=
    C130_suggestion_partial timedWorld timedWorld_wellBehaved gaussDims (by simp [gaussDims])
      gaussDims_valid gaussDims_invertible gaussDims_bounds gaussDims_representable (gaussOpt acq) rfl rfl hacq
      (.lst [.num 5]) (.seq [.num (.fin 3), .num (.fin 2)]) r (by rw [h1]) (by rw [h1]; exact hn) obs hne
      (by rw [h1]; exact hobs) toyPredict toyTime 0.01 (.num 1.96) (timedWorld_values acq hacq)
  exact ⟨pts, i, p, g8, g4, g7⟩

end Skopt

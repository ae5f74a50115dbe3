import Verif.Props.Suggestion
import Verif.Props.Acquisition
import Verif.Props.Liveness

/-!
# C69: the suggestion is the candidate with the largest expected improvement over the best observed value
-/

namespace Skopt

open MeasureTheory ProbabilityTheory

variable {M R G : Type}

theorem normCdf_pos (x : ℝ) : 0 < normCdf x :=
  lt_of_le_of_lt (normCdf_nonneg (x - 1)) (normCdf_strictMono (by linarith))

/-- With a positive standard deviation some improvement is always to be expected. -/
theorem expectedImprovement_pos (c m : ℝ) {s : ℝ} (hs : 0 < s) : 0 < expectedImprovement c m s := by
  have hv : (NNReal.mk (s ^ 2) (sq_nonneg s)) ≠ 0 := by
    intro h
    have : s ^ 2 = 0 := congrArg NNReal.toReal h
    exact absurd this (by positivity)
  unfold expectedImprovement
  have : IsFiniteMeasure (predictive m s) := by unfold predictive; infer_instance
  have hint : Integrable (fun f : ℝ => max (c - f) 0) (predictive m s) := by
    have h1 : Integrable (fun z : ℝ => z) (predictive m s) :=
      (memLp_id_gaussianReal (μ := m) (v := NNReal.mk (s ^ 2) (sq_nonneg s)) 1).integrable (by norm_num)
    exact ((integrable_const _).sub h1).pos_part
  refine (integral_pos_iff_support_of_nonneg (fun f => le_max_right _ _) hint).2 ?_
  have hsupp : Function.support (fun f : ℝ => max (c - f) 0) = Set.Iio c := by
    ext f
    simp only [Function.mem_support, Set.mem_Iio, ne_eq]
    constructor
    · intro h
      by_contra hc
      exact h (max_eq_right (by linarith [not_lt.1 hc]))
    · intro h
      rw [max_eq_left (by linarith)]
      linarith
  show 0 < (predictive m s) (Function.support fun f : ℝ => max (c - f) 0)
  rw [hsupp]
  have hp := improvementProbability_eq c m hs
  have : 0 < (predictive m s).real (Set.Iio c) := by
    have := normCdf_pos ((c - m) / s)
    rw [← hp] at this
    exact this
  exact (ENNReal.toReal_pos_iff.1 this).1

/-- The acquisition values for the function `c` are those of `_gaussian_acquisition` (acquisition.py:20-87) for the
means and standard deviations that the surrogate predicts at the encoded candidates, one per candidate. -/
structure GaussianValues (W : World ℝ M R G) (predict : M → List (List (Val ℝ)) → Pred) (c : AcqFunc) (xi : ℝ)
    (kappa : Kappa) : Prop where
  values : ∀ est X y, W.acquisition est X (.fin y) c =
    (gaussianAcquisition (.one (predict est X)) y c xi kappa).map (List.map Flt.fin)
  muDim : ∀ est X, (predict est X).muDim = 1
  stdDim : ∀ est X, (predict est X).stdDim = 1
  mu : ∀ est X, (predict est X).mu.length = X.length
  std : ∀ est X, (predict est X).std.length = X.length

/-- The common part: the chosen candidate has the smallest acquisition value, with the smallest recorded value as
incumbent. -/
theorem chosen_candidate {W : World ℝ M R G} (hW : WellBehaved exact W) {dims : List (Dim ℝ)} (hne : dims ≠ [])
    (hv : ∀ d ∈ dims, ValidDim exact d) (hi : ∀ d ∈ dims, Invertible (0 : ℝ) 1 d)
    (hg : ∀ d ∈ dims, GoodBounds exact d) (hrep : ∀ d ∈ dims, ∀ v, Representable d v) {s : Opt ℝ M R}
    (hsamp : s.cfg.lbfgs = false) (hest : s.cfg.hasEst = true) {x : XArg ℝ} {y : YArg ℝ} {res : Result ℝ M}
    (h : (tell exact W dims s x y true).2 = .ok res) (hn : (tell exact W dims s x y true).1.nInit ≤ 0)
    {ys : List ℝ} (hys : (tell exact W dims s x y true).1.yi = ys.map fun v => .num (.fin v)) {c : AcqFunc}
    (hc : s.cfg.acq.candidates = [c]) {predict : M → List (List (Val ℝ)) → Pred} {xi : ℝ} {kappa : Kappa}
    (hp : GaussianValues W predict c xi kappa) :
    ∃ (est : M) (pts : List (Point ℝ)) (X : List (List (Val ℝ))) (best : ℝ) (i : Nat) (p : Point ℝ)
      (values : List ℝ) (v : ℝ),
      (tell exact W dims s x y true).1.models.getLast? = some est ∧ best ∈ ys ∧ (∀ w ∈ ys, best ≤ w) ∧
      pts.length = s.cfg.nPoints ∧ (∀ q ∈ pts, InSpace exact dims q) ∧ Space.transform exact dims pts = .ok X ∧
      pts[i]? = some p ∧ (tell exact W dims s x y true).1.nextX = some p ∧
      gaussianAcquisition (.one (predict est X)) best c xi kappa = .ok values ∧ values[i]? = some v ∧
      ∀ w ∈ values, v ≤ w := by
  obtain ⟨est, pts, X, yOpt, cand, values, i, p, v, h1, h2, h3, h4, h5, h6, h7, h8, h9, h10, h11⟩ :=
    C62_suggestion_minimises_acquisition_partial W hW dims hne hv hi hg hrep s hsamp hest x y res h hn
  rw [hc, List.mem_singleton] at h6
  subst h6
  rw [hys, flatNums_fin, ok_bind, fltMin_iff] at h2
  obtain ⟨hm, hle⟩ := h2
  obtain ⟨best, hb, rfl⟩ := List.mem_map.1 hm
  rw [hp.values] at h7
  cases hvals : gaussianAcquisition (.one (predict est X)) best cand xi kappa with
  | error e => rw [hvals] at h7; cases h7
  | ok vals =>
    rw [hvals] at h7
    injection h7 with h7
    subst h7
    rw [List.getElem?_map] at h9
    obtain ⟨v', hv', rfl⟩ := Option.map_eq_some_iff.1 h9
    refine ⟨est, pts, X, best, i, p, vals, v', h1, hb, fun w hw => ?_, h3, h4, h5, h8, h11, hvals, hv',
      fun w hw => ?_⟩
    · exact Flt.fin_le_fin.1 (hle _ (List.mem_map_of_mem hw))
    · exact Flt.fin_le_fin.1 (h10 _ (List.mem_map_of_mem hw))

/-- **C69 (EI).** With `acq_func="EI"` and `acq_optimizer="sampling"`, after a `tell` that fitted a surrogate: if
the surrogate is uncertain about at least one of the candidates sampled from the space, the suggested point is one
of the candidates about which it is uncertain, and no candidate has a larger expectation of the improvement (by
more than `xi`) below the smallest value observed so far.  Real arithmetic, plain observations, dimensions whose
transformed bounds are right (see C62). -/
theorem C69_largest_expected_improvement_partial (W : World ℝ M R G) (hW : WellBehaved exact W)
    (dims : List (Dim ℝ)) (hne : dims ≠ []) (hv : ∀ d ∈ dims, ValidDim exact d)
    (hi : ∀ d ∈ dims, Invertible (0 : ℝ) 1 d) (hg : ∀ d ∈ dims, GoodBounds exact d)
    (hrep : ∀ d ∈ dims, ∀ v, Representable d v) (s : Opt ℝ M R) (hsamp : s.cfg.lbfgs = false)
    (hest : s.cfg.hasEst = true) (hacq : s.cfg.acq = .EI) (x : XArg ℝ) (y : YArg ℝ) (res : Result ℝ M)
    (h : (tell exact W dims s x y true).2 = .ok res) (hn : (tell exact W dims s x y true).1.nInit ≤ 0)
    (ys : List ℝ) (hys : (tell exact W dims s x y true).1.yi = ys.map fun v => .num (.fin v))
    (predict : M → List (List (Val ℝ)) → Pred) (xi : ℝ) (kappa : Kappa) (hp : GaussianValues W predict .EI xi kappa) :
    let t := (tell exact W dims s x y true).1
    ∃ (est : M) (pts : List (Point ℝ)) (X : List (List (Val ℝ))) (best : ℝ) (i : Nat) (p : Point ℝ) (m sd : ℝ),
      t.models.getLast? = some est ∧ best ∈ ys ∧ (∀ w ∈ ys, best ≤ w) ∧
      pts.length = s.cfg.nPoints ∧ (∀ q ∈ pts, InSpace exact dims q) ∧ Space.transform exact dims pts = .ok X ∧
      pts[i]? = some p ∧ t.nextX = some p ∧
      (predict est X).mu[i]? = some m ∧ (predict est X).std[i]? = some sd ∧
      ∀ (j : Nat) (m' sd' : ℝ), (predict est X).mu[j]? = some m' → (predict est X).std[j]? = some sd' → 0 < sd' →
        0 < sd ∧ expectedImprovement (best - xi) m' sd' ≤ expectedImprovement (best - xi) m sd := by
  obtain ⟨est, pts, X, best, i, p, values, v, h1, h2, h3, h4, h5, h6, h7, h8, h9, h10, h11⟩ :=
    chosen_candidate hW hne hv hi hg hrep hsamp hest h hn hys (c := .EI) (by rw [hacq]; rfl) hp
  have hl : (predict est X).mu.length = (predict est X).std.length := by rw [hp.mu, hp.std]
  obtain ⟨ei, e1, e2, e3⟩ := C53_expected_improvement_partial (predict est X) (hp.muDim est X) (hp.stdDim est X) hl
    best xi
  have hvals : values = ei.map fun z => -z := by
    simp only [gaussianAcquisition, Surrogate.single, ok_bind, e1, Except.ok.injEq] at h9
    exact h9.symm
  subst hvals
  rw [List.getElem?_map] at h10
  obtain ⟨w, hw, rfl⟩ := Option.map_eq_some_iff.1 h10
  obtain ⟨hil, -⟩ := List.getElem?_eq_some_iff.1 hw
  have him : i < (predict est X).mu.length := by omega
  have his : i < (predict est X).std.length := by omega
  refine ⟨est, pts, X, best, i, p, (predict est X).mu[i], (predict est X).std[i], h1, h2, h3, h4, h5, h6, h7, h8,
    List.getElem?_eq_getElem him, List.getElem?_eq_getElem his, ?_⟩
  intro j m' sd' hm' hs' hpos
  have hj : j < ei.length := by
    rw [e2]
    exact (List.getElem?_eq_some_iff.1 hm').1
  have hvj := (e3 j m' sd' ei[j] hm' hs' (List.getElem?_eq_getElem hj)).1 hpos
  have hle := h11 (-ei[j]) (List.mem_map_of_mem (List.getElem_mem hj))
  have hvi := e3 i _ _ w (List.getElem?_eq_getElem him) (List.getElem?_eq_getElem his) hw
  have hgt := expectedImprovement_pos (best - xi) m' hpos
  rw [← hvj] at hgt ⊢
  by_cases hsd : 0 < (predict est X).std[i]
  · refine ⟨hsd, ?_⟩
    rw [← hvi.1 hsd]
    linarith
  · have := hvi.2 (not_lt.1 hsd)
    linarith

/-- **C69 (PI).** The same with `acq_func="PI"`: no candidate has a larger probability of improving by more than
`xi` on the smallest value observed so far. -/
theorem C69_largest_improvement_probability_partial (W : World ℝ M R G) (hW : WellBehaved exact W)
    (dims : List (Dim ℝ)) (hne : dims ≠ []) (hv : ∀ d ∈ dims, ValidDim exact d)
    (hi : ∀ d ∈ dims, Invertible (0 : ℝ) 1 d) (hg : ∀ d ∈ dims, GoodBounds exact d)
    (hrep : ∀ d ∈ dims, ∀ v, Representable d v) (s : Opt ℝ M R) (hsamp : s.cfg.lbfgs = false)
    (hest : s.cfg.hasEst = true) (hacq : s.cfg.acq = .PI) (x : XArg ℝ) (y : YArg ℝ) (res : Result ℝ M)
    (h : (tell exact W dims s x y true).2 = .ok res) (hn : (tell exact W dims s x y true).1.nInit ≤ 0)
    (ys : List ℝ) (hys : (tell exact W dims s x y true).1.yi = ys.map fun v => .num (.fin v))
    (predict : M → List (List (Val ℝ)) → Pred) (xi : ℝ) (kappa : Kappa) (hp : GaussianValues W predict .PI xi kappa) :
    let t := (tell exact W dims s x y true).1
    ∃ (est : M) (pts : List (Point ℝ)) (X : List (List (Val ℝ))) (best : ℝ) (i : Nat) (p : Point ℝ) (m sd : ℝ),
      t.models.getLast? = some est ∧ best ∈ ys ∧ (∀ w ∈ ys, best ≤ w) ∧
      pts.length = s.cfg.nPoints ∧ (∀ q ∈ pts, InSpace exact dims q) ∧ Space.transform exact dims pts = .ok X ∧
      pts[i]? = some p ∧ t.nextX = some p ∧
      (predict est X).mu[i]? = some m ∧ (predict est X).std[i]? = some sd ∧
      ∀ (j : Nat) (m' sd' : ℝ), (predict est X).mu[j]? = some m' → (predict est X).std[j]? = some sd' → 0 < sd' →
        0 < sd ∧ improvementProbability (best - xi) m' sd' ≤ improvementProbability (best - xi) m sd := by
  obtain ⟨est, pts, X, best, i, p, values, v, h1, h2, h3, h4, h5, h6, h7, h8, h9, h10, h11⟩ :=
    chosen_candidate hW hne hv hi hg hrep hsamp hest h hn hys (c := .PI) (by rw [hacq]; rfl) hp
  have hl : (predict est X).mu.length = (predict est X).std.length := by rw [hp.mu, hp.std]
  obtain ⟨ei, e1, e2, e3⟩ := C53_probability_of_improvement_partial (predict est X) (hp.muDim est X)
    (hp.stdDim est X) hl best xi
  have hvals : values = ei.map fun z => -z := by
    simp only [gaussianAcquisition, Surrogate.single, ok_bind, e1, Except.ok.injEq] at h9
    exact h9.symm
  subst hvals
  rw [List.getElem?_map] at h10
  obtain ⟨w, hw, rfl⟩ := Option.map_eq_some_iff.1 h10
  obtain ⟨hil, -⟩ := List.getElem?_eq_some_iff.1 hw
  have him : i < (predict est X).mu.length := by omega
  have his : i < (predict est X).std.length := by omega
  refine ⟨est, pts, X, best, i, p, (predict est X).mu[i], (predict est X).std[i], h1, h2, h3, h4, h5, h6, h7, h8,
    List.getElem?_eq_getElem him, List.getElem?_eq_getElem his, ?_⟩
  intro j m' sd' hm' hs' hpos
  have hj : j < ei.length := by
    rw [e2]
    exact (List.getElem?_eq_some_iff.1 hm').1
  have hvj := (e3 j m' sd' ei[j] hm' hs' (List.getElem?_eq_getElem hj)).1 hpos
  have hle := h11 (-ei[j]) (List.mem_map_of_mem (List.getElem_mem hj))
  have hvi := e3 i _ _ w (List.getElem?_eq_getElem him) (List.getElem?_eq_getElem his) hw
  have hgt : 0 < improvementProbability (best - xi) m' sd' := by
    rw [improvementProbability_eq _ _ hpos]
    exact normCdf_pos _
  rw [← hvj] at hgt ⊢
  by_cases hsd : 0 < (predict est X).std[i]
  · refine ⟨hsd, ?_⟩
    rw [← hvi.1 hsd]
    linarith
  · have := hvi.2 (not_lt.1 hsd)
    linarith

/-- **C69 (LCB).** The same with `acq_func="LCB"` and a number `kappa`: no candidate has a smaller lower confidence
bound, mean minus `kappa` standard deviations. -/
theorem C69_smallest_lower_confidence_bound_partial (W : World ℝ M R G) (hW : WellBehaved exact W)
    (dims : List (Dim ℝ)) (hne : dims ≠ []) (hv : ∀ d ∈ dims, ValidDim exact d)
    (hi : ∀ d ∈ dims, Invertible (0 : ℝ) 1 d) (hg : ∀ d ∈ dims, GoodBounds exact d)
    (hrep : ∀ d ∈ dims, ∀ v, Representable d v) (s : Opt ℝ M R) (hsamp : s.cfg.lbfgs = false)
    (hest : s.cfg.hasEst = true) (hacq : s.cfg.acq = .LCB) (x : XArg ℝ) (y : YArg ℝ) (res : Result ℝ M)
    (h : (tell exact W dims s x y true).2 = .ok res) (hn : (tell exact W dims s x y true).1.nInit ≤ 0)
    (ys : List ℝ) (hys : (tell exact W dims s x y true).1.yi = ys.map fun v => .num (.fin v))
    (predict : M → List (List (Val ℝ)) → Pred) (xi k : ℝ) (hp : GaussianValues W predict .LCB xi (.num k)) :
    let t := (tell exact W dims s x y true).1
    ∃ (est : M) (pts : List (Point ℝ)) (X : List (List (Val ℝ))) (i : Nat) (p : Point ℝ) (m sd : ℝ),
      t.models.getLast? = some est ∧
      pts.length = s.cfg.nPoints ∧ (∀ q ∈ pts, InSpace exact dims q) ∧ Space.transform exact dims pts = .ok X ∧
      pts[i]? = some p ∧ t.nextX = some p ∧
      (predict est X).mu[i]? = some m ∧ (predict est X).std[i]? = some sd ∧
      ∀ (j : Nat) (m' sd' : ℝ), (predict est X).mu[j]? = some m' → (predict est X).std[j]? = some sd' →
        m - k * sd ≤ m' - k * sd' := by
  obtain ⟨est, pts, X, best, i, p, values, v, h1, h2, h3, h4, h5, h6, h7, h8, h9, h10, h11⟩ :=
    chosen_candidate hW hne hv hi hg hrep hsamp hest h hn hys (c := .LCB) (by rw [hacq]; rfl) hp
  have hl : (predict est X).mu.length = (predict est X).std.length := by rw [hp.mu, hp.std]
  have hvals : values = List.zipWith (fun m s => m - k * s) (predict est X).mu (predict est X).std := by
    simp only [gaussianAcquisition, Surrogate.single, ok_bind, gaussianLcb, Except.ok.injEq] at h9
    exact h9.symm
  subst hvals
  obtain ⟨hil, -⟩ := List.getElem?_eq_some_iff.1 h10
  rw [List.length_zipWith, hl, Nat.min_self] at hil
  have him : i < (predict est X).mu.length := by omega
  rw [List.getElem?_zipWith, List.getElem?_eq_getElem him, List.getElem?_eq_getElem hil] at h10
  injection h10 with h10
  refine ⟨est, pts, X, i, p, (predict est X).mu[i], (predict est X).std[i], h1, h4, h5, h6, h7, h8,
    List.getElem?_eq_getElem him, List.getElem?_eq_getElem hil, ?_⟩
  intro j m' sd' hm' hs'
  rw [h10]
  refine h11 _ (List.mem_of_getElem? (i := j) ?_)
  rw [List.getElem?_zipWith, hm', hs']

/-- Predicted means are the first coordinates, predicted standard deviations their squares. -/
noncomputable def toyPredict (_ : Unit) (X : List (List (Val ℝ))) : Pred where
  mu := X.map fun row => match row with
    | .num x :: _ => x
    | _ => 0
  std := X.map fun row => match row with
    | .num x :: _ => x * x
    | _ => 1

/-- A world whose surrogate predicts `toyPredict` and whose draws from the space differ. -/
noncomputable def gaussWorld : World ℝ Unit Unit Unit :=
  { realWorld with
    draws := fun _ dims n => ((), dims.map fun _ => ⟨(List.range n).map fun i => (i : ℝ), List.replicate n 0⟩)
    acquisition := fun est X y c => match y, gaussianAcquisition (.one (toyPredict est X)) (match y with
        | .fin y => y
        | .nan => 0) c 0.01 (.num 1.96) with
      | .fin _, .ok v => .ok (v.map .fin)
      | _, _ => .ok (X.map fun _ => .nan) }

theorem gaussWorld_values (c : AcqFunc) (hc : c = .EI ∨ c = .PI ∨ c = .LCB) :
    GaussianValues gaussWorld toyPredict c 0.01 (.num 1.96) where
  values est X y := by
    have hl : (toyPredict est X).mu.length = (toyPredict est X).std.length := by simp [toyPredict]
    rcases hc with rfl | rfl | rfl
    · simp only [gaussWorld, gaussianAcquisition, Surrogate.single, ok_bind, gaussianEi_eq _ rfl rfl hl, Except.map]
    · simp only [gaussWorld, gaussianAcquisition, Surrogate.single, ok_bind, gaussianPi_eq _ rfl rfl hl, Except.map]
    · simp only [gaussWorld, gaussianAcquisition, Surrogate.single, ok_bind, Except.map]
  muDim _ _ := rfl
  stdDim _ _ := rfl
  mu _ _ := by simp [toyPredict]
  std _ _ := by simp [toyPredict]

theorem gaussWorld_wellBehaved : WellBehaved exact gaussWorld where
  draws r dims n := by
    constructor
    · simp [gaussWorld]
    · intro d hd
      simp only [gaussWorld, List.mem_map] at hd
      obtain ⟨_, _, rfl⟩ := hd
      simp
  restores := by
    intro g dims n r
    rfl
  generated := by
    intro g dims n r pts _ h p hp
    simp only [gaussWorld, realWorld, Except.ok.injEq] at h
    subst h
    cases hp

/-- A single dimension `Real(0, 10)`. -/
noncomputable def gaussDims : List (Dim ℝ) := [.real ⟨0, 10, .uniform, 10, .identity, none, id⟩]

/-- A fresh optimizer that samples four candidates. -/
noncomputable def gaussOpt (acq : AcqFunc) : Opt ℝ Unit Unit := Opt.fresh exact
  { acq := acq, hasEst := true, isGP := false, lbfgs := false, nPoints := 4, nRestarts := 1,
    nInitial := 1, queueSize := none } () none

theorem gaussWorld_reliable : Reliable gaussWorld gaussDims where
  fit _ _ _ _ _ _ _ _ := ⟨(), rfl⟩
  predict _ X _ _ := ⟨_, rfl, by simp⟩
  draws r n := by
    constructor
    · exact .cons ⟨fun h => (by cases h), trivial⟩ .nil
    · exact (gaussWorld_wellBehaved.draws r gaussDims n).2
  acquisition est X y a _ _ := by
    have hl : (toyPredict est X).mu.length = (toyPredict est X).std.length := by simp [toyPredict]
    cases y with
    | nan => exact ⟨_, rfl, by simp⟩
    | fin y =>
      cases a <;> simp only [gaussWorld, gaussianAcquisition, Surrogate.single, Surrogate.pair, ok_bind,
        gaussianEi_eq _ rfl rfl hl, gaussianPi_eq _ rfl rfl hl] <;>
        exact ⟨_, rfl, by simp [toyPredict, gaussianLcb]⟩
  argsort v hv := by
    constructor
    · simpa [gaussWorld, realWorld] using hv
    · intro i hi
      simpa [gaussWorld, realWorld] using hi
  lbfgs _ _ _ _ x hx := ⟨x, .fin 0, rfl, hx⟩
  multinomial _ p := by simp [gaussWorld, realWorld]
  log t _ := ⟨_, rfl⟩

theorem gaussDims_all (P : Dim ℝ → Prop) :
    (∀ d ∈ gaussDims, P d) ↔ P (.real ⟨0, 10, .uniform, 10, .identity, none, id⟩) := by
  simp [gaussDims]

theorem gaussDims_valid : ∀ d ∈ gaussDims, ValidDim exact d :=
  (gaussDims_all _).2 ⟨by norm_num, Or.inl rfl, fun _ h1 h2 => ⟨h1, h2⟩⟩

theorem gaussDims_invertible : ∀ d ∈ gaussDims, Invertible (0 : ℝ) 1 d := (gaussDims_all _).2 fun h => (by cases h)

theorem gaussDims_bounds : ∀ d ∈ gaussDims, GoodBounds exact d := (gaussDims_all _).2 (Or.inr (Or.inl rfl))

theorem gaussDims_representable : ∀ d ∈ gaussDims, ∀ v, Representable d v :=
  (gaussDims_all _).2 fun v => by cases v <;> trivial

/-- Told the value 1 at 5, the optimizer returns a result and has a suggestion to make. -/
theorem gauss_told (acq : AcqFunc) (hacq : acq = .EI ∨ acq = .PI ∨ acq = .LCB) :
    ∃ r, (tell exact gaussWorld gaussDims (gaussOpt acq) (.lst [.num 5]) (.num (.fin 1)) true).2 = .ok r ∧
      (tell exact gaussWorld gaussDims (gaussOpt acq) (.lst [.num 5]) (.num (.fin 1)) true).1.nInit ≤ 0 ∧
      (tell exact gaussWorld gaussDims (gaussOpt acq) (.lst [.num 5]) (.num (.fin 1)) true).1.yi =
        [1].map fun v => .num (.fin v) := by
  have hwork : Workable gaussDims := ⟨by simp [gaussDims], gaussDims_valid, gaussDims_invertible, gaussDims_bounds,
    fun d hd v _ => gaussDims_representable d hd v⟩
  have hin : InSpace exact gaussDims [.num (5 : ℝ)] := .cons ⟨5, rfl, by norm_num, by norm_num⟩ .nil
  rcases hacq with rfl | rfl | rfl
  · obtain ⟨t, r, h1, -, -, -⟩ := tell_one_live hwork gaussWorld_reliable (s := gaussOpt .EI)
      (live_fresh gaussDims _ () none) ⟨(by decide), fun _ => (by decide), fun k hk => (by cases hk)⟩ hin
      ⟨.num 5, by simp, rfl⟩ ⟨1, rfl⟩ true
    have hcore : tell exact gaussWorld gaussDims (gaussOpt .EI) (.lst [.num 5]) (.num (.fin 1)) true =
        tellCore exact gaussWorld gaussDims (gaussOpt .EI) (.lst [.num 5]) (.num (.fin 1)) true := by
      have hc : checkX gaussDims (.lst [.num (5 : ℝ)]) = .ok () := by
        norm_num [checkX, checkXInSpace, gaussDims, is2D, Val.isSeq, Space.contains, Dim.contains, Val.toNum, bind,
          Except.bind]
      simp only [tell, hc, ok_bind]
      rfl
    have hframe := tellCore_frame exact gaussWorld gaussDims (gaussOpt .EI) (.lst [.num 5]) (.num (.fin 1)) true rfl
    rw [← hcore] at hframe
    refine ⟨r, by rw [h1], ?_, hframe.yi⟩
    rw [hframe.nInit]
    show (1 : ℤ) - 1 ≤ 0
    norm_num
  · obtain ⟨t, r, h1, -, -, -⟩ := tell_one_live hwork gaussWorld_reliable (s := gaussOpt .PI)
      (live_fresh gaussDims _ () none) ⟨(by decide), fun _ => (by decide), fun k hk => (by cases hk)⟩ hin
      ⟨.num 5, by simp, rfl⟩ ⟨1, rfl⟩ true
    have hcore : tell exact gaussWorld gaussDims (gaussOpt .PI) (.lst [.num 5]) (.num (.fin 1)) true =
        tellCore exact gaussWorld gaussDims (gaussOpt .PI) (.lst [.num 5]) (.num (.fin 1)) true := by
      have hc : checkX gaussDims (.lst [.num (5 : ℝ)]) = .ok () := by
        norm_num [checkX, checkXInSpace, gaussDims, is2D, Val.isSeq, Space.contains, Dim.contains, Val.toNum, bind,
          Except.bind]
      simp only [tell, hc, ok_bind]
      rfl
    have hframe := tellCore_frame exact gaussWorld gaussDims (gaussOpt .PI) (.lst [.num 5]) (.num (.fin 1)) true rfl
    rw [← hcore] at hframe
    refine ⟨r, by rw [h1], ?_, hframe.yi⟩
    rw [hframe.nInit]
    show (1 : ℤ) - 1 ≤ 0
    norm_num
  · obtain ⟨t, r, h1, -, -, -⟩ := tell_one_live hwork gaussWorld_reliable (s := gaussOpt .LCB)
      (live_fresh gaussDims _ () none) ⟨(by decide), fun _ => (by decide), fun k hk => (by cases hk)⟩ hin
      ⟨.num 5, by simp, rfl⟩ ⟨1, rfl⟩ true
    have hcore : tell exact gaussWorld gaussDims (gaussOpt .LCB) (.lst [.num 5]) (.num (.fin 1)) true =
        tellCore exact gaussWorld gaussDims (gaussOpt .LCB) (.lst [.num 5]) (.num (.fin 1)) true := by
      have hc : checkX gaussDims (.lst [.num (5 : ℝ)]) = .ok () := by
        norm_num [checkX, checkXInSpace, gaussDims, is2D, Val.isSeq, Space.contains, Dim.contains, Val.toNum, bind,
          Except.bind]
      simp only [tell, hc, ok_bind]
      rfl
    have hframe := tellCore_frame exact gaussWorld gaussDims (gaussOpt .LCB) (.lst [.num 5]) (.num (.fin 1)) true rfl
    rw [← hcore] at hframe
    refine ⟨r, by rw [h1], ?_, hframe.yi⟩
    rw [hframe.nInit]
    show (1 : ℤ) - 1 ≤ 0
    norm_num

/-- The hypotheses are met: `Real(0, 10)`, four different candidates, one observation.  Here with expected improvement
(`C69_largest_expected_improvement_partial`). -/
example : ∃ (pts : List (Point ℝ)) (i : Nat) (p : Point ℝ) (m sd : ℝ),
    (tell exact gaussWorld gaussDims (gaussOpt .EI) (.lst [.num 5]) (.num (.fin 1)) true).1.nextX = some p ∧
    pts.length = 4 ∧ pts[i]? = some p ∧
    ∀ X, Space.transform exact gaussDims pts = .ok X → ∀ (j : Nat) (m' sd' : ℝ), (toyPredict () X).mu[j]? = some m' →
      (toyPredict () X).std[j]? = some sd' → 0 < sd' →
      0 < sd ∧ expectedImprovement (1 - 0.01) m' sd' ≤ expectedImprovement (1 - 0.01) m sd := by
  obtain ⟨r, h1, hni, hyi⟩ := gauss_told .EI (Or.inl rfl)
  obtain ⟨est, pts, X, best, i, p, m, sd, g1, g2, g3, g4, g5, g6, g7, g8, g9, g10, g11⟩ :=
    C69_largest_expected_improvement_partial gaussWorld gaussWorld_wellBehaved gaussDims (by simp [gaussDims])
      gaussDims_valid gaussDims_invertible gaussDims_bounds gaussDims_representable (gaussOpt .EI) rfl rfl rfl
      (.lst [.num 5]) (.num (.fin 1)) r h1 hni [1] hyi toyPredict 0.01 (.num 1.96) (gaussWorld_values .EI (Or.inl rfl))
  rw [List.mem_singleton] at g2
  subst g2
  refine ⟨pts, i, p, m, sd, g8, g4, g7, ?_⟩
  intro X' hX'
  rw [g6] at hX'
  injection hX' with hX'
  subst hX'
  exact g11

/-- With the probability of improvement (`C69_largest_improvement_probability_partial`). -/
example : ∃ (pts : List (Point ℝ)) (i : Nat) (p : Point ℝ) (m sd : ℝ),
    (tell exact gaussWorld gaussDims (gaussOpt .PI) (.lst [.num 5]) (.num (.fin 1)) true).1.nextX = some p ∧
    pts.length = 4 ∧ pts[i]? = some p ∧
    ∀ X, Space.transform exact gaussDims pts = .ok X → ∀ (j : Nat) (m' sd' : ℝ), (toyPredict () X).mu[j]? = some m' →
      (toyPredict () X).std[j]? = some sd' → 0 < sd' →
      0 < sd ∧ improvementProbability (1 - 0.01) m' sd' ≤ improvementProbability (1 - 0.01) m sd := by
  obtain ⟨r, h1, hni, hyi⟩ := gauss_told .PI (Or.inr (Or.inl rfl))
  obtain ⟨est, pts, X, best, i, p, m, sd, g1, g2, g3, g4, g5, g6, g7, g8, g9, g10, g11⟩ :=
    C69_largest_improvement_probability_partial gaussWorld gaussWorld_wellBehaved gaussDims (by simp [gaussDims])
      gaussDims_valid gaussDims_invertible gaussDims_bounds gaussDims_representable (gaussOpt .PI) rfl rfl rfl
      (.lst [.num 5]) (.num (.fin 1)) r h1 hni [1] hyi toyPredict 0.01 (.num 1.96)
      (gaussWorld_values .PI (Or.inr (Or.inl rfl)))
  rw [List.mem_singleton] at g2
  subst g2
  refine ⟨pts, i, p, m, sd, g8, g4, g7, ?_⟩
  intro X' hX'
  rw [g6] at hX'
  injection hX' with hX'
  subst hX'
  exact g11

/-- With the lower confidence bound (`C69_smallest_lower_confidence_bound_partial`). -/
example : ∃ (pts : List (Point ℝ)) (i : Nat) (p : Point ℝ) (m sd : ℝ),
    (tell exact gaussWorld gaussDims (gaussOpt .LCB) (.lst [.num 5]) (.num (.fin 1)) true).1.nextX = some p ∧
    pts.length = 4 ∧ pts[i]? = some p ∧
    ∀ X, Space.transform exact gaussDims pts = .ok X → ∀ (j : Nat) (m' sd' : ℝ), (toyPredict () X).mu[j]? = some m' →
      (toyPredict () X).std[j]? = some sd' → m - 1.96 * sd ≤ m' - 1.96 * sd' := by
  obtain ⟨r, h1, hni, hyi⟩ := gauss_told .LCB (Or.inr (Or.inr rfl))
  obtain ⟨est, pts, X, i, p, m, sd, g1, g4, g5, g6, g7, g8, g9, g10, g11⟩ :=
    C69_smallest_lower_confidence_bound_partial gaussWorld gaussWorld_wellBehaved gaussDims (by simp [gaussDims])
      gaussDims_valid gaussDims_invertible gaussDims_bounds gaussDims_representable (gaussOpt .LCB) rfl rfl rfl
      (.lst [.num 5]) (.num (.fin 1)) r h1 hni [1] hyi toyPredict 0.01 1.96
      (gaussWorld_values .LCB (Or.inr (Or.inr rfl)))
  refine ⟨pts, i, p, m, sd, g8, g4, g7, ?_⟩
  intro X' hX'
  rw [g6] at hX'
  injection hX' with hX'
  subst hX'
  exact g11

/-- A world for the counterexample: the candidates are 1, 2, 3; the acquisition function prefers small candidates
when the incumbent is 5 and large ones otherwise. -/
def psWorld : World ℚ Nat Nat Unit :=
  { okWorld with
    draws := fun r dims n => (r + 1, dims.map fun _ => ⟨(List.range n).map fun i => (i + 1 : ℚ), List.replicate n 0⟩)
    acquisition := fun _ X y _ => .ok (X.map fun row => match row with
      | .num x :: _ => if y = .fin 5 then .fin x else .fin (-x)
      | _ => .nan) }

/-- **C69 is false in the per-second modes**: the incumbent handed to the acquisition function is the smallest of
all recorded numbers, values and logarithms of times mixed.  With one observation, value 5 and log-time -3, the
suggestion minimises the acquisition function for the incumbent -3, not for the smallest observed value 5. -/
theorem C69_refuted_per_second_incumbent :
    let q := tell ratArith psWorld [.real ⟨0, 10, .uniform, 10, .identity, none, id⟩]
      (Opt.fresh ratArith { toyCfg .EIps with nInitial := 1 } 0 none : Opt ℚ Nat Nat)
      (.lst [.num 1]) (.seq [.num (.fin 5), .num (.fin 1)]) true
    q.2.map (fun r => r.funcVals) = .ok [.fin 5] ∧ q.1.nextX = some [.num 3] ∧
    psWorld.acquisition 1 [[.num 1], [.num 2], [.num 3]] (.fin 5) .EIps = .ok [.fin 1, .fin 2, .fin 3] := by
  decide +kernel

end Skopt

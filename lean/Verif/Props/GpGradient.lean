import Verif.Props.Acquisition
import Verif.Props.GaussianProcess
import Mathlib.Analysis.Calculus.Deriv.Pi

/-!
# C143: the gradient that L-BFGS gets is the gradient of the acquisition function of the Gaussian process
-/

namespace Skopt

variable {n n' d : Nat}

/-! ## Specification -/

/-- What `model.predict(X, return_std=True, return_mean_grad=True, return_std_grad=True)` returns for the one row `z`
(acquisition.py:134-136, 197-200, 280-282). -/
def Gp.Answers (g : Gp n d) (z : Fin d → ℝ) (q : PredGrad) : Prop :=
  ∃ p gm gs, g.predict { std := true, meanGrad := true, stdGrad := true } [z] = .ok p ∧ p.mean = [q.mu] ∧
    p.std = some [q.std] ∧ p.meanGrad = some gm ∧ p.stdGrad = some gs ∧ q.muGrad = List.ofFn gm ∧
    q.stdGrad = List.ofFn gs

/-- The kernel of the default surrogate after `fit`: a constant times a Matérn kernel with `nu = 2.5`, perhaps with a white
kernel added (utils.py:373-386). -/
def UsualKernel : Kernel d → Prop
  | .prod (.const _) (.matern ls .fiveHalves) => ∀ i, 0 < ls i
  | .sum (.prod (.const _) (.matern ls .fiveHalves)) (.white _) => ∀ i, 0 < ls i
  | _ => False

/-- The pair `f x` consists of a value and the partial derivatives of this value. -/
def ValueWithGradient (f : (Fin d → ℝ) → Except PyErr (ℝ × List ℝ)) (x : Fin d → ℝ) : Prop :=
  ∃ v grad, f x = .ok (v, grad) ∧ grad.length = d ∧ ∀ (i : Fin d) (a : ℝ), grad[i.val]? = some a →
    HasDerivAt (fun t => acqValueOf (f (Function.update x i t))) a (x i)

/-! ## Lemmas -/

theorem HasGradient.partial {f : (Fin d → ℝ) → ℝ} {g x : Fin d → ℝ} (h : HasGradient f g x) (i : Fin d) :
    HasDerivAt (fun t => f (Function.update x i t)) (g i) (x i) := by
  have h1 : HasFDerivAt f (linForm g) (Function.update x i (x i)) := by rwa [Function.update_eq_self]
  have := h1.comp_hasDerivAt (x i) (hasDerivAt_update x i (x i))
  simpa [linForm_apply, Pi.single_apply, Function.comp_def] using this

theorem answers_values {g : Gp n d} {z : Fin d → ℝ} {q : PredGrad} (h : g.Answers z q) : q.mu = g.mean z ∧ q.std = g.std z := by
  obtain ⟨p, gm, gs, h1, h2, h3, -⟩ := h
  unfold Gp.predict at h1
  simp only [predictChecks, bind, Except.bind, Bool.and_false, Bool.false_eq_true, if_false, Bool.not_true,
    if_true, List.length_singleton, ne_eq, not_true_eq_false, false_and] at h1
  cases hgr : g.gradient z with
  | error e => rw [hgr] at h1; cases h1
  | ok grad =>
    rw [hgr] at h1
    cases h1
    simp only [List.map_cons, List.map_nil, List.cons.injEq, and_true, Option.some.injEq] at h2 h3
    exact ⟨h2.symm, h3.symm⟩

theorem answers_gradient {g : Gp n d} {P : (Fin d → ℝ) → PredGrad} (hP : ∀ z, g.Answers z (P z)) {x : Fin d → ℝ}
    (hs : ∀ i, SmoothAt g.kernel x (g.X i)) (hh : EvenVariance g.kernel) (hstd : 1e-8 < g.std x) : PredictsGradient P x := by
  obtain ⟨p, gm, gs, h1, -, -, h4, h5, h6, h7⟩ := hP x
  obtain ⟨gm', e1, k1⟩ := C57_mean_gradient g x _ p rfl rfl h1 hs
  obtain ⟨gs', e2, k2⟩ := C57_std_gradient_partial g x p h1 hs hh hstd
  rw [h4] at e1
  rw [h5] at e2
  cases e1
  cases e2
  refine ⟨by rw [h6]; simp, by rw [h7]; simp, fun i a ha => ?_, fun i a ha => ?_⟩
  · rw [h6, List.getElem?_ofFn, dif_pos i.2] at ha
    cases ha
    have := k1.partial i
    simpa only [(answers_values (hP _)).1] using this
  · rw [h7, List.getElem?_ofFn, dif_pos i.2] at ha
    cases ha
    have := k2.partial i
    simpa only [(answers_values (hP _)).2] using this

/-! ## C143 -/

/-- **C143.** For a Gaussian process with constant prior variance, at every point where the standard deviation exceeds 1e-8
and the kernel is differentiable: what `LCB`, `EI` and `PI` hand to L-BFGS is the value of the acquisition function and its
partial derivatives. -/
theorem C143_gradient (g : Gp n d) (P : (Fin d → ℝ) → PredGrad) (hP : ∀ z, g.Answers z (P z)) (x : Fin d → ℝ)
    (hs : ∀ i, SmoothAt g.kernel x (g.X i)) (hh : EvenVariance g.kernel) (hstd : 1e-8 < g.std x) (yOpt xi : ℝ)
    (kappa : Kappa) (acq : AcqFunc) (hacq : acq ≠ .gpHedge) (hps : acq.isPs = false) :
    ValueWithGradient (fun z => gaussianAcquisitionGrad (.one (P z)) yOpt acq xi kappa) x := by
  have h := answers_gradient hP hs hh hstd
  have hpos : 0 < (P x).std := by rw [(answers_values (hP x)).2]; linarith [show (0 : ℝ) < 1e-8 by norm_num]
  have := C54_acquisition_gradient P P x h h hpos yOpt xi kappa acq hacq
  simp only [hps, Bool.false_eq_true, if_false] at this
  exact this

/-- **C143 (per second).** The same for `EIps` and `PIps` with a second Gaussian process for the logarithm of the time. -/
theorem C143_per_second (g : Gp n d) (t : Gp n' d) (P T : (Fin d → ℝ) → PredGrad) (hP : ∀ z, g.Answers z (P z))
    (hT : ∀ z, t.Answers z (T z)) (x : Fin d → ℝ) (hs : ∀ i, SmoothAt g.kernel x (g.X i))
    (hs' : ∀ i, SmoothAt t.kernel x (t.X i)) (hh : EvenVariance g.kernel) (hh' : EvenVariance t.kernel)
    (hstd : 1e-8 < g.std x) (hstd' : 1e-8 < t.std x) (yOpt xi : ℝ) (kappa : Kappa) (acq : AcqFunc) (hps : acq.isPs = true) :
    ValueWithGradient (fun z => gaussianAcquisitionGrad (.multi [P z, T z]) yOpt acq xi kappa) x := by
  have h := answers_gradient hP hs hh hstd
  have h' := answers_gradient hT hs' hh' hstd'
  have hpos : 0 < (P x).std := by rw [(answers_values (hP x)).2]; linarith [show (0 : ℝ) < 1e-8 by norm_num]
  have := C54_acquisition_gradient P T x h h' hpos yOpt xi kappa acq (by rintro rfl; simp [AcqFunc.isPs] at hps)
  simp only [hps, if_true] at this
  exact this

/-- **C143 (availability).** The prediction with gradients succeeds at every point if and only if the kernel is one for which
gradients are available (C55), as soon as there is an observation. -/
theorem C143_available (g : Gp (n + 1) d) : (∃ P : (Fin d → ℝ) → PredGrad, ∀ z, g.Answers z (P z)) ↔ GradientOk g.kernel := by
  constructor
  · rintro ⟨P, hP⟩
    obtain ⟨p, -, -, h1, -⟩ := hP (g.X 0)
    unfold Gp.predict at h1
    simp only [predictChecks, bind, Except.bind, Bool.and_false, Bool.false_eq_true, if_false, Bool.not_true,
      if_true, List.length_singleton, ne_eq, not_true_eq_false, false_and] at h1
    cases hgr : g.gradient (g.X 0) with
    | error e => rw [hgr] at h1; cases h1
    | ok grad =>
      unfold Gp.gradient at hgr
      rw [bind_eq_ok] at hgr
      obtain ⟨rows, hr, -⟩ := hgr
      unfold Kernel.gradientX at hr
      rw [List.ofFn_succ] at hr
      obtain ⟨r, h⟩ : ∃ r, g.kernel.gradRow 0 (g.X 0) (g.X 0) = .ok r := by
        cases h : g.kernel.gradRow 0 (g.X 0) (g.X 0) with
        | ok r => exact ⟨r, rfl⟩
        | error e => simp [mapE, h] at hr
      exact (gradRow_zero _ _ _).1 ⟨r, h⟩
  · intro hk
    have hex : ∀ z, ∃ q, g.Answers z q := by
      intro z
      have hg : ∃ grad, g.gradient z = .ok grad := by
        choose r hr using fun y => (gradRow_zero g.kernel z y).2 hk
        unfold Gp.gradient Kernel.gradientX
        rw [mapE_ok_of_forall (g := r) fun y _ => hr y]
        exact ⟨_, rfl⟩
      obtain ⟨grad, hg⟩ := hg
      refine ⟨⟨g.mean z, g.std z, List.ofFn (g.gradMean grad), List.ofFn (g.gradStd z grad)⟩,
        { mean := [g.mean z], std := some [g.std z], meanGrad := some (g.gradMean grad), stdGrad := some (g.gradStd z grad) },
        _, _, ?_, rfl, rfl, rfl, rfl, rfl, rfl⟩
      unfold Gp.predict
      simp only [predictChecks, bind, Except.bind, Bool.and_false, Bool.false_eq_true, if_false, Bool.not_true,
        if_true, List.length_singleton, ne_eq, not_true_eq_false, false_and, hg]
      rfl
    exact ⟨fun z => (hex z).choose, fun z => (hex z).choose_spec⟩

theorem usual_smooth {k : Kernel d} (h : UsualKernel k) (x y : Fin d → ℝ) : SmoothAt k x y ∧ EvenVariance k ∧ GradientOk k := by
  unfold UsualKernel at h
  split at h
  · exact ⟨⟨trivial, h⟩, ⟨trivial, trivial⟩, trivial, trivial⟩
  · exact ⟨⟨⟨trivial, h⟩, trivial⟩, ⟨⟨trivial, trivial⟩, trivial⟩, ⟨trivial, trivial⟩, trivial⟩
  · exact h.elim

/-- **C143 (default surrogate).** With the kernel of the default surrogate the prediction with gradients succeeds at every
point, and wherever the standard deviation exceeds 1e-8 the acquisition functions `LCB`, `EI` and `PI` hand L-BFGS the value
and the gradient of one and the same function – whatever the observations, the fitted hyperparameters and the options. -/
theorem C143_default (g : Gp (n + 1) d) (hk : UsualKernel g.kernel) : ∃ P : (Fin d → ℝ) → PredGrad,
    (∀ z, g.Answers z (P z)) ∧ ∀ (x : Fin d → ℝ), 1e-8 < g.std x → ∀ (yOpt xi : ℝ) (kappa : Kappa) (acq : AcqFunc),
      acq ≠ .gpHedge → acq.isPs = false →
        ValueWithGradient (fun z => gaussianAcquisitionGrad (.one (P z)) yOpt acq xi kappa) x := by
  obtain ⟨P, hP⟩ := (C143_available g).2 (usual_smooth hk 0 0).2.2
  exact ⟨P, hP, fun x hx yOpt xi kappa acq h1 h2 => C143_gradient g P hP x (fun i => (usual_smooth hk x _).1)
    (usual_smooth hk x x).2.1 hx yOpt xi kappa acq h1 h2⟩

/-! ## Examples -/

/-- One observation at zero with noise 1/2, prior variance 1/2, Matérn kernel and a white kernel of level zero. -/
noncomputable def usualGp : Gp 1 2 where
  kernel := .sum (.prod (.const (1 / 2)) (.matern (fun _ => 1) .fiveHalves)) (.white 0)
  X := fun _ _ => 0
  L := 1
  alpha := fun _ => 1
  yMean := 0
  yStd := 1

theorem usualGp_std : usualGp.std (fun _ => 0) = 1 / 2 := by
  have hK : usualGp.Kinv = 1 := by simp [Gp.Kinv, usualGp]
  have hv : usualGp.rawVar (fun _ => 0) = 1 / 4 := by
    simp only [Gp.rawVar, hK, Gp.kTrans]
    simp only [usualGp, Kernel.diag, Kernel.value, kdist, kdistSq, kdiff, Nu.value]
    simp
    norm_num
  unfold Gp.std
  rw [hv, if_neg (by norm_num)]
  simp only [usualGp]
  rw [show (1 / 4 : ℝ) * 1 ^ 2 = (1 / 2) ^ 2 by norm_num]
  exact Real.sqrt_sq (by norm_num)

/-- The surrogate above in two dimensions, expected improvement and its version per second.  Meets the hypotheses of
`C143_available`, `C143_default`, `C143_gradient` and `C143_per_second`. -/
example : ∃ P : (Fin 2 → ℝ) → PredGrad, (∀ z, usualGp.Answers z (P z)) ∧
    ValueWithGradient (fun z => gaussianAcquisitionGrad (.one (P z)) 0 .EI) (fun _ => 0) ∧
    ValueWithGradient (fun z => gaussianAcquisitionGrad (.multi [P z, P z]) 0 .EIps) (fun _ => 0) := by
  have hk : UsualKernel usualGp.kernel := fun _ => one_pos
  have h0 : (1e-8 : ℝ) < usualGp.std fun _ => 0 := by rw [usualGp_std]; norm_num
  obtain ⟨P, hP, h⟩ := C143_default usualGp hk
  exact ⟨P, hP, h _ h0 0 _ _ .EI (by simp) rfl, C143_per_second usualGp usualGp P P hP hP _
    (fun i => (usual_smooth hk _ _).1) (fun i => (usual_smooth hk _ _).1) (usual_smooth hk 0 0).2.1 (usual_smooth hk 0 0).2.1
    h0 h0 0 _ _ .EIps rfl⟩

end Skopt

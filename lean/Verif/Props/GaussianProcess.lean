import Verif.Model.GaussianProcess
import Verif.Props.Kernels

/-!
# C57: predictions of the Gaussian process regressor
-/

namespace Skopt

open Matrix

variable {n d : Nat}

/-! ## Specification -/

/-- The mean of the posterior at a point whose covariances with the training points are `k`, for training covariance
`K` and normalised targets `y`, undoing the normalisation by `mu` and `sigma`. -/
noncomputable def posteriorMean (K : Matrix (Fin n) (Fin n) ℝ) (k y : Fin n → ℝ) (mu sigma : ℝ) : ℝ :=
  mu + sigma * (k ⬝ᵥ (K⁻¹ *ᵥ y))

/-- The variance of the posterior at a point with prior variance `v`. -/
noncomputable def posteriorVar (K : Matrix (Fin n) (Fin n) ℝ) (k : Fin n → ℝ) (v sigma : ℝ) : ℝ :=
  sigma ^ 2 * (v - k ⬝ᵥ (K⁻¹ *ᵥ k))

/-- What scikit-learn's `fit` promises: `L_` is a factor of the training covariance, `alpha_` its inverse applied to
the normalised targets. -/
def Fitted (g : Gp n d) (K : Matrix (Fin n) (Fin n) ℝ) (y : Fin n → ℝ) : Prop :=
  g.L * g.Lᵀ = K ∧ g.alpha = K⁻¹ *ᵥ y

/-- The prior variance is the same everywhere: no linear kernel is involved. -/
def EvenVariance : Kernel d → Prop
  | .dot _ => False
  | .sum a b => EvenVariance a ∧ EvenVariance b
  | .prod a b => EvenVariance a ∧ EvenVariance b
  | .expo a _ => EvenVariance a
  | _ => True

/-- A term of the sum at the top of the kernel is a white kernel. -/
inductive WhiteTerm : Kernel d → Prop
  | white (v : ℝ) : WhiteTerm (.white v)
  | left {a b : Kernel d} : WhiteTerm a → WhiteTerm (.sum a b)
  | right {a b : Kernel d} : WhiteTerm b → WhiteTerm (.sum a b)

/-- The kernels have the same form; only numbers differ. -/
inductive SameForm : Kernel d → Kernel d → Prop
  | rbf (l l') : SameForm (.rbf l) (.rbf l')
  | matern (l l' nu) : SameForm (.matern l nu) (.matern l' nu)
  | rq (a l a' l') : SameForm (.rq a l) (.rq a' l')
  | expSine (l p l' p') : SameForm (.expSine l p) (.expSine l' p')
  | const (c c') : SameForm (.const c) (.const c')
  | white (v v') : SameForm (.white v) (.white v')
  | dot (s s') : SameForm (.dot s) (.dot s')
  | hamming (l l') : SameForm (.hamming l) (.hamming l')
  | sum {a b a' b'} : SameForm a a' → SameForm b b' → SameForm (.sum a b) (.sum a' b')
  | prod {a b a' b'} : SameForm a a' → SameForm b b' → SameForm (.prod a b) (.prod a' b')
  | expo {a a'} (p) : SameForm a a' → SameForm (.expo a p) (.expo a' p)

/-! ## Lemmas -/

theorem Kinv_eq (g : Gp n d) : g.Kinv = (g.L * g.Lᵀ)⁻¹ := by
  simp only [Gp.Kinv, Matrix.mul_inv_rev, Matrix.transpose_nonsing_inv, Matrix.transpose_transpose]

theorem Kinv_symm (g : Gp n d) (i j : Fin n) : g.Kinv i j = g.Kinv j i := by
  have : g.Kinvᵀ = g.Kinv := by
    simp only [Gp.Kinv, Matrix.transpose_mul, Matrix.transpose_transpose]
  rw [← this, Matrix.transpose_apply, this]

theorem quad_form (M : Matrix (Fin n) (Fin n) ℝ) (k : Fin n → ℝ) :
    ∑ i, ∑ j, k i * k j * M i j = k ⬝ᵥ (M *ᵥ k) := by
  simp only [dotProduct, mulVec, Finset.mul_sum]
  refine Finset.sum_congr rfl fun i _ => Finset.sum_congr rfl fun j _ => ?_
  ring

theorem diag_const {k : Kernel d} (h : EvenVariance k) : ∃ c, ∀ x, k.diag x = c := by
  induction k with
  | sum a b iha ihb =>
    obtain ⟨c, hc⟩ := iha h.1
    obtain ⟨c', hc'⟩ := ihb h.2
    exact ⟨c + c', fun x => by simp only [Kernel.diag, hc, hc']⟩
  | prod a b iha ihb =>
    obtain ⟨c, hc⟩ := iha h.1
    obtain ⟨c', hc'⟩ := ihb h.2
    exact ⟨c * c', fun x => by simp only [Kernel.diag, hc, hc']⟩
  | expo a p iha =>
    obtain ⟨c, hc⟩ := iha h
    exact ⟨c ^ p, fun x => by simp only [Kernel.diag, hc]⟩
  | dot s => exact h.elim
  | _ => exact ⟨_, fun _ => rfl⟩

theorem gradient_rows {g : Gp n d} {x : Fin d → ℝ} {grad : Fin n → Fin d → ℝ} (h : g.gradient x = .ok grad) (i : Fin n)
    (hs : SmoothAt g.kernel x (g.X i)) : HasGradient (fun x => g.kTrans x i) (grad i) x := by
  unfold Gp.gradient at h
  cases hr : g.kernel.gradientX x (List.ofFn g.X) with
  | error e => simp only [hr, bind, Except.bind] at h; cases h
  | ok rows =>
    simp only [hr, bind, Except.bind] at h
    cases h
    obtain ⟨hlen, hrow⟩ := C55_kernel_gradient g.kernel x _ rows hr
    have hi : i.val < rows.length := by rw [hlen, List.length_ofFn]; exact i.isLt
    have := hrow i.val (g.X i) rows[i.val] (by simp) (List.getElem?_eq_getElem hi) hs
    simp only [List.getD_eq_getElem?_getD, List.getElem?_eq_getElem hi, Option.getD_some]
    exact this

theorem checks_ok {fl : PredictFlags} {xs : List (Fin d → ℝ)} (h : predictChecks fl xs = .ok ()) :
    ¬ (fl.std = true ∧ fl.cov = true) ∧ (fl.stdGrad = true → fl.std = true) ∧
    ((fl.meanGrad = true ∨ fl.stdGrad = true) → xs.length = 1) := by
  unfold predictChecks at h
  split_ifs at h with h1 h2 h3
  refine ⟨fun h => h1 (by simp [h]), fun hs => ?_, fun hg => ?_⟩
  · by_contra hn
    exact h2 (by simp [hs, hn])
  · by_contra hn
    exact h3 ⟨hn, by simpa using hg⟩

theorem std_hasGradient (g : Gp n d) (x : Fin d → ℝ) (grad : Fin n → Fin d → ℝ) (hh : EvenVariance g.kernel)
    (hk : ∀ i, HasGradient (fun x => g.kTrans x i) (grad i) x) (hstd : 1e-8 < g.std x) :
    HasGradient g.std (g.gradStd x grad) x := by
  obtain ⟨c, hc⟩ := diag_const hh
  have hpos : 0 < g.std x := lt_trans (by norm_num) hstd
  -- the variance is positive
  have hv : 0 < g.rawVar x := by
    by_contra hn
    have : g.std x = 0 := by
      rcases lt_or_eq_of_le (not_lt.1 hn) with h | h
      · simp [Gp.std, h]
      · simp [Gp.std, h]
    exact hpos.ne' this
  have hs0 : g.yStd ^ 2 ≠ 0 := by
    intro h
    have : g.std x = 0 := by simp [Gp.std, h]
    exact hpos.ne' this
  -- derivative of the quadratic form
  have hq : HasFDerivAt (fun x => g.rawVar x)
      (linForm fun m => -(2 * ∑ a, g.kTrans x a * ∑ b, g.Kinv a b * grad b m)) x := by
    have h1 : ∀ i j : Fin n, HasFDerivAt (fun x => g.kTrans x i * g.kTrans x j * g.Kinv i j)
        (linForm fun m => (g.kTrans x i * grad j m + g.kTrans x j * grad i m) * g.Kinv i j) x := by
      intro i j
      have := ((hk i).mul (hk j)).mul_const (g.Kinv i j)
      refine this.congr_fderiv ?_
      ext v
      simp only [_root_.smul_apply, _root_.add_apply, linForm_apply, smul_eq_mul,
        Finset.mul_sum, ← Finset.sum_add_distrib]
      refine Finset.sum_congr rfl fun m _ => ?_
      ring
    have h2 := HasFDerivAt.fun_sum (u := Finset.univ) fun (i : Fin n) _ =>
      HasFDerivAt.fun_sum (u := Finset.univ) fun (j : Fin n) _ => h1 i j
    have h3 : (fun x => g.rawVar x) = fun x => c - ∑ i, ∑ j, g.kTrans x i * g.kTrans x j * g.Kinv i j := by
      funext x
      simp only [Gp.rawVar, hc]
    rw [h3]
    refine (h2.const_sub c).congr_fderiv ?_
    ext v
    simp only [_root_.neg_apply, _root_.sum_apply, linForm_apply]
    rw [← Finset.sum_neg_distrib]
    have hsw : ∀ f : Fin n → Fin n → Fin d → ℝ, ∑ i, ∑ j, ∑ m, f i j m = ∑ m, ∑ i, ∑ j, f i j m := by
      intro f
      rw [Finset.sum_congr rfl fun i _ => Finset.sum_comm, Finset.sum_comm]
    have e1 : ∑ i, ∑ j, ∑ m, (g.kTrans x i * grad j m + g.kTrans x j * grad i m) * g.Kinv i j * v m =
        2 * ∑ i, ∑ j, ∑ m, g.kTrans x i * grad j m * g.Kinv i j * v m := by
      have : ∑ i, ∑ j, ∑ m, g.kTrans x j * grad i m * g.Kinv i j * v m =
          ∑ i, ∑ j, ∑ m, g.kTrans x i * grad j m * g.Kinv i j * v m := by
        rw [Finset.sum_comm]
        refine Finset.sum_congr rfl fun i _ => Finset.sum_congr rfl fun j _ => Finset.sum_congr rfl fun m _ => ?_
        rw [Kinv_symm g j i]
      rw [two_mul]
      nth_rewrite 2 [← this]
      simp only [← Finset.sum_add_distrib]
      refine Finset.sum_congr rfl fun i _ => Finset.sum_congr rfl fun j _ => Finset.sum_congr rfl fun m _ => ?_
      ring
    rw [Finset.sum_neg_distrib, e1, hsw]
    simp only [Finset.mul_sum, Finset.sum_mul, ← Finset.sum_neg_distrib]
    refine Finset.sum_congr rfl fun m _ => Finset.sum_congr rfl fun i _ => Finset.sum_congr rfl fun j _ => ?_
    ring
  -- the square root
  have hstdx : g.std x = Real.sqrt (g.rawVar x * g.yStd ^ 2) := by
    simp only [Gp.std, if_neg (not_lt.2 hv.le)]
  have hne : g.rawVar x * g.yStd ^ 2 ≠ 0 := mul_ne_zero hv.ne' hs0
  have hsq := (hq.mul_const (g.yStd ^ 2)).sqrt hne
  have hev : ∀ᶠ z in nhds x, g.std z = Real.sqrt (g.rawVar z * g.yStd ^ 2) := by
    have := hq.continuousAt.eventually (lt_mem_nhds hv)
    filter_upwards [this] with z hz
    simp only [Gp.std, if_neg (not_lt.2 (le_of_lt hz))]
  refine (hsq.congr_of_eventuallyEq hev).congr_fderiv ?_
  have habs : ¬ |g.std x| ≤ 1e-8 := by
    rw [abs_of_pos hpos]
    exact not_le.2 hstd
  rw [← hstdx]
  ext v
  simp only [Gp.gradStd, if_neg habs, _root_.smul_apply, linForm_apply, smul_eq_mul]
  rw [Finset.mul_sum, Finset.mul_sum]
  refine Finset.sum_congr rfl fun m _ => ?_
  have h := hpos.ne'
  generalize ∑ a, g.kTrans x a * ∑ b, g.Kinv a b * grad b m = S
  field_simp

/-! ## C57 -/

/-- **C57.** `predict` of a fitted regressor succeeds without gradients for every set of points, and returns at every
point the mean and the standard deviation of the Gaussian posterior (zero where rounding would make the variance
negative); the covariance is that of the posterior. -/
theorem C57_posterior (g : Gp n d) (K : Matrix (Fin n) (Fin n) ℝ) (y : Fin n → ℝ) (hf : Fitted g K y)
    (xs : List (Fin d → ℝ)) :
    (∃ p, g.predict { std := true } xs = .ok p ∧
      p.mean = xs.map (fun x => posteriorMean K (fun i => g.kernel.value x (g.X i)) y g.yMean g.yStd) ∧
      p.std = some (xs.map fun x =>
        Real.sqrt (max 0 (posteriorVar K (fun i => g.kernel.value x (g.X i)) (g.kernel.diag x) g.yStd)))) ∧
    (∃ p, g.predict { cov := true } xs = .ok p ∧
      p.mean = xs.map (fun x => posteriorMean K (fun i => g.kernel.value x (g.X i)) y g.yMean g.yStd) ∧
      ∃ c, p.cov = some c ∧ ∀ (i : Nat) (x : Fin d → ℝ), xs[i]? = some x → ∃ row, c[i]? = some row ∧
        row[i]? = some (posteriorVar K (fun i => g.kernel.value x (g.X i)) (g.kernel.diag x) g.yStd)) := by
  have hmean : xs.map g.mean =
      xs.map (fun x => posteriorMean K (fun i => g.kernel.value x (g.X i)) y g.yMean g.yStd) := by
    refine List.map_congr_left fun x _ => ?_
    simp only [Gp.mean, posteriorMean, hf.2, dotProduct, Gp.kTrans]
    ring
  have hinv : g.Kinv = K⁻¹ := by rw [Kinv_eq, hf.1]
  have hraw : ∀ x, g.rawVar x * g.yStd ^ 2 =
      posteriorVar K (fun i => g.kernel.value x (g.X i)) (g.kernel.diag x) g.yStd := by
    intro x
    simp only [Gp.rawVar, posteriorVar, quad_form, hinv, Gp.kTrans]
    ring
  constructor
  · refine ⟨{ mean := xs.map g.mean, std := some (xs.map g.std) },
      by simp [Gp.predict, predictChecks, bind, Except.bind], hmean, ?_⟩
    refine congrArg some (List.map_congr_left fun x _ => ?_)
    rw [← hraw]
    simp only [Gp.std]
    congr 1
    by_cases h : g.rawVar x < 0
    · rw [if_pos h, zero_mul, max_eq_left (mul_nonpos_of_nonpos_of_nonneg h.le (sq_nonneg _))]
    · rw [if_neg h, max_eq_right (mul_nonneg (not_lt.1 h) (sq_nonneg _))]
  · refine ⟨{ mean := xs.map g.mean, cov := some (g.cov xs) },
      by simp [Gp.predict, predictChecks, bind, Except.bind], hmean, _, rfl, fun i x hx => ?_⟩
    refine ⟨xs.zipIdx.map fun q => g.covEntry i q.2 x q.1, ?_, ?_⟩
    · simp [Gp.cov, List.getElem?_map, List.getElem?_zipIdx, hx]
    · simp only [List.getElem?_map, List.getElem?_zipIdx, hx, Option.map_some, Gp.covEntry, zero_add, if_true]
      congr 1
      rw [hf.1]
      have hk : g.kTrans x = fun i => g.kernel.value x (g.X i) := rfl
      simp only [posteriorVar, dotProduct, hk]
      ring

/-- **C57.** The gradient of the mean returned by `predict` is the gradient of the mean, wherever the kernel is
differentiable with respect to the point. -/
theorem C57_mean_gradient (g : Gp n d) (x : Fin d → ℝ) (fl : PredictFlags) (p : Prediction d)
    (hg : fl.meanGrad = true) (hc : fl.cov = false) (h : g.predict fl [x] = .ok p)
    (hs : ∀ i, SmoothAt g.kernel x (g.X i)) :
    ∃ gm, p.meanGrad = some gm ∧ HasGradient g.mean gm x := by
  have hgr : ∃ grad, g.gradient x = .ok grad ∧ p.meanGrad = some (g.gradMean grad) := by
    unfold Gp.predict at h
    cases hck : predictChecks fl [x] with
    | error e => rw [hck] at h; cases h
    | ok u =>
      simp only [hck, bind, Except.bind, hc, hg, Bool.false_eq_true, if_false, if_true] at h
      cases hgr : g.gradient x with
      | error e => rw [hgr] at h; cases h
      | ok grad =>
        rw [hgr] at h
        simp only at h
        split_ifs at h <;> cases h <;> exact ⟨grad, rfl, rfl⟩
  obtain ⟨grad, hgr, hp⟩ := hgr
  refine ⟨_, hp, ?_⟩
  have h1 : ∀ i, HasFDerivAt (fun x => g.kTrans x i * g.alpha i) (linForm fun m => g.alpha i * grad i m) x := by
    intro i
    rw [linForm_smul]
    exact (gradient_rows hgr i (hs i)).mul_const _
  have h2 := ((HasFDerivAt.fun_sum (u := Finset.univ) fun (i : Fin n) _ => h1 i).const_mul g.yStd).add_const g.yMean
  refine h2.congr_fderiv ?_
  ext v
  simp only [_root_.smul_apply, _root_.sum_apply, linForm_apply, smul_eq_mul, Gp.gradMean]
  rw [Finset.sum_comm, Finset.mul_sum]
  refine Finset.sum_congr rfl fun m _ => ?_
  simp only [Finset.sum_mul, Finset.mul_sum]
  refine Finset.sum_congr rfl fun i _ => ?_
  ring

/-- **C57 (restricted).** The gradient of the standard deviation returned by `predict` is its gradient where the
standard deviation is more than 1e-8, if the prior variance is the same everywhere.

Missing: kernels with a linear term (`DotProduct`), whose prior variance depends on the point; see the refutation. -/
theorem C57_std_gradient_partial (g : Gp n d) (x : Fin d → ℝ) (p : Prediction d)
    (h : g.predict { std := true, meanGrad := true, stdGrad := true } [x] = .ok p)
    (hs : ∀ i, SmoothAt g.kernel x (g.X i)) (hh : EvenVariance g.kernel) (hstd : 1e-8 < g.std x) :
    ∃ gs, p.stdGrad = some gs ∧ HasGradient g.std gs x := by
  have hgr : ∃ grad, g.gradient x = .ok grad ∧ p.stdGrad = some (g.gradStd x grad) := by
    unfold Gp.predict at h
    simp only [predictChecks, bind, Except.bind, Bool.and_false, Bool.false_eq_true, if_false, Bool.not_true,
      if_true, List.length_singleton, ne_eq, not_true_eq_false, false_and] at h
    cases hgr : g.gradient x with
    | error e => rw [hgr] at h; cases h
    | ok grad =>
      rw [hgr] at h
      cases h
      exact ⟨grad, rfl, rfl⟩
  obtain ⟨grad, hgr, hp⟩ := hgr
  exact ⟨_, hp, std_hasGradient g x grad hh (fun i => gradient_rows hgr i (hs i)) hstd⟩

/-- One training point at zero, unit covariance and a little noise. -/
noncomputable def smallGp : Gp 1 1 where
  kernel := .rbf fun _ => 1
  X := fun _ _ => 0
  L := 1
  alpha := fun _ => 1
  yMean := 0
  yStd := 1

/-- Meets the hypotheses of `C57_posterior`. -/
example : Fitted smallGp 1 (fun _ => 1) := by
  refine ⟨by simp [smallGp], ?_⟩
  funext i
  simp [smallGp]

/-- Meets the hypotheses of `C57_mean_gradient`, `C57_std_gradient_partial`. -/
example : (∃ p, smallGp.predict { std := true, meanGrad := true, stdGrad := true } [fun _ => 1] = .ok p) ∧
    (∀ i, SmoothAt smallGp.kernel (fun _ => 1) (smallGp.X i)) ∧ EvenVariance smallGp.kernel ∧
    1e-8 < smallGp.std fun _ => 1 := by
  refine ⟨⟨_, rfl⟩, fun _ => trivial, trivial, ?_⟩
  have hK : smallGp.Kinv = 1 := by simp [Gp.Kinv, smallGp]
  have hv : smallGp.rawVar (fun _ => 1) = 1 - Real.exp (-1) := by
    simp only [Gp.rawVar, hK, Gp.kTrans]
    simp only [smallGp, Kernel.diag, Kernel.value, kdistSq, kdiff]
    simp [← Real.exp_add]
    norm_num
  have he : Real.exp (-1) ≤ 1 / 2 := by
    have := Real.add_one_le_exp (1 : ℝ)
    rw [Real.exp_neg, inv_le_comm₀ (Real.exp_pos 1) (by norm_num)]
    linarith
  have hpos : ¬ (1 - Real.exp (-1) < 0) := by linarith
  have h2 : (1 / 2 : ℝ) ≤ (1 - Real.exp (-1)) * (1 : ℝ) ^ 2 := by linarith
  have h3 : (1 / 2 : ℝ) ≤ Real.sqrt ((1 - Real.exp (-1)) * (1 : ℝ) ^ 2) := by
    apply Real.le_sqrt_of_sq_le
    linarith
  have : smallGp.std (fun _ => 1) = Real.sqrt ((1 - Real.exp (-1)) * (1 : ℝ) ^ 2) := by
    simp only [Gp.std, hv, if_neg hpos]
    rfl
  rw [this]
  exact lt_of_lt_of_le (by norm_num) h3

/-- One training point at one and a linear kernel with noise: training covariance two. -/
noncomputable def linearGp : Gp 1 1 where
  kernel := .dot 0
  X := fun _ _ => 1
  L := Matrix.of fun _ _ => Real.sqrt 2
  alpha := fun _ => 1 / 2
  yMean := 0
  yStd := 1

theorem linear_Kinv : linearGp.Kinv = Matrix.of fun _ _ => (1 / 2 : ℝ) := by
  rw [Kinv_eq]
  have h : linearGp.L * linearGp.Lᵀ = Matrix.of fun _ _ => (2 : ℝ) := by
    ext i j
    simp [linearGp, Matrix.mul_apply]
  rw [h]
  apply Matrix.inv_eq_right_inv
  ext i j
  have : i = j := Subsingleton.elim i j
  subst this
  simp [Matrix.mul_apply]

theorem linear_std (t : ℝ) : linearGp.std (fun _ => t) = Real.sqrt (t ^ 2 / 2) := by
  have hv : linearGp.rawVar (fun _ => t) = t ^ 2 / 2 := by
    simp only [Gp.rawVar, linear_Kinv, Gp.kTrans]
    simp only [linearGp, Kernel.diag, Kernel.value]
    simp
    ring
  have hn : ¬ t ^ 2 / 2 < 0 := not_lt.2 (by positivity)
  simp only [Gp.std, hv, if_neg hn]
  simp [linearGp]

/-- **C57 refuted.** With a linear kernel the returned gradient of the standard deviation has even the wrong sign:
with a noisy observation at one, the standard deviation at one grows at rate `√(1/2)`, the code returns `-√(1/2)`. -/
theorem C57_refuted_linear_std_gradient :
    (∃ p gs, linearGp.predict { std := true, meanGrad := true, stdGrad := true } [fun _ => 1] = .ok p ∧
      p.stdGrad = some gs ∧ gs 0 < 0) ∧
    ∃ c, 0 < c ∧ HasDerivAt (fun t : ℝ => linearGp.std fun _ => t) c 1 := by
  have hs : linearGp.std (fun _ => 1) = Real.sqrt (1 / 2) := by rw [linear_std]; norm_num
  have hpos : 0 < Real.sqrt (1 / 2 : ℝ) := Real.sqrt_pos.2 (by norm_num)
  constructor
  · refine ⟨_, _, rfl, rfl, ?_⟩
    have hbig : ¬ |linearGp.std fun _ => 1| ≤ 1e-8 := by
      rw [hs, abs_of_pos hpos, not_le]
      exact Real.lt_sqrt_of_sq_lt (by norm_num)
    unfold Gp.gradStd
    rw [if_neg hbig, hs]
    simp only [linear_Kinv, Gp.kTrans]
    simp only [linearGp, Kernel.value]
    simp
  · refine ⟨1 / (2 * Real.sqrt (1 / 2)), by positivity, ?_⟩
    have hf : (fun t : ℝ => linearGp.std fun _ => t) = fun t => Real.sqrt (t ^ 2 / 2) := by
      funext t
      exact linear_std t
    rw [hf]
    have h1 : HasDerivAt (fun t : ℝ => t ^ 2 / 2) 1 1 := by
      have := ((hasDerivAt_id (1 : ℝ)).fun_pow 2).div_const 2
      refine this.congr_deriv ?_
      norm_num
    refine (h1.sqrt (by norm_num)).congr_deriv ?_
    norm_num

/-- **C57 refuted.** Asking for the gradient of the standard deviation but not for that of the mean returns neither,
without an error. -/
theorem C57_refuted_std_gradient_alone (g : Gp n d) (x : Fin d → ℝ) :
    ∃ p, g.predict { std := true, stdGrad := true } [x] = .ok p ∧ p.stdGrad = none := ⟨_, rfl, rfl⟩

/-! ### Noise -/

theorem zeroWhite_none {k : Kernel d} (h : ¬ WhiteTerm k) : k.isWhite = none ∧ k.zeroWhite = none := by
  induction k with
  | white v => exact absurd (.white v) h
  | sum a b iha ihb =>
    obtain ⟨h1, h2⟩ := iha fun hw => h (.left hw)
    obtain ⟨h3, h4⟩ := ihb fun hw => h (.right hw)
    exact ⟨rfl, by simp only [Kernel.zeroWhite, h1, h2, h3, h4]⟩
  | _ => exact ⟨rfl, rfl⟩

theorem sameForm_white {k k' : Kernel d} (h : SameForm k k') (hw : WhiteTerm k') : WhiteTerm k := by
  induction h with
  | white v v' => exact .white v
  | sum _ _ iha ihb =>
    cases hw with
    | left hw => exact .left (iha hw)
    | right hw => exact .right (ihb hw)
  | _ => cases hw

theorem sameForm_sum_white {k k' : Kernel d} {v : ℝ} (h : SameForm (.sum k (.white v)) k') :
    ∃ k1 v', k' = .sum k1 (.white v') ∧ SameForm k k1 := by
  cases h with
  | sum h1 h2 =>
    cases h2 with
    | white _ v' => exact ⟨_, v', rfl, h1⟩

/-- **C57 (restricted).** After the first `fit` with a noise setting, predictions are made with the fitted kernel
without its noise: the kernel used for prediction has the covariances and the prior variance of the fitted user kernel
alone, and `noise_` is the fitted noise level.

Missing: kernels that already have a white term, in particular those left behind by an earlier `fit` of the same
object; see the refutation. -/
theorem C57_noise_free_partial (skFit : Kernel d → Kernel d) (hsk : ∀ k, SameForm k (skFit k)) (k : Kernel d)
    (hk : ¬ WhiteTerm k) (noise : Noise) (hn : noise = .gaussian ∨ ∃ v, v ≠ 0 ∧ noise = .level v) :
    ∃ attr nz kern k' v, gpFit skFit (some k) noise = .ok (attr, nz, kern) ∧ SameForm k k' ∧
      skFit attr = .sum k' (.white v) ∧ nz = some v ∧
      (∀ x, kern.diag x = k'.diag x) ∧ ∀ x y, kern.value x y = k'.value x y := by
  have hmain : ∀ v0 : ℝ, ∃ k' v, SameForm k k' ∧ skFit (.sum k (.white v0)) = .sum k' (.white v) ∧
      removeNoise.strip (skFit (.sum k (.white v0))) = (some v, .sum k' (.white 0)) := by
    intro v0
    obtain ⟨k', v, h1, h2⟩ := sameForm_sum_white (hsk (.sum k (.white v0)))
    refine ⟨k', v, h2, h1, ?_⟩
    obtain ⟨h3, h4⟩ := zeroWhite_none (fun hw => hk (sameForm_white h2 hw))
    rw [h1]
    have e1 : (Kernel.sum k' (.white v)).isWhite = none := rfl
    have e2 : (Kernel.white v : Kernel d).isWhite = some v := rfl
    simp only [removeNoise.strip, Kernel.zeroWhite, h3, h4, e1, e2]
  rcases hn with rfl | ⟨v0, hv0, rfl⟩
  · obtain ⟨k', v, h1, h2, h3⟩ := hmain 1
    refine ⟨_, some v, .sum k' (.white 0), k', v, ?_, h1, h2, rfl, fun x => ?_, fun x y => ?_⟩
    · simp only [gpFit, fitKernel, bind, Except.bind, Option.getD_some, removeNoise, h3]
    · simp [Kernel.diag]
    · simp [Kernel.value]
  · obtain ⟨k', v, h1, h2, h3⟩ := hmain v0
    refine ⟨.sum k (.white v0), some v, .sum k' (.white 0), k', v, ?_, h1, h2, rfl, fun x => ?_, fun x y => ?_⟩
    · simp only [gpFit, fitKernel, bind, Except.bind, Option.getD_some, removeNoise, if_neg hv0, h3]
    · simp [Kernel.diag]
    · simp [Kernel.value]

theorem sameForm_refl (k : Kernel d) : SameForm k k := by
  induction k with
  | rbf l => exact .rbf _ _
  | matern l nu => exact .matern _ _ _
  | rq a l => exact .rq _ _ _ _
  | expSine l p => exact .expSine _ _ _ _
  | const c => exact .const _ _
  | white v => exact .white _ _
  | dot s => exact .dot _ _
  | hamming l => exact .hamming _ _
  | sum a b iha ihb => exact .sum iha ihb
  | prod a b iha ihb => exact .prod iha ihb
  | expo a p iha => exact .expo p iha

/-- Meets the hypotheses of `C57_noise_free_partial`. -/
example : (∀ k : Kernel 1, SameForm k (id k)) ∧ ¬ WhiteTerm (.rbf fun _ => 1 : Kernel 1) :=
  ⟨sameForm_refl, fun h => by cases h⟩

/-- **C57 refuted.** `fit` changes the attribute `kernel`, so a second `fit` of the same object adds a second white
kernel and removes only one of them: the prior variance used for prediction then contains noise. -/
theorem C57_refuted_second_fit : ∃ attr nz kern attr2 nz2 kern2,
    gpFit id (some (.rbf fun _ => 1 : Kernel 1)) .gaussian = .ok (attr, nz, kern) ∧
    gpFit id (some attr) .gaussian = .ok (attr2, nz2, kern2) ∧
    (∀ x, kern.diag x = 1) ∧ ∀ x, kern2.diag x = 2 := by
  refine ⟨_, _, _, _, _, _, rfl, rfl, fun x => ?_, fun x => ?_⟩
  · simp [Kernel.diag]
  · simp [Kernel.diag]; norm_num

end Skopt

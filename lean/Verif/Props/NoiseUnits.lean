import Verif.Props.GpNoise
import Verif.Props.KernelCovariance
import Verif.Props.ObjectiveUnits

/-!
# C107: the noise level passed to the Gaussian process
-/

namespace Skopt

open Matrix

variable {n d : Nat}

/-- Regression of the values `y`, in their own unit: they are the values of a Gaussian process with mean `m` and
covariance `c * k`, plus independent noise of variance `r`.  The mean at `x` given the values. -/
noncomputable def regressionMean (k : Kernel d) (X : Fin n → Fin d → ℝ) (y : Fin n → ℝ) (m c r : ℝ) (x : Fin d → ℝ) : ℝ :=
  m + (fun i => c * k.value x (X i)) ⬝ᵥ
    ((Matrix.of (fun i j => c * k.gram X i j) + diagonal fun _ => r)⁻¹ *ᵥ fun i => y i - m)

/-- The variance at `x` given the values, in the setting of `regressionMean`. -/
noncomputable def regressionVar (k : Kernel d) (X : Fin n → Fin d → ℝ) (c r : ℝ) (x : Fin d → ℝ) : ℝ :=
  c * k.diag x - (fun i => c * k.value x (X i)) ⬝ᵥ
    ((Matrix.of (fun i j => c * k.gram X i j) + diagonal fun _ => r)⁻¹ *ᵥ fun i => c * k.value x (X i))

/-- What scikit-learn's `fit` does with a kernel that ends in a white kernel of fixed level: it chooses
hyperparameters of the rest, `k'`, and keeps the level. -/
def KeepsLevel (skFit : Kernel d → Kernel d) (kernel : Option (Kernel d)) (v : ℝ) (k' : Kernel d) : Prop :=
  skFit (.sum (kernel.getD (.prod (.const 1) (.rbf fun _ => 1))) (.white v)) = .sum k' (.white v) ∧
    noiseLevels k' = []

/-- The state after `fit` with the noise level `v`: `kernel_` as `gpFit` leaves it, `L_` and `alpha_` for the covariance
of the fitted kernel plus the small `alpha`, the targets shifted by `yMean` and divided by `yStd`. -/
def FitsValues (g : Gp n d) (skFit : Kernel d → Kernel d) (kernel : Option (Kernel d)) (v alpha : ℝ) (y : Fin n → ℝ) :
    Prop :=
  ∃ attr noise_, gpFit skFit kernel (.level v) = .ok (attr, noise_, g.kernel) ∧
    Fitted g (Matrix.of ((skFit attr).gram g.X) + diagonal fun _ => alpha) fun i => (y i - g.yMean) / g.yStd

theorem scaled_inv (s : ℝ) (hs : s ≠ 0) (K : Matrix (Fin n) (Fin n) ℝ) : (s • K)⁻¹ = s⁻¹ • K⁻¹ := by
  by_cases h : IsUnit K.det
  · exact Matrix.inv_smul' K (Units.mk0 s hs) h
  · have h' : ¬ IsUnit (s • K).det := by
      rw [Matrix.det_smul]
      intro h2
      exact h (isUnit_of_mul_isUnit_right h2)
    rw [nonsing_inv_apply_not_isUnit _ h, nonsing_inv_apply_not_isUnit _ h', smul_zero]

theorem gram_sum_white (k : Kernel d) (v alpha : ℝ) (X : Fin n → Fin d → ℝ) :
    Matrix.of ((Kernel.sum k (.white v)).gram X) + diagonal (fun _ => alpha)
      = Matrix.of (k.gram X) + diagonal fun _ => v + alpha := by
  ext i j
  by_cases h : i = j
  · subst h
    simp [Kernel.gram, Kernel.diag, add_assoc]
  · simp [Kernel.gram, Kernel.value, h]

theorem scaled_cov (k : Kernel d) (X : Fin n → Fin d → ℝ) (s r : ℝ) :
    (Matrix.of (fun i j => s * k.gram X i j) + diagonal fun _ => s * r)
      = s • (Matrix.of (k.gram X) + diagonal fun _ => r) := by
  ext i j
  by_cases h : i = j
  · subst h
    simp [mul_add]
  · simp [h]

/-- **C107.** The noise that the predictions assume.  A regressor fitted with a noise level `v` reports `noise_ = v`,
and predicts as regression of the given values does for noise of the variance `(v + alpha) * yStd ** 2`, where `yStd` is
the number the targets were divided by (and the covariance of the process is the fitted kernel times `yStd ** 2`).  The
level therefore is the variance of the noise, as documented, if the targets are not normalised.

Partial: the documentation of `gp_minimize` says that the level is the variance of the noise; there the targets are
normalised (`C107_refuted_known_noise`). -/
theorem C107_assumed_noise_partial (g : Gp n d) (skFit : Kernel d → Kernel d) (kernel : Option (Kernel d))
    (v alpha : ℝ) (hv : v ≠ 0) (y : Fin n → ℝ) (k' : Kernel d) (hk : KeepsLevel skFit kernel v k')
    (hf : FitsValues g skFit kernel v alpha y) (hs : g.yStd ≠ 0) (xs : List (Fin d → ℝ)) :
    (∃ attr kern, gpFit skFit kernel (.level v) = .ok (attr, some v, kern)) ∧
    ∃ p, g.predict { std := true } xs = .ok p ∧
      p.mean = xs.map (regressionMean k' g.X y g.yMean (g.yStd ^ 2) (g.yStd ^ 2 * (v + alpha))) ∧
      p.std = some (xs.map fun x => √(max 0 (regressionVar k' g.X (g.yStd ^ 2) (g.yStd ^ 2 * (v + alpha)) x))) := by
  obtain ⟨attr, noise_, hfit, hF⟩ := hf
  obtain ⟨hk1, hk2⟩ := hk
  have hattr : attr = .sum (kernel.getD (.prod (.const 1) (.rbf fun _ => 1))) (.white v) := by
    simp only [gpFit, fitKernel, bind, Except.bind, if_neg hv] at hfit
    injection hfit with h
    exact (congrArg Prod.fst h).symm
  have hn : noiseLevels (skFit attr) = v :: [] := by
    rw [hattr, hk1]
    simp [noiseLevels, hk2]
  have hattr' : gpFit skFit kernel (.level v) = .ok (attr, some v, g.kernel) ∧
      (∀ x z, g.kernel.value x z = (skFit attr).value x z) ∧ ∀ x, g.kernel.diag x = (skFit attr).diag x - v := by
    have hz := (zeroWhite_spec (skFit attr) (by rw [hattr, hk1]; rfl)).2 v [] hn
    obtain ⟨k2, e1, _, e3, e4⟩ := hz
    have e0 : (skFit attr).isWhite = none := by rw [hattr, hk1]; rfl
    have e : gpFit skFit kernel (.level v) = .ok (attr, some v, k2) := by
      rw [hattr] at e0 e1 ⊢
      simp only [gpFit, fitKernel, bind, Except.bind, removeNoise, removeNoise.strip, if_neg hv, e0, e1]
    rw [e] at hfit
    injection hfit with h
    have hk2 : k2 = g.kernel := congrArg (fun t => t.2.2) h
    subst hk2
    exact ⟨e, e3, e4⟩
  obtain ⟨hfit', hval, hdiag⟩ := hattr'
  refine ⟨⟨attr, g.kernel, hfit'⟩, ?_⟩
  have hval' : ∀ x z, g.kernel.value x z = k'.value x z := by
    intro x z
    rw [hval, hattr, hk1]
    simp [Kernel.value]
  have hdiag' : ∀ x, g.kernel.diag x = k'.diag x := by
    intro x
    rw [hdiag, hattr, hk1]
    simp [Kernel.diag]
  rw [hattr, hk1, gram_sum_white] at hF
  obtain ⟨⟨p, hp, hm, hsd⟩, _⟩ := C57_posterior g _ _ hF xs
  have hs2 : g.yStd ^ 2 ≠ 0 := pow_ne_zero 2 hs
  refine ⟨p, hp, ?_, ?_⟩
  · rw [hm]
    refine List.map_congr_left fun x _ => ?_
    unfold posteriorMean regressionMean
    rw [scaled_cov, scaled_inv _ hs2]
    have e1 : (fun i => (y i - g.yMean) / g.yStd) = g.yStd⁻¹ • fun i => y i - g.yMean := by
      ext i
      simp [div_eq_inv_mul]
    have e2 : (fun i => g.yStd ^ 2 * k'.value x (g.X i)) = g.yStd ^ 2 • fun i => g.kernel.value x (g.X i) := by
      ext i
      simp [hval']
    rw [e1, e2, mulVec_smul, smul_mulVec, dotProduct_smul, dotProduct_smul, smul_dotProduct]
    simp only [smul_eq_mul]
    field_simp
  · rw [hsd]
    refine congrArg some (List.map_congr_left fun x _ => ?_)
    congr 2
    unfold posteriorVar regressionVar
    rw [scaled_cov, scaled_inv _ hs2]
    have e2 : (fun i => g.yStd ^ 2 * k'.value x (g.X i)) = g.yStd ^ 2 • fun i => g.kernel.value x (g.X i) := by
      ext i
      simp [hval']
    rw [e2, mulVec_smul, smul_mulVec, dotProduct_smul, dotProduct_smul, smul_dotProduct, hdiag']
    simp only [smul_eq_mul]
    field_simp

/-! ## The surrogate of `gp_minimize` on one categorical parameter with two categories -/

/-- The kernel of `cook_estimator` for one categorical parameter, utils.py:374-377. -/
def catKernel : Kernel 1 := .prod (.const 1) (.hamming fun _ => 1)

/-- The two categories, as the label encoder numbers them. -/
def twoCats : Fin 2 → Fin 1 → ℝ := ![fun _ => 0, fun _ => 1]

theorem catKernel_keeps (v : ℝ) : KeepsLevel id (some catKernel) v catKernel := ⟨rfl, rfl⟩

theorem catKernel_value (i j : Fin 2) : catKernel.value (twoCats i) (twoCats j) = if i = j then 1 else Real.exp (-1) := by
  fin_cases i <;> fin_cases j <;> simp [catKernel, Kernel.value, twoCats]

theorem catKernel_gram (i j : Fin 2) : catKernel.gram twoCats i j = if i = j then 1 else Real.exp (-1) := by
  by_cases h : i = j
  · simp [Kernel.gram, h, catKernel, Kernel.diag]
  · rw [Kernel.gram, if_neg h, catKernel_value]

theorem catKernel_diag (x : Fin 1 → ℝ) : catKernel.diag x = 1 := by simp [catKernel, Kernel.diag]

theorem catKernel_valid : catKernel.Valid := ⟨zero_le_one, fun _ => zero_le_one⟩

/-- The explicit inverse of a two by two covariance. -/
theorem two_inv (a b : ℝ) (h : a ^ 2 - b ^ 2 ≠ 0) (p : Fin 2 → ℝ) :
    (Matrix.of (fun i j : Fin 2 => if i = j then a else b))⁻¹ *ᵥ p =
      ![(a * p 0 - b * p 1) / (a ^ 2 - b ^ 2), (a * p 1 - b * p 0) / (a ^ 2 - b ^ 2)] := by
  have hdet : IsUnit (Matrix.of (fun i j : Fin 2 => if i = j then a else b)).det := by
    rw [Matrix.det_fin_two, isUnit_iff_ne_zero]
    simp
    intro e
    exact h (by nlinarith)
  have e : p = Matrix.of (fun i j : Fin 2 => if i = j then a else b) *ᵥ
      ![(a * p 0 - b * p 1) / (a ^ 2 - b ^ 2), (a * p 1 - b * p 0) / (a ^ 2 - b ^ 2)] := by
    ext i
    fin_cases i
    · simp [Matrix.mulVec, dotProduct, Fin.sum_univ_two]
      field_simp
      ring
    · simp [Matrix.mulVec, dotProduct, Fin.sum_univ_two]
      field_simp
      ring
  conv_lhs => rw [e]
  rw [mulVec_mulVec, nonsing_inv_mul _ hdet, one_mulVec]

theorem cat_cov (c r : ℝ) : (Matrix.of (fun i j => c * catKernel.gram twoCats i j) + diagonal fun _ => r)
    = Matrix.of fun i j : Fin 2 => if i = j then c + r else c * Real.exp (-1) := by
  ext i j
  by_cases h : i = j
  · simp [catKernel_gram, h]
  · simp [catKernel_gram, h]

theorem cat_regression (c r : ℝ) (hc : 0 < c) (hr : 0 < r) :
    regressionMean catKernel twoCats ![2, -2] 0 c r (twoCats 0)
      = 2 * (c * (1 - Real.exp (-1))) / (c * (1 - Real.exp (-1)) + r) ∧
    regressionVar catKernel twoCats c r (twoCats 0)
      = c * r * (c + r - c * Real.exp (-1) ^ 2) / ((c + r) ^ 2 - (c * Real.exp (-1)) ^ 2) := by
  have he : Real.exp (-1) < 1 := by rw [Real.exp_lt_one_iff]; norm_num
  have he0 : 0 < Real.exp (-1) := Real.exp_pos _
  unfold regressionMean regressionVar
  simp only [catKernel_value, catKernel_diag, cat_cov]
  generalize Real.exp (-1) = e at *
  have h1 : c * (1 - e) + r ≠ 0 := by
    have : 0 < c * (1 - e) := mul_pos hc (by linarith)
    linarith
  have h2 : c + r + c * e ≠ 0 := by positivity
  have hd : (c + r) ^ 2 - (c * e) ^ 2 = (c * (1 - e) + r) * (c + r + c * e) := by ring
  have h : (c + r) ^ 2 - (c * e) ^ 2 ≠ 0 := by rw [hd]; exact mul_ne_zero h1 h2
  rw [two_inv _ _ h, two_inv _ _ h]
  constructor
  · simp [dotProduct, Fin.sum_univ_two]
    rw [hd]
    field_simp
    ring
  · simp [dotProduct, Fin.sum_univ_two]
    rw [hd]
    field_simp
    ring

theorem targetMean_pm : targetMean (List.ofFn ![2, -2]) = 0 := by norm_num [targetMean, List.ofFn_succ]

theorem targetStd_pm : targetStd (List.ofFn ![2, -2]) = 2 := by
  have h : targetDev (List.ofFn ![2, -2]) = 2 := by
    have e : ((List.ofFn ![(2 : ℝ), -2]).map fun y => (y - 0) ^ 2).sum / ((List.ofFn ![(2 : ℝ), -2]).length : ℝ) = 2 ^ 2 := by
      norm_num [List.ofFn_succ]
    rw [targetDev, targetMean_pm, e]
    exact Real.sqrt_sq (by norm_num)
  rw [targetStd, if_neg (by rw [h]; norm_num), h]

/-- The regressor after fitting to the values 2 and -2, for a factor `L` of the covariance. -/
noncomputable def catGp (alpha : ℝ) (L : Matrix (Fin 2) (Fin 2) ℝ) : Gp 2 1 where
  kernel := .sum catKernel (.white 0)
  X := twoCats
  L := L
  alpha := (Matrix.of (((Kernel.sum catKernel (.white 1)).gram twoCats)) + diagonal fun _ => alpha)⁻¹ *ᵥ
    fun i => ((![2, -2] : Fin 2 → ℝ) i - targetMean (List.ofFn ![2, -2])) / targetStd (List.ofFn ![2, -2])
  yMean := targetMean (List.ofFn ![2, -2])
  yStd := targetStd (List.ofFn ![2, -2])

theorem catGp_fits (alpha : ℝ) (ha : 0 ≤ alpha) :
    ∃ L, FitsValues (catGp alpha L) id (some catKernel) 1 alpha ![2, -2] := by
  obtain ⟨L, _, _, hL⟩ := C100_factor_exists_partial catKernel catKernel_valid (.inl le_rfl) twoCats
    (fun _ => 1 + alpha) (fun _ => by linarith)
  refine ⟨L, .sum catKernel (.white 1), some 1, ?_, ?_, rfl⟩
  · norm_num [gpFit, fitKernel, removeNoise, removeNoise.strip, Kernel.zeroWhite, Kernel.isWhite, bind, Except.bind,
      catGp, catKernel]
  · show L * Lᵀ = _
    rw [hL, ← gram_sum_white]
    rfl

/-- Non-vacuity of `C107_assumed_noise_partial`: the surrogate of `gp_minimize` after two calls. -/
example : ∃ L, KeepsLevel id (some catKernel) 1 catKernel ∧
    FitsValues (catGp 0 L) id (some catKernel) 1 0 ![2, -2] ∧ (catGp 0 L).yStd = 2 := by
  obtain ⟨L, h⟩ := catGp_fits 0 le_rfl
  exact ⟨L, catKernel_keeps 1, h, targetStd_pm⟩

/-- **C107 refuted.** The documentation of `gp_minimize` says about a number passed as `noise`: "If the variance is known
before-hand, this can be set directly to the variance of the noise."  For the surrogate that `gp_minimize` makes for one
categorical parameter, `noise=1` and the values 2 and -2 the predictions are not those of regression with noise of
variance one, whatever the scale `c` of the covariance of the process: noise of variance four is assumed. -/
theorem C107_refuted_known_noise : ∃ (kernel : Kernel 1) (X : Fin 2 → Fin 1 → ℝ) (y : Fin 2 → ℝ) (v : ℝ), 0 < v ∧
    ∀ alpha, 0 ≤ alpha →
      (∃ g : Gp 2 1, g.X = X ∧ g.yMean = targetMean (List.ofFn y) ∧ g.yStd = targetStd (List.ofFn y) ∧
        FitsValues g id (some kernel) v alpha y) ∧
      ∀ g : Gp 2 1, g.X = X → g.yMean = targetMean (List.ofFn y) → g.yStd = targetStd (List.ofFn y) →
        FitsValues g id (some kernel) v alpha y → ∀ p, g.predict { std := true } [X 0] = .ok p →
        ∀ c, 0 < c → ¬ (p.mean = [regressionMean kernel X y g.yMean c (v + alpha) (X 0)] ∧
          p.std = some [√(max 0 (regressionVar kernel X c (v + alpha) (X 0)))]) := by
  refine ⟨catKernel, twoCats, ![2, -2], 1, one_pos, fun alpha ha => ⟨?_, ?_⟩⟩
  · obtain ⟨L, h⟩ := catGp_fits alpha ha
    exact ⟨catGp alpha L, rfl, rfl, rfl, h⟩
  · rintro g hX hm hs hf p hp c hc ⟨h1, h2⟩
    rw [targetMean_pm] at hm
    rw [targetStd_pm] at hs
    obtain ⟨_, p', hp', e1, e2⟩ := C107_assumed_noise_partial g id (some catKernel) 1 alpha one_ne_zero _ _
      (catKernel_keeps 1) hf (by rw [hs]; norm_num) [twoCats 0]
    rw [hp] at hp'
    obtain rfl : p = p' := by injection hp'
    rw [e1, hX, hm, hs] at h1
    rw [e2, hX, hs] at h2
    have hr : 0 < 1 + alpha := by linarith
    have he : Real.exp (-1) < 1 := by rw [Real.exp_lt_one_iff]; norm_num
    have he0 : 0 < Real.exp (-1) := Real.exp_pos _
    obtain ⟨a1, a2⟩ := cat_regression (2 ^ 2) (2 ^ 2 * (1 + alpha)) (by norm_num) (by linarith)
    obtain ⟨b1, b2⟩ := cat_regression c (1 + alpha) hc hr
    simp only [List.map_cons, List.map_nil, List.cons.injEq, and_true, Option.some.injEq] at h1 h2
    rw [a1, b1] at h1
    rw [a2, b2] at h2
    generalize Real.exp (-1) = e at *
    generalize 1 + alpha = r at *
    have hc1 : c = 1 := by
      have h0 : 0 < 1 - e := by linarith
      have p1 : 0 < 2 ^ 2 * (1 - e) + 2 ^ 2 * r := by positivity
      have p2 : 0 < c * (1 - e) + r := by positivity
      rw [div_eq_div_iff p1.ne' p2.ne'] at h1
      have : (1 - e) * r * (c - 1) = 0 := by nlinarith
      have := (mul_eq_zero.1 this).resolve_left (mul_pos h0 hr).ne'
      linarith
    subst hc1
    have he2 : e ^ 2 < 1 := by nlinarith
    have q1 : 0 < 1 + r - e ^ 2 := by linarith
    have q2 : 0 < (1 + r) ^ 2 - e ^ 2 := by nlinarith
    have q : 0 < r * (1 + r - e ^ 2) / ((1 + r) ^ 2 - e ^ 2) := by positivity
    have f1 : (2 : ℝ) ^ 2 * (2 ^ 2 * r) * (2 ^ 2 + 2 ^ 2 * r - 2 ^ 2 * e ^ 2) / ((2 ^ 2 + 2 ^ 2 * r) ^ 2 - (2 ^ 2 * e) ^ 2)
        = 4 * (r * (1 + r - e ^ 2) / ((1 + r) ^ 2 - e ^ 2)) := by
      have : ((2 : ℝ) ^ 2 + 2 ^ 2 * r) ^ 2 - (2 ^ 2 * e) ^ 2 = 16 * ((1 + r) ^ 2 - e ^ 2) := by ring
      rw [this]
      field_simp
      ring
    rw [f1] at h2
    simp only [one_mul] at h2
    rw [max_eq_right (by positivity), max_eq_right q.le, Real.sqrt_inj (by positivity) q.le] at h2
    linarith

end Skopt

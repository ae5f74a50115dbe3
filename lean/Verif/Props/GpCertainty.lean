import Verif.Props.GaussianProcess

/-!
# C99: how certain the Gaussian process surrogate is

The variance returned by `predict` is characterised without matrix inverses: it is the smallest mean squared error that
any linear combination of the observations achieves as a predictor of the value at the point.  Everything a user expects
of the uncertainty follows: it never exceeds that of the prior, it is at most the noise at an observed point, and further
observations never increase it.
-/

namespace Skopt

open Matrix

variable {n m d : Nat}

/-- The mean squared error of the linear predictor with the weights `w`, when the observations have covariance `K`, the
value to be predicted has variance `v` and covariances `k` with the observations. -/
noncomputable def predictorError (K : Matrix (Fin n) (Fin n) ℝ) (k : Fin n → ℝ) (v : ℝ) (w : Fin n → ℝ) : ℝ :=
  v - 2 * (w ⬝ᵥ k) + w ⬝ᵥ (K *ᵥ w)

/-- The factor that scikit-learn's Cholesky decomposition returns is invertible. -/
def Factored (g : Gp n d) (K : Matrix (Fin n) (Fin n) ℝ) : Prop := g.L * g.Lᵀ = K ∧ IsUnit g.L.det

theorem Factored.unit {g : Gp n d} {K : Matrix (Fin n) (Fin n) ℝ} (h : Factored g K) : IsUnit K.det := by
  rw [← h.1, det_mul, det_transpose]
  exact h.2.mul h.2

theorem Factored.symm {g : Gp n d} {K : Matrix (Fin n) (Fin n) ℝ} (h : Factored g K) : Kᵀ = K := by
  rw [← h.1, transpose_mul, transpose_transpose]

theorem Factored.nonneg {g : Gp n d} {K : Matrix (Fin n) (Fin n) ℝ} (h : Factored g K) (u : Fin n → ℝ) :
    0 ≤ u ⬝ᵥ (K *ᵥ u) := by
  have e : u ⬝ᵥ (K *ᵥ u) = (g.Lᵀ *ᵥ u) ⬝ᵥ (g.Lᵀ *ᵥ u) := by
    rw [← h.1, ← mulVec_mulVec, dotProduct_mulVec, ← mulVec_transpose]
  rw [e]
  exact Finset.sum_nonneg fun i _ => mul_self_nonneg _

/-- The error of any predictor is the variance plus a square. -/
theorem predictorError_eq {g : Gp n d} {K : Matrix (Fin n) (Fin n) ℝ} (h : Factored g K) (x : Fin d → ℝ)
    (w : Fin n → ℝ) : predictorError K (g.kTrans x) (g.kernel.diag x) w =
      g.rawVar x + (w - K⁻¹ *ᵥ g.kTrans x) ⬝ᵥ (K *ᵥ (w - K⁻¹ *ᵥ g.kTrans x)) := by
  have hK : K *ᵥ (K⁻¹ *ᵥ g.kTrans x) = g.kTrans x := by
    rw [mulVec_mulVec, mul_nonsing_inv _ h.unit, one_mulVec]
  have hraw : g.rawVar x = g.kernel.diag x - g.kTrans x ⬝ᵥ (K⁻¹ *ᵥ g.kTrans x) := by
    rw [Gp.rawVar, quad_form, Kinv_eq, h.1]
  have hsw : (K⁻¹ *ᵥ g.kTrans x) ⬝ᵥ (K *ᵥ w) = g.kTrans x ⬝ᵥ w := by
    rw [dotProduct_mulVec, ← mulVec_transpose, h.symm, hK]
  rw [mulVec_sub, hK, dotProduct_sub, sub_dotProduct, sub_dotProduct, hsw, hraw, predictorError,
    dotProduct_comm (K⁻¹ *ᵥ g.kTrans x) (g.kTrans x), dotProduct_comm (g.kTrans x) w]
  ring

/-- **C99.** The variance at a point, before negative values are set to zero and before the normalisation of the targets
is undone, is the smallest mean squared error of all linear predictors from the observations. -/
theorem C99_best_predictor (g : Gp n d) (K : Matrix (Fin n) (Fin n) ℝ) (h : Factored g K) (x : Fin d → ℝ) :
    IsLeast (Set.range (predictorError K (g.kTrans x) (g.kernel.diag x))) (g.rawVar x) := by
  constructor
  · refine ⟨K⁻¹ *ᵥ g.kTrans x, ?_⟩
    rw [predictorError_eq h, sub_self, zero_dotProduct, add_zero]
  · rintro _ ⟨w, rfl⟩
    rw [predictorError_eq h]
    linarith [h.nonneg (w - K⁻¹ *ᵥ g.kTrans x)]

theorem std_le_of_rawVar {g : Gp n d} {x : Fin d → ℝ} {b : ℝ} (hb : 0 ≤ b) (h : g.rawVar x ≤ b) :
    g.std x ≤ Real.sqrt (b * g.yStd ^ 2) := by
  refine Real.sqrt_le_sqrt ?_
  refine mul_le_mul_of_nonneg_right ?_ (sq_nonneg _)
  split
  · exact hb
  · exact h

/-- **C99.** The standard deviation that `predict` returns after fitting never exceeds the one it returns before fitting
(in units of the spread of the targets). -/
theorem C99_at_most_prior (g : Gp n d) (K : Matrix (Fin n) (Fin n) ℝ) (h : Factored g K) (x : Fin d → ℝ)
    (hd : 0 ≤ g.kernel.diag x) (hs : 0 ≤ g.yStd) :
    ∃ s s₀ p p₀, g.predict { std := true } [x] = .ok p ∧ p.std = some [s] ∧
      predictPrior (some g.kernel) { std := true } [x] = .ok p₀ ∧ p₀.std = some [s₀] ∧ s ≤ g.yStd * s₀ := by
  refine ⟨g.std x, Real.sqrt (g.kernel.diag x), _, _, rfl, rfl, rfl, rfl, ?_⟩
  have h1 : g.rawVar x ≤ g.kernel.diag x := by
    have := (C99_best_predictor g K h x).2 ⟨0, rfl⟩
    simpa [predictorError] using this
  refine (std_le_of_rawVar hd h1).trans ?_
  rw [Real.sqrt_mul hd, Real.sqrt_sq hs, mul_comm]

/-- The covariance of the observations is that of the kernel plus independent noise of the variances `nz`. -/
def NoisyCov (g : Gp n d) (K : Matrix (Fin n) (Fin n) ℝ) (nz : Fin n → ℝ) : Prop :=
  ∀ i j, K i j = g.kernel.value (g.X i) (g.X j) + if i = j then nz i else 0

/-- **C99.** At an observed point the variance is at most the noise of the observation, and the mean differs from the
observed value by the noise times the dual coefficient: without noise the process goes through the observations and is
certain there. -/
theorem C99_at_observation (g : Gp n d) (K : Matrix (Fin n) (Fin n) ℝ) (nz y : Fin n → ℝ) (h : Factored g K)
    (hf : g.alpha = K⁻¹ *ᵥ y) (hK : NoisyCov g K nz) (i : Fin n) (hnz : 0 ≤ nz i)
    (hdiag : g.kernel.diag (g.X i) = g.kernel.value (g.X i) (g.X i)) (hs : 0 ≤ g.yStd) :
    ∃ μ s p, g.predict { std := true } [g.X i] = .ok p ∧ p.mean = [μ] ∧ p.std = some [s] ∧
      s ≤ g.yStd * Real.sqrt (nz i) ∧ μ = (g.yMean + g.yStd * y i) - g.yStd * (nz i * g.alpha i) := by
  refine ⟨g.mean (g.X i), g.std (g.X i), _, rfl, rfl, rfl, ?_⟩
  constructor
  · have h1 : g.rawVar (g.X i) ≤ nz i := by
      have := (C99_best_predictor g K h (g.X i)).2 ⟨Pi.single i 1, rfl⟩
      refine this.trans (le_of_eq ?_)
      simp only [predictorError, single_dotProduct, one_mul, mulVec_single_one]
      rw [hdiag]
      have : K i i = g.kernel.value (g.X i) (g.X i) + nz i := by rw [hK, if_pos rfl]
      simp only [Gp.kTrans, Matrix.col_apply, this]
      ring
    refine (std_le_of_rawVar hnz h1).trans ?_
    rw [Real.sqrt_mul hnz, Real.sqrt_sq hs, mul_comm]
  · have h1 : ∑ j, K i j * g.alpha j = y i := by
      have : K *ᵥ g.alpha = y := by rw [hf, mulVec_mulVec, mul_nonsing_inv _ h.unit, one_mulVec]
      exact congrFun this i
    have h2 : ∑ j, K i j * g.alpha j = (∑ j, g.kTrans (g.X i) j * g.alpha j) + nz i * g.alpha i := by
      have e : ∀ j, K i j * g.alpha j = g.kTrans (g.X i) j * g.alpha j + (if i = j then nz i * g.alpha j else 0) := by
        intro j
        rw [hK, add_mul, ite_mul, zero_mul]
        rfl
      rw [Finset.sum_congr rfl fun j _ => e j, Finset.sum_add_distrib, Finset.sum_ite_eq, if_pos (Finset.mem_univ i)]
    have h3 : ∑ j, g.kTrans (g.X i) j * g.alpha j = y i - nz i * g.alpha i := by linarith
    rw [Gp.mean, h3]
    ring

/-- The observations of `g` are among those of `g'`, with the same covariances, and the kernels are the same. -/
structure MoreData (g : Gp n d) (K : Matrix (Fin n) (Fin n) ℝ) (g' : Gp m d) (K' : Matrix (Fin m) (Fin m) ℝ) : Prop where
  kernel : g'.kernel = g.kernel
  embed : ∃ e : Fin n → Fin m, Function.Injective e ∧ (∀ i, g'.X (e i) = g.X i) ∧ ∀ i j, K' (e i) (e j) = K i j

/-- **C99.** With the same kernel, further observations never increase the variance, at any point; nor the standard
deviation in units of the spread of the targets. -/
theorem C99_more_data (g : Gp n d) (K : Matrix (Fin n) (Fin n) ℝ) (g' : Gp m d) (K' : Matrix (Fin m) (Fin m) ℝ)
    (h : Factored g K) (h' : Factored g' K') (hm : MoreData g K g' K') (x : Fin d → ℝ) :
    g'.rawVar x ≤ g.rawVar x ∧
    (0 < g.yStd → 0 < g'.yStd → g'.std x / g'.yStd ≤ g.std x / g.yStd) := by
  obtain ⟨hk, e, he, hX, hKe⟩ := hm
  have h1 : g'.rawVar x ≤ g.rawVar x := by
    obtain ⟨w, hw⟩ := (C99_best_predictor g K h x).1
    classical
    -- the same weights, none for the further observations
    let w' : Fin m → ℝ := fun j => ∑ i, if e i = j then w i else 0
    have hsum : ∀ f : Fin m → ℝ, ∑ j, w' j * f j = ∑ i, w i * f (e i) := by
      intro f
      simp only [w', Finset.sum_mul, ite_mul, zero_mul]
      rw [Finset.sum_comm]
      refine Finset.sum_congr rfl fun i _ => ?_
      rw [Finset.sum_ite_eq, if_pos (Finset.mem_univ _)]
    have hle := (C99_best_predictor g' K' h' x).2 ⟨w', rfl⟩
    have heq : predictorError K' (g'.kTrans x) (g'.kernel.diag x) w' =
        predictorError K (g.kTrans x) (g.kernel.diag x) w := by
      have a1 : w' ⬝ᵥ g'.kTrans x = w ⬝ᵥ g.kTrans x := by
        rw [dotProduct, hsum]
        refine Finset.sum_congr rfl fun i _ => ?_
        simp only [Gp.kTrans, hX, hk]
      have a2 : w' ⬝ᵥ (K' *ᵥ w') = w ⬝ᵥ (K *ᵥ w) := by
        rw [dotProduct, hsum]
        refine Finset.sum_congr rfl fun i _ => ?_
        congr 1
        simp only [mulVec, dotProduct]
        have : ∀ j, K' (e i) j * w' j = w' j * K' (e i) j := fun j => mul_comm _ _
        rw [Finset.sum_congr rfl fun j _ => this j, hsum]
        refine Finset.sum_congr rfl fun j _ => ?_
        rw [hKe, mul_comm]
      rw [predictorError, predictorError, a1, a2, hk]
    rw [← hw, ← heq]
    exact hle
  refine ⟨h1, fun hs hs' => ?_⟩
  have hstd : ∀ {n : Nat} (g : Gp n d), 0 < g.yStd → g.std x / g.yStd = Real.sqrt (max 0 (g.rawVar x)) := by
    intro n g hs
    have : (if g.rawVar x < 0 then 0 else g.rawVar x) = max 0 (g.rawVar x) := by
      split
      · rw [max_eq_left (by linarith)]
      · rw [max_eq_right (by linarith)]
    rw [Gp.std, this, Real.sqrt_mul (le_max_left _ _), Real.sqrt_sq hs.le, mul_div_assoc, div_self hs.ne', mul_one]
  rw [hstd g hs, hstd g' hs']
  exact Real.sqrt_le_sqrt (max_le_max le_rfl h1)

/-! ## An example -/

/-- A linear kernel, observed at the first of two unit vectors. -/
noncomputable def oneSeen : Gp 1 2 where
  kernel := .dot 0
  X := fun _ => ![1, 0]
  L := 1
  alpha := fun _ => 3
  yMean := 0
  yStd := 1

/-- The same, observed at both. -/
noncomputable def bothSeen : Gp 2 2 where
  kernel := .dot 0
  X := ![![1, 0], ![0, 1]]
  L := 1
  alpha := ![3, 5]
  yMean := 0
  yStd := 1

theorem bothSeen_factored : Factored bothSeen 1 := ⟨by simp [bothSeen], by simp [bothSeen]⟩

/-- Meets the hypotheses of `C99_best_predictor`, `C99_at_most_prior`, `C99_more_data`. -/
example : Factored oneSeen 1 ∧ Factored bothSeen 1 ∧ MoreData oneSeen 1 bothSeen 1 ∧
    oneSeen.rawVar (fun _ => 1) = 1 ∧ bothSeen.rawVar (fun _ => 1) = 0 := by
  refine ⟨⟨by simp [oneSeen], by simp [oneSeen]⟩, bothSeen_factored, ⟨rfl, fun _ => 0, ?_, ?_, ?_⟩, ?_, ?_⟩
  · exact fun a b _ => Subsingleton.elim a b
  · intro i
    rfl
  · intro i j
    rw [Subsingleton.elim i j]
    simp
  · have hK : oneSeen.Kinv = 1 := by simp [Gp.Kinv, oneSeen]
    simp only [Gp.rawVar, hK, Gp.kTrans]
    simp [oneSeen, Kernel.diag, Kernel.value, Fin.sum_univ_two]
    norm_num
  · have hK : bothSeen.Kinv = 1 := by simp [Gp.Kinv, bothSeen]
    simp only [Gp.rawVar, hK, Gp.kTrans]
    simp [bothSeen, Kernel.diag, Kernel.value, Fin.sum_univ_two]
    norm_num

/-- Meets the hypotheses of `C99_at_observation`. -/
example : bothSeen.alpha = (1 : Matrix (Fin 2) (Fin 2) ℝ)⁻¹ *ᵥ ![3, 5] ∧ NoisyCov bothSeen 1 (fun _ => 0) ∧
    (0 : ℝ) ≤ bothSeen.yStd ∧
    ∀ i, bothSeen.kernel.diag (bothSeen.X i) = bothSeen.kernel.value (bothSeen.X i) (bothSeen.X i) := by
  refine ⟨by simp [bothSeen], ?_, by simp [bothSeen], fun i => rfl⟩
  intro i j
  fin_cases i <;> fin_cases j <;> simp [bothSeen, Kernel.value, Fin.sum_univ_two]

end Skopt

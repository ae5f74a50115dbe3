import Verif.Props.GpOrder

/-!
# C111: the prediction is a weighted sum of the observed values
-/

namespace Skopt

open Matrix

variable {n d : Nat}

/-! ## Specification -/

/-- The unit in which the Gaussian process measures the observed values: their standard deviation, one if that vanishes
or the values are not normalised. -/
noncomputable def spread (norm : Bool) (y : Fin n → ℝ) : ℝ :=
  if norm then
    let s := Real.sqrt ((∑ i, (y i - (∑ j, y j) / n) ^ 2) / n)
    if s = 0 then 1 else s
  else 1

/-! ## Lemmas -/

theorem spread_pos (norm : Bool) (y : Fin n → ℝ) : 0 < spread norm y := by
  unfold spread
  split
  · simp only
    split
    · exact one_pos
    · exact lt_of_le_of_ne (Real.sqrt_nonneg _) (Ne.symm ‹_›)
  · exact one_pos

theorem NormalisedBy.spread_eq {norm : Bool} {y : Fin n → ℝ} {m s : ℝ} (h : NormalisedBy norm y m s) :
    s = spread norm y := by
  cases norm with
  | false => exact h.2
  | true =>
    obtain ⟨h1, h2⟩ := h
    rw [h2, h1]
    rfl

/-- The value subtracted before fitting. -/
theorem NormalisedBy.centre_eq {norm : Bool} {y : Fin n → ℝ} {m s : ℝ} (h : NormalisedBy norm y m s) :
    m = ∑ i, (if norm then (1 : ℝ) / n else 0) * y i := by
  cases norm with
  | false => simpa using h.1
  | true =>
    rw [h.1, ← Finset.mul_sum, if_pos rfl]
    ring

theorem weighted (K : Matrix (Fin n) (Fin n) ℝ) (k y : Fin n → ℝ) (m s : ℝ) (hs : s ≠ 0) :
    s * ∑ i, k i * (K⁻¹ *ᵥ fun i => (y i - m) / s) i = ∑ i, (k ᵥ* K⁻¹) i * (y i - m) := by
  have e : (fun i => (y i - m) / s) = s⁻¹ • fun i => y i - m := by
    funext i
    simp only [Pi.smul_apply, smul_eq_mul]
    field_simp
  have h : ∑ i, k i * (K⁻¹ *ᵥ fun i => y i - m) i = ∑ i, (k ᵥ* K⁻¹) i * (y i - m) := by
    have := Matrix.dotProduct_mulVec k K⁻¹ fun i => y i - m
    simpa [dotProduct] using this
  rw [← h, e, Matrix.mulVec_smul]
  simp only [Pi.smul_apply, smul_eq_mul, Finset.mul_sum]
  refine Finset.sum_congr rfl fun i _ => ?_
  field_simp

theorem regroup (u c y : Fin n → ℝ) (m : ℝ) (hm : m = ∑ i, c i * y i) :
    ∑ i, u i * (y i - m) = ∑ i, (u i - (∑ j, u j) * c i) * y i := by
  simp only [mul_sub, sub_mul, Finset.sum_sub_distrib, ← Finset.sum_mul]
  congr 1
  rw [hm, Finset.mul_sum]
  exact Finset.sum_congr rfl fun i _ => by ring

/-! ## C111 -/

/-- **C111.** Positions, kernel with its hyperparameters and noise determine weights such that, whatever the observed
values, the predicted mean at a point is the weighted sum of the values, and so is its gradient with other weights;
standard deviations and covariances depend on the values only through their unit.  With normalised values the weights
of the mean add up to one, those of the gradient to zero. -/
theorem C111_linear_in_the_values (hn : 0 < n) (k kp : Kernel d) (norm : Bool) (X : Fin n → Fin d → ℝ)
    (alpha : Fin n → ℝ) :
    ∃ (w : (Fin d → ℝ) → Fin n → ℝ) (wg : (Fin d → ℝ) → Fin d → Fin n → ℝ) (s : (Fin d → ℝ) → ℝ)
      (c : List (Fin d → ℝ) → List (List ℝ)),
      (norm = true → ∀ x, ∑ i, w x i = 1 ∧ ∀ j, ∑ i, wg x j i = 0) ∧
      ∀ (y : Fin n → ℝ) (g : Gp n d), g.kernel = kp → FitsData g k norm X y alpha →
        ∀ fl xs p, g.predict fl xs = .ok p →
          p.mean = xs.map (fun x => ∑ i, w x i * y i) ∧
          (∀ l, p.std = some l → l = xs.map fun x => s x * spread norm y) ∧
          (∀ l, p.cov = some l → l = (c xs).map (List.map (· * spread norm y ^ 2))) ∧
          ∀ v, p.meanGrad = some v → ∃ x, xs.head? = some x ∧ v = fun j => ∑ i, wg x j i * y i := by
  classical
  let K := Matrix.of (k.gram X) + diagonal alpha
  let kt : (Fin d → ℝ) → Fin n → ℝ := fun x i => kp.value x (X i)
  let u : (Fin d → ℝ) → Fin n → ℝ := fun x => kt x ᵥ* K⁻¹
  let gr : (Fin d → ℝ) → Fin d → Fin n → ℝ := fun x j i =>
    match kp.gradientX x (List.ofFn X) with
    | .ok rows => (rows.getD i.val fun _ => 0) j
    | .error _ => 0
  let ug : (Fin d → ℝ) → Fin d → Fin n → ℝ := fun x j => gr x j ᵥ* K⁻¹
  let c : Fin n → ℝ := fun _ => if norm then (1 : ℝ) / n else 0
  let rv : (Fin d → ℝ) → ℝ := fun x => kp.diag x - ∑ i, ∑ j, kt x i * kt x j * K⁻¹ i j
  let ce : Nat → Nat → (Fin d → ℝ) → (Fin d → ℝ) → ℝ := fun i j x z =>
    (if i = j then kp.diag x else kp.value x z) - ∑ a, kt x a * (K⁻¹ *ᵥ kt z) a
  have hn' : (n : ℝ) ≠ 0 := by exact_mod_cast hn.ne'
  refine ⟨fun x i => (u x i - (∑ j, u x j) * c i) + c i, fun x j i => ug x j i - (∑ l, ug x j l) * c i,
    fun x => Real.sqrt (if rv x < 0 then 0 else rv x),
    fun xs => xs.zipIdx.map fun p => xs.zipIdx.map fun q => ce p.2 q.2 p.1 q.1, ?_, ?_⟩
  · intro hnorm x
    have hc : ∑ i, c i = 1 := by simp [c, hnorm, hn']
    constructor
    · rw [Finset.sum_add_distrib, Finset.sum_sub_distrib, ← Finset.mul_sum, hc]
      ring
    · intro j
      rw [Finset.sum_sub_distrib, ← Finset.mul_sum, hc]
      ring
  · intro y g hk h fl xs p hp
    have hs : g.yStd = spread norm y := h.scale.spread_eq
    have hm : g.yMean = ∑ i, c i * y i := h.scale.centre_eq
    have hs0 : g.yStd ≠ 0 := by rw [hs]; exact (spread_pos norm y).ne'
    have hkt : ∀ x, g.kTrans x = kt x := by
      intro x
      funext i
      simp only [Gp.kTrans, hk, h.inputs, kt]
    have hal : g.alpha = K⁻¹ *ᵥ fun i => (y i - g.yMean) / g.yStd := h.fitted.2
    have hLL : g.L * g.Lᵀ = K := h.fitted.1
    have hKinv : g.Kinv = K⁻¹ := by rw [Kinv_eq, hLL]
    have hmean : ∀ x, g.mean x = ∑ i, ((u x i - (∑ j, u x j) * c i) + c i) * y i := by
      intro x
      unfold Gp.mean
      rw [hkt, hal, weighted K (kt x) y g.yMean g.yStd hs0, regroup _ c y _ hm, hm, ← Finset.sum_add_distrib]
      exact Finset.sum_congr rfl fun i _ => by ring
    have hvar : ∀ x, g.rawVar x = rv x := by
      intro x
      unfold Gp.rawVar
      rw [hk, hkt, hKinv]
    have hstd : ∀ x, g.std x = Real.sqrt (if rv x < 0 then 0 else rv x) * spread norm y := by
      intro x
      unfold Gp.std
      rw [hvar, hs, Real.sqrt_mul' _ (sq_nonneg _), Real.sqrt_sq (spread_pos norm y).le]
    have hcov : ∀ i j x z, g.covEntry i j x z = ce i j x z * spread norm y ^ 2 := by
      intro i j x z
      unfold Gp.covEntry
      rw [hk, hLL, hkt, hkt, hs]
    have hgrad : ∀ x G, g.gradient x = .ok G → ∀ j, g.gradMean G j = ∑ i, (ug x j i - (∑ l, ug x j l) * c i) * y i := by
      intro x G hG j
      have hGe : (fun i => G i j) = gr x j := by
        unfold Gp.gradient at hG
        rw [hk, h.inputs] at hG
        obtain ⟨rows, h1, h2⟩ := bind_eq_ok.1 hG
        injection h2 with h2
        funext i
        simp only [gr, h1, ← h2]
      unfold Gp.gradMean
      rw [← regroup _ c y _ hm, ← weighted K (gr x j) y g.yMean g.yStd hs0, ← hal, ← hGe, mul_comm]
    have hmm : xs.map g.mean = xs.map fun x => ∑ i, ((u x i - (∑ j, u x j) * c i) + c i) * y i :=
      List.map_congr_left fun x _ => hmean x
    have hss : xs.map g.std = xs.map fun x => Real.sqrt (if rv x < 0 then 0 else rv x) * spread norm y :=
      List.map_congr_left fun x _ => hstd x
    have hcc : g.cov xs = (xs.zipIdx.map fun p => xs.zipIdx.map fun q => ce p.2 q.2 p.1 q.1).map
        (List.map (· * spread norm y ^ 2)) := by
      unfold Gp.cov
      simp only [hcov, List.map_map, Function.comp_def]
    unfold Gp.predict at hp
    obtain ⟨_, _, hp⟩ := bind_eq_ok.1 hp
    have hopt : ∀ l, (if fl.std = true then some (xs.map g.std) else none) = some l →
        l = xs.map fun x => Real.sqrt (if rv x < 0 then 0 else rv x) * spread norm y := by
      intro l hl
      split at hl
      · rw [← hss]
        exact (Option.some.inj hl).symm
      · exact absurd hl (by simp)
    by_cases hc : fl.cov = true
    · simp only [hc, if_true] at hp
      injection hp with hp
      subst hp
      exact ⟨hmm, by simp, fun l hl => by rw [← Option.some.inj hl]; exact hcc, by simp⟩
    · simp only [if_neg hc] at hp
      by_cases hg : fl.meanGrad = true
      · simp only [if_pos hg] at hp
        cases xs with
        | nil => exact absurd hp (by simp)
        | cons x xs =>
          simp only at hp
          obtain ⟨G, hG, hp⟩ := bind_eq_ok.1 hp
          have hv := hgrad x G hG
          have hv' : ∀ v, some (g.gradMean G) = some v → ∃ x', (x :: xs).head? = some x' ∧
              v = fun j => ∑ i, (ug x' j i - (∑ l, ug x' j l) * c i) * y i :=
            fun v e => ⟨x, rfl, by rw [← Option.some.inj e]; funext j; exact hv j⟩
          split at hp <;> injection hp with hp <;> subst hp <;> exact ⟨hmm, hopt, by simp, hv'⟩
      · simp only [if_neg hg] at hp
        injection hp with hp
        subst hp
        exact ⟨hmm, hopt, by simp, by simp⟩

/-- The values 1 and 3 observed at 3 and 4: the weights exist, and the mean at 5 is the weighted sum of 1 and 3. -/
example : ∃ w : Fin 2 → ℝ, ∑ i, w i = 1 ∧
    (twoObs false).predict {} [![5]] = .ok { mean := [w 0 * 1 + w 1 * 3] } := by
  obtain ⟨w, _, _, _, h1, h2⟩ := C111_linear_in_the_values (n := 2) (d := 1) (by norm_num) (.dot 0) (.dot 0) true
    ![![3], ![4]] ![7, 9]
  refine ⟨w ![5], (h1 rfl _).1, ?_⟩
  have := (h2 ![1, 3] (twoObs false) rfl twoObs_fits.1 {} [![5]] _ rfl).1
  simp only [List.map_cons, List.map_nil, Fin.sum_univ_two] at this
  simp only [Matrix.cons_val_zero, Matrix.cons_val_one] at this
  rw [← this]
  rfl

/-- **C111.** Observed values that are all the same are predicted everywhere, whatever the positions, the noise and the
kernel, if values are normalised. -/
theorem C111_constant_values (hn : 0 < n) (g : Gp n d) (k : Kernel d) (X : Fin n → Fin d → ℝ) (alpha : Fin n → ℝ)
    (a : ℝ) (h : FitsData g k true X (fun _ => a) alpha) (fl : PredictFlags) (xs : List (Fin d → ℝ)) (p : Prediction d)
    (hp : g.predict fl xs = .ok p) :
    p.mean = xs.map (fun _ => a) ∧ ∀ v, p.meanGrad = some v → v = 0 := by
  obtain ⟨w, wg, _, _, h1, h2⟩ := C111_linear_in_the_values hn k g.kernel true X alpha
  obtain ⟨e, _, _, eg⟩ := h2 _ g rfl h fl xs p hp
  refine ⟨?_, ?_⟩
  · rw [e]
    refine List.map_congr_left fun x _ => ?_
    rw [← Finset.sum_mul, (h1 rfl x).1, one_mul]
  · intro v hv
    obtain ⟨x, _, ev⟩ := eg v hv
    funext j
    rw [ev]
    show ∑ i, wg x j i * a = 0
    rw [← Finset.sum_mul, (h1 rfl x).2 j, zero_mul]

/-- The value 2 observed at 3 and at 4. -/
noncomputable def sameObs : Gp 2 1 :=
  { twoObs false with alpha := 0 }

theorem sameObs_fits : FitsData sameObs (.dot 0) true ![![3], ![4]] (fun _ => 2) ![7, 9] := by
  obtain ⟨h1, h2, h3, h4⟩ := twoObs_fits.1
  refine ⟨h1, ?_, h3, ?_⟩
  · norm_num [NormalisedBy, sameObs, twoObs]
  · have : (fun i : Fin 2 => ((fun _ => (2 : ℝ)) i - sameObs.yMean) / sameObs.yStd) = 0 := by
      funext i
      norm_num [sameObs, twoObs]
    rw [this, Matrix.mulVec_zero]
    rfl

/-- Meets the hypotheses of `C111_constant_values`: 2 is predicted at 5. -/
example (p : Prediction 1) (hp : sameObs.predict {} [![5]] = .ok p) : p.mean = [2] :=
  (C111_constant_values (by norm_num) sameObs (.dot 0) _ _ 2 sameObs_fits {} _ p hp).1

/-- **C111.** The Gaussian process fitted to `a` times the values `y₁` plus `b` times the values `y₂` predicts `a` times
the mean of the one fitted to `y₁` plus `b` times the mean of the one fitted to `y₂`. -/
theorem C111_superposition (hn : 0 < n) (g g₁ g₂ : Gp n d) (k : Kernel d) (norm : Bool) (X : Fin n → Fin d → ℝ)
    (alpha y₁ y₂ : Fin n → ℝ) (a b : ℝ) (hk₁ : g₁.kernel = g.kernel) (hk₂ : g₂.kernel = g.kernel)
    (h : FitsData g k norm X (fun i => a * y₁ i + b * y₂ i) alpha) (h₁ : FitsData g₁ k norm X y₁ alpha)
    (h₂ : FitsData g₂ k norm X y₂ alpha) (fl : PredictFlags) (xs : List (Fin d → ℝ)) (p p₁ p₂ : Prediction d)
    (hp : g.predict fl xs = .ok p) (hp₁ : g₁.predict fl xs = .ok p₁) (hp₂ : g₂.predict fl xs = .ok p₂) :
    p.mean = List.zipWith (fun u v => a * u + b * v) p₁.mean p₂.mean := by
  obtain ⟨w, _, _, _, _, h0⟩ := C111_linear_in_the_values hn k g.kernel norm X alpha
  rw [(h0 _ g rfl h fl xs p hp).1, (h0 _ g₁ hk₁ h₁ fl xs p₁ hp₁).1, (h0 _ g₂ hk₂ h₂ fl xs p₂ hp₂).1]
  rw [List.zipWith_map, List.zipWith_self]
  refine List.map_congr_left fun x _ => ?_
  rw [Finset.mul_sum, Finset.mul_sum, ← Finset.sum_add_distrib]
  exact Finset.sum_congr rfl fun i _ => by ring

/-- The values 0 and 4 observed at 3 and 4. -/
noncomputable def wideObs : Gp 2 1 :=
  { twoObs false with yStd := 2 }

theorem wideObs_fits : FitsData wideObs (.dot 0) true ![![3], ![4]]
    (fun i => 2 * (![1, 3] : Fin 2 → ℝ) i + (-1) * (fun _ => 2) i) ![7, 9] := by
  obtain ⟨h1, h2, h3, h4⟩ := twoObs_fits.1
  refine ⟨h1, ?_, h3, ?_⟩
  · have : Real.sqrt 4 = 2 := by
      rw [show (4 : ℝ) = 2 ^ 2 by norm_num]
      exact Real.sqrt_sq (by norm_num)
    norm_num [NormalisedBy, wideObs, twoObs, this]
  · refine h4.trans ?_
    congr 1
    funext i
    fin_cases i <;> norm_num [wideObs, twoObs]

/-- Meets the hypotheses of `C111_superposition`: 0 and 4 are twice 1 and 3, minus 2 and 2. -/
example (p p₁ p₂ : Prediction 1) (hp : wideObs.predict {} [![5]] = .ok p)
    (hp₁ : (twoObs false).predict {} [![5]] = .ok p₁) (hp₂ : sameObs.predict {} [![5]] = .ok p₂) :
    p.mean = List.zipWith (fun u v => 2 * u + (-1) * v) p₁.mean p₂.mean :=
  C111_superposition (by norm_num) wideObs (twoObs false) sameObs (.dot 0) true ![![3], ![4]] ![7, 9]
    ![1, 3] (fun _ => 2) 2 (-1) rfl rfl wideObs_fits twoObs_fits.1 sameObs_fits {} _ p p₁ p₂ hp hp₁ hp₂

end Skopt

import Verif.Lemmas.GpPosterior
import Verif.Props.KernelCovariance
import Verif.Props.GpPrior

/-!
# C126: repeating an evaluation is the same as averaging
-/

namespace Skopt

open Matrix

variable {n m d : Nat}

/-! ## Specification -/

/-- The observations of `g` are those of `g'`, some of them several times: observation `i` was made at the point number
`σ i`, every point was observed, and kernel and normalisation are the same. -/
structure RepeatsOf (g : Gp n d) (g' : Gp m d) (σ : Fin n → Fin m) : Prop where
  kernel : g'.kernel = g.kernel
  points : ∀ i, g.X i = g'.X (σ i)
  all : Function.Surjective σ
  mean : g'.yMean = g.yMean
  std : g'.yStd = g.yStd

/-- The noise of the average of the observations at a point in which each counts by the inverse of its noise. -/
noncomputable def pooledNoise (σ : Fin n → Fin m) (nz : Fin n → ℝ) (l : Fin m) : ℝ :=
  (∑ i with σ i = l, (nz i)⁻¹)⁻¹

/-- The average of the observations at a point in which each counts by the inverse of its noise. -/
noncomputable def pooledValue (σ : Fin n → Fin m) (nz y : Fin n → ℝ) (l : Fin m) : ℝ :=
  pooledNoise σ nz l * ∑ i with σ i = l, (nz i)⁻¹ * y i

/-! ## Lemmas -/

section
variable {g : Gp n d} {g' : Gp m d} {σ : Fin n → Fin m} {K : Matrix (Fin n) (Fin n) ℝ} {K' : Matrix (Fin m) (Fin m) ℝ}
  {nz : Fin n → ℝ}

theorem pooled_pos (h : Function.Surjective σ) (hnz : ∀ i, 0 < nz i) (l : Fin m) : 0 < pooledNoise σ nz l := by
  obtain ⟨i, hi⟩ := h l
  refine inv_pos.2 (Finset.sum_pos (fun j _ => inv_pos.2 (hnz j)) ⟨i, ?_⟩)
  simp [hi]

theorem pooled_sum (h : Function.Surjective σ) (hnz : ∀ i, 0 < nz i) (w F : Fin m → ℝ) :
    ∑ i, F (σ i) * (w (σ i) * pooledNoise σ nz (σ i) * (nz i)⁻¹) = ∑ l, F l * w l := by
  rw [← Finset.sum_fiberwise Finset.univ σ]
  refine Finset.sum_congr rfl fun l _ => ?_
  have e : ∑ i with σ i = l, F (σ i) * (w (σ i) * pooledNoise σ nz (σ i) * (nz i)⁻¹) =
      F l * w l * (pooledNoise σ nz l * ∑ i with σ i = l, (nz i)⁻¹) := by
    rw [Finset.mul_sum, Finset.mul_sum]
    refine Finset.sum_congr rfl fun i hi => ?_
    rw [(Finset.mem_filter.1 hi).2]
    ring
  rw [e, pooledNoise, inv_mul_cancel₀ (inv_pos.1 (pooled_pos h hnz l)).ne', mul_one]

/-- The weights of repeated observations are shares of the weight of the average. -/
theorem repeats_weights (h : RepeatsOf g g' σ) (hK : Factored g K) (hK' : Factored g' K') (hN : NoisyCov g K nz)
    (hN' : NoisyCov g' K' (pooledNoise σ nz)) (hnz : ∀ i, 0 < nz i) (x : Fin d → ℝ) (i : Fin n) :
    gpWeights g K x i = gpWeights g' K' x (σ i) * pooledNoise σ nz (σ i) * (nz i)⁻¹ := by
  set w : Fin n → ℝ := fun i => gpWeights g' K' x (σ i) * pooledNoise σ nz (σ i) * (nz i)⁻¹ with hw
  have hKw : K *ᵥ w = g.kTrans x := by
    funext i
    have h1 : (K *ᵥ w) i = ∑ j, g.kernel.value (g'.X (σ i)) (g'.X (σ j)) * w j + nz i * w i := by
      simp only [mulVec, dotProduct]
      have : ∀ j, K i j * w j = g.kernel.value (g'.X (σ i)) (g'.X (σ j)) * w j + if i = j then nz i * w j else 0 := by
        intro j
        rw [hN i j, h.points, h.points]
        split <;> ring
      rw [Finset.sum_congr rfl fun j _ => this j, Finset.sum_add_distrib, Finset.sum_ite_eq, if_pos (Finset.mem_univ _)]
    have h2 := pooled_sum h.all hnz (gpWeights g' K' x) fun l => g.kernel.value (g'.X (σ i)) (g'.X l)
    have h3 := gpWeights_solve hK' x (σ i)
    have h4 : ∀ l, gpWeights g' K' x l * K' (σ i) l = g.kernel.value (g'.X (σ i)) (g'.X l) * gpWeights g' K' x l +
        if σ i = l then pooledNoise σ nz (σ i) * gpWeights g' K' x l else 0 := by
      intro l
      rw [hN' (σ i) l, h.kernel]
      split <;> ring
    rw [Finset.sum_congr rfl fun l _ => h4 l, Finset.sum_add_distrib, Finset.sum_ite_eq, if_pos (Finset.mem_univ _)] at h3
    rw [h1, h2]
    have h5 : nz i * w i = pooledNoise σ nz (σ i) * gpWeights g' K' x (σ i) := by
      simp only [hw]
      have := (hnz i).ne'
      field_simp
    rw [h5, h3]
    simp only [Gp.kTrans, h.kernel, h.points]
  have : gpWeights g K x = w := by
    rw [gpWeights, ← hKw, mulVec_mulVec, nonsing_inv_mul _ hK.unit, one_mulVec]
  rw [this]

theorem rawVar_weights (hK : Factored g K) (x : Fin d → ℝ) :
    g.rawVar x = g.kernel.diag x - ∑ i, g.kTrans x i * gpWeights g K x i := by
  rw [Gp.rawVar, quad_form, Kinv_eq, hK.1]
  rfl

theorem repeats_explained (h : RepeatsOf g g' σ) (hK : Factored g K) (hK' : Factored g' K') (hN : NoisyCov g K nz)
    (hN' : NoisyCov g' K' (pooledNoise σ nz)) (hnz : ∀ i, 0 < nz i) (x z : Fin d → ℝ) :
    ∑ i, g.kTrans z i * gpWeights g K x i = ∑ l, g'.kTrans z l * gpWeights g' K' x l := by
  rw [← pooled_sum h.all hnz (gpWeights g' K' x) (g'.kTrans z)]
  refine Finset.sum_congr rfl fun i _ => ?_
  rw [repeats_weights h hK hK' hN hN' hnz]
  simp only [Gp.kTrans, h.kernel, h.points]

end

/-! ## The property -/

section
variable (g : Gp n d) (g' : Gp m d) (σ : Fin n → Fin m) (K : Matrix (Fin n) (Fin n) ℝ) (K' : Matrix (Fin m) (Fin m) ℝ)
  (nz : Fin n → ℝ) (h : RepeatsOf g g' σ) (hK : Factored g K) (hK' : Factored g' K') (hN : NoisyCov g K nz)
  (hnz : ∀ i, 0 < nz i) (hs : g.yStd ≠ 0) (y : Fin n → ℝ)
include h hK hK' hN hnz hs

/-- **C126 (general noise).** Observations that were repeated at some points give the same mean, standard deviations and
covariances, at any points, as one observation at each point: the average in which each observation counts by the inverse
of its noise, with the noise of that average. -/
theorem C126_pooled (hN' : NoisyCov g' K' (pooledNoise σ nz)) (std cov : Bool) (xs : List (Fin d → ℝ)) :
    (g.fittedTo K y).predict { std := std, cov := cov } xs =
      (g'.fittedTo K' (pooledValue σ nz y)).predict { std := std, cov := cov } xs := by
  have hmean : ∀ x, (g.fittedTo K y).mean x = (g'.fittedTo K' (pooledValue σ nz y)).mean x := by
    intro x
    have hs' : g'.yStd ≠ 0 := by rw [h.std]; exact hs
    rw [fittedTo_mean hK hs, fittedTo_mean hK' hs', h.mean]
    congr 1
    rw [← Finset.sum_fiberwise Finset.univ σ]
    refine Finset.sum_congr rfl fun l _ => ?_
    have e1 : ∑ i with σ i = l, gpWeights g K x i * (y i - g.yMean) =
        gpWeights g' K' x l * (pooledNoise σ nz l * ∑ i with σ i = l, (nz i)⁻¹ * y i -
          g.yMean * (pooledNoise σ nz l * ∑ i with σ i = l, (nz i)⁻¹)) := by
      simp only [Finset.mul_sum, ← Finset.sum_sub_distrib]
      refine Finset.sum_congr rfl fun i hi => ?_
      rw [repeats_weights h hK hK' hN hN' hnz, (Finset.mem_filter.1 hi).2]
      ring
    have e2 : pooledNoise σ nz l * ∑ i with σ i = l, (nz i)⁻¹ = 1 := by
      rw [pooledNoise, inv_mul_cancel₀ (inv_pos.1 (pooled_pos h.all hnz l)).ne']
    rw [e1, e2, mul_one]
    rfl
  have hstd : ∀ x, (g.fittedTo K y).std x = (g'.fittedTo K' (pooledValue σ nz y)).std x := by
    intro x
    have e : g.rawVar x = g'.rawVar x := by
      rw [rawVar_weights hK, rawVar_weights hK', h.kernel, repeats_explained h hK hK' hN hN' hnz]
    have : g.std x = g'.std x := by rw [Gp.std, Gp.std, e, h.std]
    exact this
  have hcov : ∀ i j x z, (g.fittedTo K y).covEntry i j x z = (g'.fittedTo K' (pooledValue σ nz y)).covEntry i j x z := by
    intro i j x z
    have := repeats_explained h hK hK' hN hN' hnz z x
    have e1 : (g.fittedTo K y).covEntry i j x z = ((if i = j then g.kernel.diag x else g.kernel.value x z) -
        ∑ a, g.kTrans x a * gpWeights g K z a) * g.yStd ^ 2 := by
      rw [gpWeights, ← hK.1]
      rfl
    have e2 : (g'.fittedTo K' (pooledValue σ nz y)).covEntry i j x z = ((if i = j then g'.kernel.diag x else
        g'.kernel.value x z) - ∑ a, g'.kTrans x a * gpWeights g' K' z a) * g'.yStd ^ 2 := by
      rw [gpWeights, ← hK'.1]
      rfl
    rw [e1, e2, this, h.kernel, h.std]
  unfold Gp.predict Gp.cov
  simp only [funext hmean, funext hstd, hcov]
  cases predictChecks { std := std, cov := cov } xs <;> rfl

/-- **C126.** If all observations have the same noise `v`, observing some points repeatedly is the same as observing each
point once, with the mean of the values and the noise `v` divided by the number of repetitions. -/
theorem C126_repeats (v : ℝ) (hv : nz = fun _ => v) (std cov : Bool) (xs : List (Fin d → ℝ))
    (hN' : NoisyCov g' K' fun l => v / (Finset.univ.filter fun i => σ i = l).card) :
    (g.fittedTo K y).predict { std := std, cov := cov } xs =
      (g'.fittedTo K' fun l => (∑ i with σ i = l, y i) / (Finset.univ.filter fun i => σ i = l).card).predict
        { std := std, cov := cov } xs := by
  subst hv
  have hnoise : pooledNoise σ (fun _ => v) = fun l => v / (Finset.univ.filter fun i => σ i = l).card := by
    funext l
    simp only [pooledNoise, Finset.sum_const, nsmul_eq_mul, mul_inv, inv_inv, div_eq_mul_inv]
    ring
  have hval : pooledValue σ (fun _ => v) y = fun l => (∑ i with σ i = l, y i) / (Finset.univ.filter fun i => σ i = l).card := by
    funext l
    obtain ⟨i, -⟩ := h.all l
    have : v ≠ 0 := (hnz i).ne'
    simp only [pooledValue, hnoise, ← Finset.mul_sum]
    field_simp
  rw [← hval]
  rw [← hnoise] at hN'
  exact C126_pooled g g' σ K K' _ h hK hK' hN hnz hs y hN' std cov xs

end

/-- Three observations at two points with the default kernel: the first point was observed twice.
Meets the hypotheses of `C126_pooled` and `C126_repeats`. -/
example : ∃ (g : Gp 3 1) (g' : Gp 2 1) (K : Matrix (Fin 3) (Fin 3) ℝ) (K' : Matrix (Fin 2) (Fin 2) ℝ),
    RepeatsOf g g' ![0, 1, 0] ∧ Factored g K ∧ Factored g' K' ∧ NoisyCov g K (fun _ => 1 / 2) ∧ g.yStd ≠ 0 ∧
    NoisyCov g' K' (fun l => 1 / 2 / (Finset.univ.filter fun i : Fin 3 => (![0, 1, 0] : Fin 3 → Fin 2) i = l).card) ∧
    pooledNoise ![0, 1, 0] (fun _ : Fin 3 => (1 : ℝ) / 2) =
      fun l : Fin 2 => (1 : ℝ) / 2 / (Finset.univ.filter fun i : Fin 3 => (![0, 1, 0] : Fin 3 → Fin 2) i = l).card := by
  let k : Kernel 1 := .matern ![1] .fiveHalves
  have hv : k.Valid := ⟨fun i => by fin_cases i; simp, .inr (.inr rfl)⟩
  have hex : ∀ (t : ℕ) (X : Fin t → Fin 1 → ℝ) (nz : Fin t → ℝ), (∀ i, 0 < nz i) → ∃ (g : Gp t 1)
      (K : Matrix (Fin t) (Fin t) ℝ), g.kernel = k ∧ g.X = X ∧ g.yMean = 3 ∧ g.yStd = 2 ∧ Factored g K ∧ NoisyCov g K nz := by
    intro t X nz hnz
    obtain ⟨L, -, hL, hLL⟩ := cholesky_exists _ (PosDef.posSemidef_add (gram_psd k hv (.inl le_rfl) X) (PosDef.diagonal hnz))
    refine ⟨{ kernel := k, X := X, L := L, alpha := 0, yMean := 3, yStd := 2 }, _, rfl, rfl, rfl, rfl, ⟨hLL, hL⟩, ?_⟩
    intro i j
    simp only [Matrix.add_apply, Matrix.of_apply, Kernel.gram, diagonal_apply]
    split
    · next e => subst e; rw [(C57_prior_variance k trivial _).1]
    · rfl
  obtain ⟨g, K, a1, a2, a3, a4, a5, a6⟩ := hex 3 ![![0], ![1], ![0]] (fun _ => 1 / 2) (fun _ => by norm_num)
  obtain ⟨g', K', b1, b2, b3, b4, b5, b6⟩ := hex 2 ![![0], ![1]]
    (fun l => 1 / 2 / (Finset.univ.filter fun i : Fin 3 => (![0, 1, 0] : Fin 3 → Fin 2) i = l).card) (by
      intro l
      have : 0 < (Finset.univ.filter fun i : Fin 3 => (![0, 1, 0] : Fin 3 → Fin 2) i = l).card := by
        revert l; decide
      positivity)
  refine ⟨g, g', K, K', ⟨by rw [a1, b1], fun i => ?_, by decide, by rw [a3, b3], by rw [a4, b4]⟩, a5, b5, a6,
    by rw [a4]; norm_num, b6, ?_⟩
  · rw [a2, b2]
    fin_cases i <;> rfl
  · funext l
    simp only [pooledNoise, Finset.sum_const, nsmul_eq_mul, mul_inv, inv_inv, div_eq_mul_inv]
    ring

end Skopt

import Verif.Lemmas.OneStep
import Verif.Props.KernelCovariance
import Mathlib.NumberTheory.Harmonic.Bounds
import Mathlib.Algebra.QuadraticDiscriminant

/-!
# Lemmas for C125: objectives with a bounded kernel norm
-/

namespace Skopt

open Matrix

variable {n d m : Nat}

/-! ## Specification -/

/-- The size of the objective measured by the kernel is at most `B`: a weighted sum of its values is at most `B` times
the spread that the same sum has for the Gaussian process.  (For a covariance function this says that the norm of `h` in
the reproducing kernel Hilbert space is at most `B`.) -/
def KernelBounded (k : Kernel d) (B : ℝ) (h : (Fin d → ℝ) → ℝ) : Prop :=
  ∀ (n : Nat) (x : Fin n → Fin d → ℝ) (w : Fin n → ℝ),
    (∑ i, w i * h (x i)) ^ 2 ≤ B ^ 2 * ∑ i, ∑ j, w i * w j * k.value (x i) (x j)

/-- The variance of the difference of the values at two points. -/
noncomputable def kernelGap (k : Kernel d) (x y : Fin d → ℝ) : ℝ := k.value x x - 2 * k.value x y + k.value y y

/-- The points of `S` fall into finitely many groups within which the values of the process differ little. -/
def Coverable (k : Kernel d) (S : Set (Fin d → ℝ)) : Prop :=
  ∀ δ > 0, ∃ (N : Nat) (U : Fin N → Set (Fin d → ℝ)), (S ⊆ ⋃ i, U i) ∧ ∀ i, ∀ x ∈ U i, ∀ y ∈ U i, kernelGap k x y ≤ δ

/-! ## Lemmas -/

theorem kdistSq_comm (ls x y : Fin d → ℝ) : kdistSq ls x y = kdistSq ls y x := by
  unfold kdistSq kdiff
  refine Finset.sum_congr rfl fun i _ => ?_
  rw [← neg_sub (y i) (x i), neg_div, neg_sq]

theorem kernel_symm (k : Kernel d) (x y : Fin d → ℝ) : k.value x y = k.value y x := by
  induction k with
  | rbf ls => simp only [Kernel.value, kdistSq_comm ls x y]
  | matern ls nu => simp only [Kernel.value, kdist, kdistSq_comm ls x y]
  | rq a l => simp only [Kernel.value, kdistSq_comm _ x y]
  | expSine l p => simp only [Kernel.value, kdist, kdistSq_comm _ x y]
  | const c => rfl
  | white v => rfl
  | dot s => simp only [Kernel.value, mul_comm]
  | hamming ls => simp only [Kernel.value, ne_comm]
  | sum a b iha ihb => simp only [Kernel.value, iha, ihb]
  | prod a b iha ihb => simp only [Kernel.value, iha, ihb]
  | expo a p iha => simp only [Kernel.value, iha]

theorem sq_sum_expand (K : Fin n → Fin n → ℝ) (k₀ : ℝ) (k : Fin n → ℝ) (w : Fin n → ℝ) :
    (∑ i : Fin (n + 1), ∑ j : Fin (n + 1), (Fin.cons 1 (fun i => -w i) : Fin (n + 1) → ℝ) i *
      (Fin.cons 1 (fun i => -w i) : Fin (n + 1) → ℝ) j *
      (Fin.cons (Fin.cons k₀ k : Fin (n + 1) → ℝ) (fun i => Fin.cons (k i) (K i)) : Fin (n + 1) → Fin (n + 1) → ℝ) i j) =
      k₀ - 2 * ∑ i, w i * k i + ∑ i, ∑ j, w i * w j * K i j := by
  simp only [Fin.sum_univ_succ, Fin.cons_zero, Fin.cons_succ, one_mul, mul_one]
  simp only [Finset.sum_add_distrib, neg_mul, Finset.sum_neg_distrib, mul_neg, neg_neg]
  ring

/-- The error of a weighted sum of observed values. -/
theorem KernelBounded.error {k : Kernel d} {B : ℝ} {h : (Fin d → ℝ) → ℝ} (hb : KernelBounded k B h) (x : Fin d → ℝ)
    (X : Fin n → Fin d → ℝ) (w : Fin n → ℝ) :
    (h x - ∑ i, w i * h (X i)) ^ 2 ≤
      B ^ 2 * (k.value x x - 2 * ∑ i, w i * k.value x (X i) + ∑ i, ∑ j, w i * w j * k.value (X i) (X j)) := by
  have h1 := hb (n + 1) (Fin.cons x X) (Fin.cons 1 fun i => -w i)
  have e1 : ∑ i, (Fin.cons 1 (fun i => -w i) : Fin (n + 1) → ℝ) i * h ((Fin.cons x X : Fin (n + 1) → Fin d → ℝ) i) =
      h x - ∑ i, w i * h (X i) := by
    simp only [Fin.sum_univ_succ, Fin.cons_zero, Fin.cons_succ, one_mul, neg_mul, Finset.sum_neg_distrib]
    ring
  rw [e1] at h1
  refine h1.trans (le_of_eq ?_)
  rw [← sq_sum_expand (fun i j => k.value (X i) (X j)) (k.value x x) (fun i => k.value x (X i)) w]
  congr 1
  refine Finset.sum_congr rfl fun i _ => Finset.sum_congr rfl fun j _ => ?_
  congr 1
  refine Fin.cases ?_ (fun i => ?_) i <;> refine Fin.cases ?_ (fun j => ?_) j <;>
    simp only [Fin.cons_zero, Fin.cons_succ]
  exact kernel_symm k _ _

theorem quad_noisy {g : Gp n d} {K : Matrix (Fin n) (Fin n) ℝ} {nz : Fin n → ℝ} (hN : NoisyCov g K nz) (w : Fin n → ℝ) :
    w ⬝ᵥ (K *ᵥ w) = ∑ i, ∑ j, w i * w j * g.kernel.value (g.X i) (g.X j) + ∑ i, nz i * w i ^ 2 := by
  simp only [dotProduct, mulVec, Finset.mul_sum]
  rw [← Finset.sum_add_distrib]
  refine Finset.sum_congr rfl fun i _ => ?_
  have : ∀ j, w i * (K i j * w j) = w i * w j * g.kernel.value (g.X i) (g.X j) + if i = j then nz i * w i * w j else 0 := by
    intro j
    rw [hN i j]
    split <;> ring
  rw [Finset.sum_congr rfl fun j _ => this j, Finset.sum_add_distrib, Finset.sum_ite_eq, if_pos (Finset.mem_univ _)]
  ring

theorem gp_std_sq (g : Gp n d) (x : Fin d → ℝ) : g.std x ^ 2 = max 0 (g.rawVar x) * g.yStd ^ 2 := by
  have : (if g.rawVar x < 0 then 0 else g.rawVar x) = max 0 (g.rawVar x) := by
    split
    · rw [max_eq_left (by linarith)]
    · rw [max_eq_right (by linarith)]
  rw [Gp.std, this, Real.sq_sqrt (by positivity)]

/-- The prediction is off by at most `B` standard deviations. -/
theorem band_of_bounded {g : Gp n d} {K : Matrix (Fin n) (Fin n) ℝ} {nz : Fin n → ℝ} {f : (Fin d → ℝ) → ℝ} {B : ℝ}
    (hK : Factored g K) (hN : NoisyCov g K nz) (hnz : ∀ i, 0 ≤ nz i) (hs : g.yStd ≠ 0) (hk : Noiseless g.kernel)
    (hB : 0 ≤ B) (hf : KernelBounded g.kernel B fun x => (f x - g.yMean) / g.yStd) (x : Fin d → ℝ) :
    |f x - (g.fittedTo K fun i => f (g.X i)).mean x| ≤ B * g.std x := by
  have h1 := hf.error x g.X (gpWeights g K x)
  have h2 : f x - (g.fittedTo K fun i => f (g.X i)).mean x =
      g.yStd * ((f x - g.yMean) / g.yStd - ∑ i, gpWeights g K x i * ((f (g.X i) - g.yMean) / g.yStd)) := by
    rw [fittedTo_mean hK hs, mul_sub, mul_div_cancel₀ _ hs, Finset.mul_sum]
    rw [sub_add_eq_sub_sub]
    congr 1
    refine Finset.sum_congr rfl fun i _ => ?_
    field_simp
  have h3 : g.kernel.value x x - 2 * ∑ i, gpWeights g K x i * g.kernel.value x (g.X i) +
      ∑ i, ∑ j, gpWeights g K x i * gpWeights g K x j * g.kernel.value (g.X i) (g.X j) ≤ g.rawVar x := by
    have e := predictorError_eq hK x (gpWeights g K x)
    rw [show gpWeights g K x - K⁻¹ *ᵥ g.kTrans x = 0 from sub_self _, zero_dotProduct, add_zero] at e
    rw [← e, predictorError, quad_noisy hN, (C57_prior_variance _ hk x).1]
    have : 0 ≤ ∑ i, nz i * gpWeights g K x i ^ 2 := Finset.sum_nonneg fun i _ => mul_nonneg (hnz i) (sq_nonneg _)
    simp only [dotProduct, Gp.kTrans]
    linarith
  refine abs_le_of_sq_le_sq ?_ (mul_nonneg hB (Real.sqrt_nonneg _))
  rw [h2, mul_pow, mul_pow, gp_std_sq]
  calc g.yStd ^ 2 * _ ≤ g.yStd ^ 2 * (B ^ 2 * max 0 (g.rawVar x)) := by
        refine mul_le_mul_of_nonneg_left (h1.trans (mul_le_mul_of_nonneg_left (h3.trans (le_max_right _ _)) (sq_nonneg _)))
          (sq_nonneg _)
    _ = _ := by ring

/-- `|h|`-weighted sums of kernel functions are bounded: the Cauchy-Schwarz inequality. -/
theorem PositiveKernel.cauchy {T : Type} {k : T → T → ℝ} (hk : PositiveKernel k) (x : Fin n → T) (z : Fin m → T)
    (w : Fin n → ℝ) (c : Fin m → ℝ) :
    (∑ i, ∑ j, w i * c j * k (x i) (z j)) ^ 2 ≤
      (∑ i, ∑ j, w i * w j * k (x i) (x j)) * ∑ i, ∑ j, c i * c j * k (z i) (z j) := by
  have key : ∀ t : ℝ, 0 ≤ (∑ i, ∑ j, c i * c j * k (z i) (z j)) * (t * t) +
      (2 * ∑ i, ∑ j, w i * c j * k (x i) (z j)) * t + ∑ i, ∑ j, w i * w j * k (x i) (x j) := by
    intro t
    have h := hk.2 (n + m) (Fin.append x z) (Fin.append w fun j => t * c j)
    refine h.trans (le_of_eq ?_)
    simp only [Fin.sum_univ_add, Fin.append_left, Fin.append_right, Finset.sum_add_distrib]
    have e1 : ∑ i, ∑ j, t * c i * w j * k (z i) (x j) = t * ∑ i, ∑ j, w i * c j * k (x i) (z j) := by
      rw [Finset.sum_comm, Finset.mul_sum]
      refine Finset.sum_congr rfl fun i _ => ?_
      rw [Finset.mul_sum]
      refine Finset.sum_congr rfl fun j _ => ?_
      rw [hk.symm (z j) (x i)]; ring
    have e2 : ∑ i, ∑ j, w i * (t * c j) * k (x i) (z j) = t * ∑ i, ∑ j, w i * c j * k (x i) (z j) := by
      rw [Finset.mul_sum]
      refine Finset.sum_congr rfl fun i _ => ?_
      rw [Finset.mul_sum]
      refine Finset.sum_congr rfl fun j _ => by ring
    have e3 : ∑ i, ∑ j, t * c i * (t * c j) * k (z i) (z j) = t * t * ∑ i, ∑ j, c i * c j * k (z i) (z j) := by
      rw [Finset.mul_sum]
      refine Finset.sum_congr rfl fun i _ => ?_
      rw [Finset.mul_sum]
      refine Finset.sum_congr rfl fun j _ => by ring
    rw [e1, e2, e3]
    ring
  have := discrim_le_zero key
  rw [discrim] at this
  nlinarith

theorem PositiveKernel.diag_nonneg {T : Type} {k : T → T → ℝ} (hk : PositiveKernel k) (x : T) : 0 ≤ k x x := by
  simpa using hk.2 1 (fun _ => x) (fun _ => 1)

theorem PositiveKernel.two_le {T : Type} {k : T → T → ℝ} (hk : PositiveKernel k) (x y : T) :
    2 * k x y ≤ k x x + k y y := by
  have := hk.2 2 ![x, y] ![1, -1]
  simp only [Fin.sum_univ_two, Matrix.cons_val_zero, Matrix.cons_val_one, hk.symm y x] at this
  linarith

theorem noiseless_positive (k : Kernel d) (hv : k.Valid) (hp : d ≤ 1 ∨ ¬ k.Periodic) (hk : Noiseless k) :
    PositiveKernel k.value := by
  refine (gram_positive k hv hp (T := Fin d → ℝ) (X := id)).congr fun x y => ?_
  unfold Kernel.gram
  split
  · next e => subst e; exact (C57_prior_variance k hk _).1
  · rfl

/-! ### The variances of a run -/

/-- Each visit of a group is counted once: a sum over the number of earlier visits. -/
theorem sum_visits_le {N : Nat} (c : ℕ → Fin N) (φ : ℕ → ℝ) (hφ : ∀ j, 0 ≤ φ j) (n₀ T : ℕ) :
    ∑ t ∈ Finset.Ico n₀ T, φ ((Finset.range t).filter fun i => c i = c t).card ≤ N * ∑ j ∈ Finset.range T, φ j := by
  have h1 : ∑ t ∈ Finset.Ico n₀ T, φ ((Finset.range t).filter fun i => c i = c t).card =
      ∑ a : Fin N, ∑ t ∈ (Finset.Ico n₀ T).filter (fun t => c t = a),
        φ ((Finset.range t).filter fun i => c i = a).card := by
    rw [← Finset.sum_fiberwise (Finset.Ico n₀ T) c]
    refine Finset.sum_congr rfl fun a _ => Finset.sum_congr rfl fun t ht => ?_
    rw [(Finset.mem_filter.1 ht).2]
  rw [h1]
  calc _ ≤ ∑ _a : Fin N, ∑ j ∈ Finset.range T, φ j := ?_
    _ = _ := by simp
  refine Finset.sum_le_sum fun a _ => ?_
  have hinj : Set.InjOn (fun t => ((Finset.range t).filter fun i => c i = a).card)
      ((Finset.Ico n₀ T).filter fun t => c t = a) := by
    have hlt : ∀ s t, c s = a → s < t → ((Finset.range s).filter fun i => c i = a).card <
        ((Finset.range t).filter fun i => c i = a).card := by
      intro s t hs hst
      refine Finset.card_lt_card ⟨fun i hi => ?_, fun hsub => ?_⟩
      · rw [Finset.mem_filter, Finset.mem_range] at hi ⊢
        exact ⟨hi.1.trans hst, hi.2⟩
      · have := hsub (Finset.mem_filter.2 ⟨Finset.mem_range.2 hst, hs⟩)
        simp at this
    intro s hs t ht heq
    have hs := (Finset.mem_filter.1 hs).2
    have ht := (Finset.mem_filter.1 ht).2
    rcases lt_trichotomy s t with h | h | h
    · exact absurd heq (hlt s t hs h).ne
    · exact h
    · exact absurd heq.symm (hlt t s ht h).ne
  rw [← Finset.sum_image (f := φ) hinj]
  refine Finset.sum_le_sum_of_subset_of_nonneg (fun j hj => ?_) fun j _ _ => hφ j
  obtain ⟨t, ht, rfl⟩ := Finset.mem_image.1 hj
  have := (Finset.mem_Ico.1 (Finset.mem_filter.1 ht).1).2
  refine Finset.mem_range.2 (lt_of_le_of_lt (Finset.card_filter_le _ _) ?_)
  rwa [Finset.card_range]

/-- After `j` observations in the group of `x` the variance at `x` is at most the gap plus the noise over `j`. -/
theorem rawVar_group {g : Gp n d} {K : Matrix (Fin n) (Fin n) ℝ} {ν δ : ℝ} (hK : Factored g K)
    (hN : NoisyCov g K fun _ => ν) (hk : Noiseless g.kernel) (hp : PositiveKernel g.kernel.value) (x : Fin d → ℝ)
    (J : Finset (Fin n)) (hJ : 0 < J.card) (hgap : ∀ i ∈ J, kernelGap g.kernel x (g.X i) ≤ δ) :
    g.rawVar x ≤ δ + ν / J.card := by
  have hc : (0 : ℝ) < J.card := by exact_mod_cast hJ
  set w : Fin n → ℝ := fun i => if i ∈ J then 1 / (J.card : ℝ) else 0 with hw
  have h1 := (C99_best_predictor g K hK x).2 ⟨w, rfl⟩
  refine h1.trans ?_
  rw [predictorError, quad_noisy hN, (C57_prior_variance _ hk x).1]
  have s1 : ∀ F : Fin n → ℝ, ∑ i, w i * F i = 1 / (J.card : ℝ) * ∑ i ∈ J, F i := by
    intro F
    simp only [hw, ite_mul, zero_mul]
    rw [Finset.sum_ite_mem, Finset.univ_inter, Finset.mul_sum]
  have e1 : w ⬝ᵥ g.kTrans x = 1 / (J.card : ℝ) * ∑ i ∈ J, g.kernel.value x (g.X i) := s1 _
  have e2 : ∑ i, ν * w i ^ 2 = ν / J.card := by
    have : ∀ i, ν * w i ^ 2 = w i * (ν * w i) := fun i => by ring
    rw [Finset.sum_congr rfl fun i _ => this i, s1]
    have : ∑ i ∈ J, ν * w i = ∑ _i ∈ J, ν * (1 / (J.card : ℝ)) :=
      Finset.sum_congr rfl fun i hi => by simp only [hw, if_pos hi]
    rw [this, Finset.sum_const, nsmul_eq_mul]
    field_simp
  have e3 : ∑ i, ∑ j, w i * w j * g.kernel.value (g.X i) (g.X j) ≤
      1 / (J.card : ℝ) * ∑ i ∈ J, g.kernel.value (g.X i) (g.X i) := by
    have a1 : ∀ i, ∑ j, w i * w j * g.kernel.value (g.X i) (g.X j) =
        w i * (1 / (J.card : ℝ) * ∑ j ∈ J, g.kernel.value (g.X i) (g.X j)) := by
      intro i
      rw [← s1, Finset.mul_sum]
      exact Finset.sum_congr rfl fun j _ => by ring
    rw [Finset.sum_congr rfl fun i _ => a1 i, s1]
    refine mul_le_mul_of_nonneg_left ?_ (by positivity)
    rw [← Finset.mul_sum]
    have a2 : ∑ i ∈ J, ∑ j ∈ J, g.kernel.value (g.X i) (g.X j) ≤
        ∑ i ∈ J, ∑ j ∈ J, (g.kernel.value (g.X i) (g.X i) + g.kernel.value (g.X j) (g.X j)) / 2 :=
      Finset.sum_le_sum fun i _ => Finset.sum_le_sum fun j _ => by linarith [hp.two_le (g.X i) (g.X j)]
    have a3 : ∑ i ∈ J, ∑ j ∈ J, (g.kernel.value (g.X i) (g.X i) + g.kernel.value (g.X j) (g.X j)) / 2 =
        J.card * ∑ i ∈ J, g.kernel.value (g.X i) (g.X i) := by
      simp only [← Finset.sum_div, Finset.sum_add_distrib, Finset.sum_const, nsmul_eq_mul, ← Finset.mul_sum]
      ring
    rw [one_div, inv_mul_le_iff₀ hc, ← a3]
    exact a2
  have e4 : ∑ i ∈ J, kernelGap g.kernel x (g.X i) ≤ J.card * δ := by
    rw [← nsmul_eq_mul, ← Finset.sum_const]
    exact Finset.sum_le_sum hgap
  have e5 : 1 / (J.card : ℝ) * ∑ i ∈ J, kernelGap g.kernel x (g.X i) = g.kernel.value x x -
      2 * (1 / (J.card : ℝ) * ∑ i ∈ J, g.kernel.value x (g.X i)) +
      1 / (J.card : ℝ) * ∑ i ∈ J, g.kernel.value (g.X i) (g.X i) := by
    simp only [kernelGap, Finset.sum_add_distrib, Finset.sum_sub_distrib, Finset.sum_const, nsmul_eq_mul, ← Finset.mul_sum]
    field_simp
  have e6 : 1 / (J.card : ℝ) * ∑ i ∈ J, kernelGap g.kernel x (g.X i) ≤ δ := by
    rw [one_div, inv_mul_le_iff₀ hc]
    exact e4
  rw [e1, e2]
  linarith

/-! ### Kernels that are continuous -/

/-- There is a Hamming kernel in the expression. -/
def Kernel.HasHamming : Kernel d → Prop
  | .hamming _ => True
  | .sum a b => a.HasHamming ∨ b.HasHamming
  | .prod a b => a.HasHamming ∨ b.HasHamming
  | .expo a _ => a.HasHamming
  | _ => False

theorem kdistSq_continuous (ls : Fin d → ℝ) : Continuous fun p : (Fin d → ℝ) × (Fin d → ℝ) => kdistSq ls p.1 p.2 := by
  unfold kdistSq kdiff
  fun_prop

theorem kdist_continuous (ls : Fin d → ℝ) : Continuous fun p : (Fin d → ℝ) × (Fin d → ℝ) => kdist ls p.1 p.2 :=
  Real.continuous_sqrt.comp (kdistSq_continuous ls)

theorem kernel_continuous (k : Kernel d) (hv : k.Valid) (hh : ¬ k.HasHamming) :
    Continuous fun p : (Fin d → ℝ) × (Fin d → ℝ) => k.value p.1 p.2 := by
  induction k with
  | rbf ls =>
    have := kdistSq_continuous ls
    simp only [Kernel.value]
    fun_prop
  | matern ls nu =>
    have := kdist_continuous ls
    obtain ⟨_, rfl | rfl | rfl⟩ := hv <;> simp only [Kernel.value, Nu.value] <;> fun_prop
  | rq a l =>
    have := kdistSq_continuous (d := d) fun _ => l
    simp only [Kernel.value]
    refine Continuous.rpow_const (by fun_prop) fun p => .inl ?_
    have h1 : 0 ≤ kdistSq (fun _ => l) p.1 p.2 := Finset.sum_nonneg fun i _ => sq_nonneg _
    have := hv.1
    positivity
  | expSine l p =>
    have := kdist_continuous (d := d) fun _ => 1
    simp only [Kernel.value]
    fun_prop
  | const c => exact continuous_const
  | white v => exact continuous_const
  | dot s => simp only [Kernel.value]; fun_prop
  | hamming ls => exact absurd trivial hh
  | sum a b iha ihb =>
    have h := not_or.1 hh
    exact (iha hv.1 h.1).add (ihb hv.2 h.2)
  | prod a b iha ihb =>
    have h := not_or.1 hh
    exact (iha hv.1 h.1).mul (ihb hv.2 h.2)
  | expo a p iha =>
    obtain ⟨h1, k, rfl⟩ := hv
    simp only [Kernel.value, Real.rpow_natCast]
    exact (iha h1 hh).pow k

theorem kernelGap_self (k : Kernel d) (x : Fin d → ℝ) : kernelGap k x x = 0 := by
  unfold kernelGap; ring

/-- Finitely many points. -/
theorem coverable_finite (k : Kernel d) {S : Set (Fin d → ℝ)} (hS : S.Finite) : Coverable k S := by
  intro δ hδ
  obtain ⟨N, e, he⟩ := hS.fin_embedding
  refine ⟨N, fun i => {e i}, fun x hx => ?_, ?_⟩
  · rw [← he] at hx
    obtain ⟨i, rfl⟩ := hx
    exact Set.mem_iUnion.2 ⟨i, rfl⟩
  · rintro i x rfl y rfl
    rw [kernelGap_self]
    exact hδ.le

/-- A closed and bounded set and a kernel that is continuous. -/
theorem coverable_compact (k : Kernel d) (hc : Continuous fun p : (Fin d → ℝ) × (Fin d → ℝ) => k.value p.1 p.2)
    {S : Set (Fin d → ℝ)} (hS : IsCompact S) : Coverable k S := by
  intro δ hδ
  have hg : Continuous fun p : (Fin d → ℝ) × (Fin d → ℝ) => kernelGap k p.1 p.2 := by
    unfold kernelGap
    have h1 : Continuous fun p : (Fin d → ℝ) × (Fin d → ℝ) => k.value p.1 p.1 := hc.comp (f := fun p : (Fin d → ℝ) × (Fin d → ℝ) => (p.1, p.1)) (by fun_prop)
    have h2 : Continuous fun p : (Fin d → ℝ) × (Fin d → ℝ) => k.value p.2 p.2 := hc.comp (f := fun p : (Fin d → ℝ) × (Fin d → ℝ) => (p.2, p.2)) (by fun_prop)
    fun_prop
  have hU : ∀ x : Fin d → ℝ, ∃ U ∈ nhds x, ∀ y ∈ U, ∀ z ∈ U, kernelGap k y z ≤ δ := by
    intro x
    have h1 : ∀ᶠ p in nhds (x, x), kernelGap k p.1 p.2 < δ :=
      hg.continuousAt.eventually (Iio_mem_nhds (by simpa [kernelGap_self] using hδ))
    rw [nhds_prod_eq] at h1
    obtain ⟨U, hU, h2⟩ := Filter.mem_prod_same_iff.1 h1
    exact ⟨U, hU, fun y hy z hz => (h2 (Set.mk_mem_prod hy hz)).le⟩
  choose U hU1 hU2 using hU
  obtain ⟨t, -, ht⟩ := hS.elim_nhds_subcover U fun x _ => hU1 x
  refine ⟨t.card, fun i => U (t.equivFin.symm i), fun x hx => ?_, fun i => hU2 _⟩
  obtain ⟨y, hy, hxy⟩ := Set.mem_iUnion₂.1 (ht hx)
  exact Set.mem_iUnion.2 ⟨t.equivFin ⟨y, hy⟩, by simpa using hxy⟩

end Skopt

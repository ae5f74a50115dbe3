import Verif.Lemmas.PositiveKernels
import Verif.Props.GpCertainty
import Mathlib.Analysis.Matrix.LDL
import Mathlib.LinearAlgebra.Matrix.Block

/-!
# C100: the kernels are covariance functions
-/

namespace Skopt

open Matrix

variable {n m d : Nat}

/-! ## Specification -/

/-- The hyperparameters are in the range of scikit-learn's bounds (positive length scales, variances that are not
negative, natural exponents); Matérn kernels with one of the three values of `nu` that have a gradient. -/
def Kernel.Valid : Kernel d → Prop
  | .rbf ls => ∀ i, 0 < ls i
  | .matern ls nu => (∀ i, 0 < ls i) ∧ (nu = .half ∨ nu = .threeHalves ∨ nu = .fiveHalves)
  | .rq alpha l => 0 < alpha ∧ 0 < l
  | .expSine l p => 0 < l ∧ 0 < p
  | .const c => 0 ≤ c
  | .white v => 0 ≤ v
  | .dot _ => True
  | .hamming ls => ∀ i, 0 ≤ ls i
  | .sum a b => a.Valid ∧ b.Valid
  | .prod a b => a.Valid ∧ b.Valid
  | .expo a p => a.Valid ∧ ∃ k : ℕ, p = k

/-- There is a periodic kernel in the expression. -/
def Kernel.Periodic : Kernel d → Prop
  | .expSine _ _ => True
  | .sum a b => a.Periodic ∨ b.Periodic
  | .prod a b => a.Periodic ∨ b.Periodic
  | .expo a _ => a.Periodic
  | _ => False

/-- The covariance of the values at given points, as `kernel(X)` computes it. -/
noncomputable def Kernel.gram (k : Kernel d) {T : Type} [DecidableEq T] (X : T → Fin d → ℝ) (i j : T) : ℝ :=
  if i = j then k.diag (X i) else k.value (X i) (X j)

/-! ## Lemmas -/

theorem sum_sq_self (f : Fin d → ℝ) : ∑ i, (f i - f i) ^ 2 = 0 := by simp

theorem radial_kernel {φ : ℝ → ℝ} (h : Radial φ) (ls : Fin d → ℝ) (a : ℝ) :
    PositiveKernel fun x y : Fin d → ℝ => φ (a ^ 2 * kdistSq ls x y) := by
  refine (h (Fin d → ℝ) d fun x i => a * (x i / ls i)).congr fun x y => ?_
  congr 1
  rw [kdistSq, Finset.mul_sum]
  refine Finset.sum_congr rfl fun i _ => ?_
  rw [kdiff]
  ring

theorem kdistSq_nonneg' (ls x y : Fin d → ℝ) : 0 ≤ kdistSq ls x y := Finset.sum_nonneg fun _ _ => sq_nonneg _

/-- The kernels without noise. -/
theorem positive_leaf (k : Kernel d) (hv : k.Valid) (hp : d ≤ 1 ∨ ¬ k.Periodic)
    (hl : match k with | .white _ | .sum _ _ | .prod _ _ | .expo _ _ => False | _ => True) :
    PositiveKernel k.value ∧ ∀ x, k.diag x = k.value x x := by
  cases k with
  | rbf ls =>
    refine ⟨(radial_kernel (radial_exp (by norm_num : (0 : ℝ) ≤ 1 / 2)) ls 1).congr fun x y => ?_, fun x => ?_⟩
    · simp only [Kernel.value]
      congr 1
      ring
    · simp [Kernel.diag, Kernel.value, kdistSq_self]
  | matern ls nu =>
    obtain ⟨_, rfl | rfl | rfl⟩ := hv
    · refine ⟨(radial_kernel radial_matern12 ls 1).congr fun x y => ?_, fun x => ?_⟩
      · simp only [Kernel.value, Nu.value, kdist, matern12, one_pow, one_mul]
      · simp [Kernel.diag, Kernel.value, kdist_self, Nu.value]
    · refine ⟨(radial_kernel radial_matern32 ls (Real.sqrt 3)).congr fun x y => ?_, fun x => ?_⟩
      · simp only [Kernel.value, Nu.value, kdist, matern32]
        rw [Real.sqrt_mul (sq_nonneg _), Real.sqrt_sq (Real.sqrt_nonneg _)]
      · simp [Kernel.diag, Kernel.value, kdist_self, Nu.value]
    · refine ⟨(radial_kernel radial_matern52 ls (Real.sqrt 5)).congr fun x y => ?_, fun x => ?_⟩
      · simp only [Kernel.value, Nu.value, kdist, matern52]
        rw [Real.sqrt_mul (sq_nonneg _), Real.sqrt_sq (Real.sqrt_nonneg _), Real.sq_sqrt (kdistSq_nonneg' _ _ _),
          Real.sq_sqrt (by norm_num)]
        congr 1
        ring
      · simp [Kernel.diag, Kernel.value, kdist_self, Nu.value]
  | rq alpha l =>
    obtain ⟨ha, _⟩ := hv
    refine ⟨(radial_kernel (radial_rpow ha one_pos (by positivity : (0 : ℝ) ≤ 1 / (2 * alpha))) (fun _ => l) 1).congr
      fun x y => ?_, fun x => ?_⟩
    · simp only [Kernel.value]
      congr 2
      ring
    · simp [Kernel.diag, Kernel.value, kdistSq_self]
  | expSine l p =>
    obtain ⟨hl0, hp0⟩ := hv
    have hd : d ≤ 1 := hp.resolve_right fun h => h trivial
    have hdiag : ∀ x : Fin d → ℝ, (Kernel.expSine l p).diag x = (Kernel.expSine l p).value x x := by
      intro x
      simp [Kernel.diag, Kernel.value, kdist_self]
    refine ⟨?_, hdiag⟩
    -- the difference of the only coordinates
    let z : (Fin d → ℝ) → ℝ := fun x => 2 * Real.pi / p * ∑ i, x i
    have hz : ∀ x y : Fin d → ℝ, (Kernel.expSine l p).value x y =
        Real.exp (-(1 / l ^ 2)) * Real.exp (1 / l ^ 2 * (Real.cos (z x) * Real.cos (z y) + Real.sin (z x) * Real.sin (z y))) := by
      intro x y
      have habs : kdist (fun _ => 1) x y = |∑ i, x i - ∑ i, y i| := by
        rw [kdist, kdistSq]
        simp only [kdiff, div_one]
        have : d = 0 ∨ d = 1 := by omega
        rcases this with rfl | rfl
        · simp
        · simp [Real.sqrt_sq_eq_abs]
      have hcos : Real.cos (z x) * Real.cos (z y) + Real.sin (z x) * Real.sin (z y) =
          1 - 2 * Real.sin (Real.pi * kdist (fun _ => 1) x y / p) ^ 2 := by
        rw [← Real.cos_sub, habs]
        have e : z x - z y = 2 * (Real.pi * (∑ i, x i - ∑ i, y i) / p) := by
          simp only [z]
          ring
        have hs : Real.sin (Real.pi * |∑ i, x i - ∑ i, y i| / p) ^ 2 = Real.sin (Real.pi * (∑ i, x i - ∑ i, y i) / p) ^ 2 := by
          rcases abs_choice (∑ i, x i - ∑ i, y i) with h | h <;> rw [h]
          rw [mul_neg, neg_div, Real.sin_neg, neg_sq]
        rw [hs, e, Real.cos_two_mul]
        have := Real.sin_sq_add_cos_sq (Real.pi * (∑ i, x i - ∑ i, y i) / p)
        linarith
      rw [hcos, ← Real.exp_add, Kernel.value]
      congr 1
      field_simp
      ring
    have h1 := (PositiveKernel.feature fun x => Real.cos (z x)).add (PositiveKernel.feature fun x => Real.sin (z x))
    exact ((PositiveKernel.const (Real.exp_pos (-(1 / l ^ 2))).le).mul
      ((PositiveKernel.const (by positivity : (0 : ℝ) ≤ 1 / l ^ 2)).mul h1).exp).congr fun x y => (hz x y).symm
  | const c => exact ⟨PositiveKernel.const hv, fun x => rfl⟩
  | white v => exact hl.elim
  | dot s =>
    refine ⟨?_, fun x => rfl⟩
    exact (PositiveKernel.finsum Finset.univ fun i _ => PositiveKernel.feature fun x : Fin d → ℝ => x i).add
      (PositiveKernel.const (sq_nonneg s))
  | hamming ls =>
    refine ⟨(C56_hamming_covariance (V := ℝ) ls hv).1.congr fun x y => ?_, fun x => ?_⟩
    · rfl
    · simp [Kernel.diag, Kernel.value]
  | sum a b => exact hl.elim
  | prod a b => exact hl.elim
  | expo a p => exact hl.elim

theorem gram_positive (k : Kernel d) (hv : k.Valid) (hp : d ≤ 1 ∨ ¬ k.Periodic) {T : Type} [DecidableEq T]
    (X : T → Fin d → ℝ) : PositiveKernel (k.gram X) := by
  have hleaf : ∀ k : Kernel d, (PositiveKernel k.value ∧ ∀ x, k.diag x = k.value x x) → PositiveKernel (k.gram X) := by
    intro k h
    refine (h.1.comp X).congr fun i j => ?_
    unfold Kernel.gram
    split
    · next e => rw [h.2, e]
    · rfl
  induction k with
  | white v =>
    have h1 : PositiveKernel fun i j : T => if i = j then (1 : ℝ) else 0 := by
      refine ⟨fun i j => by simp only [eq_comm], fun n pts c => ?_⟩
      have := positive_equal (fun _ _ : Fin n => (1 : ℝ)) (fun c => ?_) pts c
      · simpa using this
      · exact (PositiveKernel.const (T := Unit) zero_le_one).2 n (fun _ => ()) c
    refine ((PositiveKernel.const hv).mul h1).congr fun i j => ?_
    simp [Kernel.gram, Kernel.diag, Kernel.value]
  | sum a b iha ihb =>
    have h := (iha hv.1 (hp.imp id fun h h' => h (Or.inl h'))).add (ihb hv.2 (hp.imp id fun h h' => h (Or.inr h')))
    refine h.congr fun i j => ?_
    unfold Kernel.gram
    split <;> rfl
  | prod a b iha ihb =>
    have h := (iha hv.1 (hp.imp id fun h h' => h (Or.inl h'))).mul (ihb hv.2 (hp.imp id fun h h' => h (Or.inr h')))
    refine h.congr fun i j => ?_
    unfold Kernel.gram
    split <;> rfl
  | expo a p iha =>
    obtain ⟨ha, q, rfl⟩ := hv
    refine ((iha ha hp).pow q).congr fun i j => ?_
    unfold Kernel.gram
    split
    · exact (Real.rpow_natCast _ _).symm
    · exact (Real.rpow_natCast _ _).symm
  | rbf ls => exact hleaf _ (positive_leaf _ hv hp trivial)
  | matern ls nu => exact hleaf _ (positive_leaf _ hv hp trivial)
  | rq a l => exact hleaf _ (positive_leaf _ hv hp trivial)
  | expSine l p => exact hleaf _ (positive_leaf _ hv hp trivial)
  | const c => exact hleaf _ (positive_leaf _ hv hp trivial)
  | dot s => exact hleaf _ (positive_leaf _ hv hp trivial)
  | hamming ls => exact hleaf _ (positive_leaf _ hv hp trivial)

theorem gram_psd (k : Kernel d) (hv : k.Valid) (hp : d ≤ 1 ∨ ¬ k.Periodic) (X : Fin m → Fin d → ℝ) :
    (Matrix.of (k.gram X)).PosSemidef := (gram_positive k hv hp X).matrix id

/-- A positive definite matrix has a lower triangular factor. -/
theorem cholesky_exists (K : Matrix (Fin n) (Fin n) ℝ) (hK : K.PosDef) :
    ∃ L : Matrix (Fin n) (Fin n) ℝ, (∀ i j, i < j → L i j = 0) ∧ IsUnit L.det ∧ L * Lᵀ = K := by
  have hlow : BlockTriangular (LDL.lowerInv hK) OrderDual.toDual := fun i j hij => LDL.lowerInv_triangular hK hij
  have hlow' : BlockTriangular (LDL.lower hK) OrderDual.toDual := by
    unfold LDL.lower
    exact blockTriangular_inv_of_blockTriangular hlow
  have hpos : ∀ i, 0 ≤ LDL.diagEntries hK i := by
    intro i
    have h := (hK.posSemidef.mul_mul_conjTranspose_same (LDL.lowerInv hK)).diag_nonneg (i := i)
    rw [← LDL.diag_eq_lowerInv_conj, LDL.diag, Matrix.diagonal_apply_eq] at h
    exact h
  have hdec := LDL.lower_conj_diag hK
  have hprod : (LDL.lower hK * Matrix.diagonal fun i => Real.sqrt (LDL.diagEntries hK i)) *
      (LDL.lower hK * Matrix.diagonal fun i => Real.sqrt (LDL.diagEntries hK i))ᵀ = K := by
    rw [transpose_mul, diagonal_transpose, Matrix.mul_assoc, ← Matrix.mul_assoc (Matrix.diagonal _), diagonal_mul_diagonal]
    refine Eq.trans ?_ hdec
    have hd : (Matrix.diagonal fun i => Real.sqrt (LDL.diagEntries hK i) * Real.sqrt (LDL.diagEntries hK i)) =
        LDL.diag hK := by
      unfold LDL.diag
      congr 1
      funext i
      exact Real.mul_self_sqrt (hpos i)
    rw [hd, conjTranspose_eq_transpose_of_trivial, Matrix.mul_assoc]
  refine ⟨LDL.lower hK * Matrix.diagonal fun i => Real.sqrt (LDL.diagEntries hK i), ?_, ?_, hprod⟩
  · intro i j hij
    rw [Matrix.mul_diagonal, hlow' hij, zero_mul]
  · rw [isUnit_iff_ne_zero]
    intro h0
    have h1 := hK.det_pos
    rw [← hprod, det_mul, h0, zero_mul] at h1
    exact lt_irrefl _ h1

/-- Weights for two groups of points. -/
theorem PositiveKernel.two_groups {T : Type} {k : T → T → ℝ} (h : PositiveKernel k) (p : Fin m → T) (q : Fin n → T)
    (c : Fin m → ℝ) (w : Fin n → ℝ) :
    0 ≤ ∑ i, ∑ j, c i * c j * k (p i) (p j) - 2 * ∑ a, w a * ∑ i, c i * k (p i) (q a) +
      ∑ a, ∑ b, w a * w b * k (q a) (q b) := by
  have h1 := h.2 (m + n) (fun i => Sum.elim p q (finSumFinEquiv.symm i))
    (fun i => Sum.elim c (fun a => -w a) (finSumFinEquiv.symm i))
  rw [Equiv.sum_comp finSumFinEquiv.symm fun s => ∑ j, Sum.elim c (fun a => -w a) s *
    Sum.elim c (fun a => -w a) (finSumFinEquiv.symm j) * k (Sum.elim p q s) (Sum.elim p q (finSumFinEquiv.symm j))] at h1
  have h2 : ∀ s, ∑ j, Sum.elim c (fun a => -w a) s * Sum.elim c (fun a => -w a) (finSumFinEquiv.symm j) *
      k (Sum.elim p q s) (Sum.elim p q (finSumFinEquiv.symm j)) =
      ∑ t, Sum.elim c (fun a => -w a) s * Sum.elim c (fun a => -w a) t * k (Sum.elim p q s) (Sum.elim p q t) :=
    fun s => Equiv.sum_comp finSumFinEquiv.symm fun t => Sum.elim c (fun a => -w a) s *
      Sum.elim c (fun a => -w a) t * k (Sum.elim p q s) (Sum.elim p q t)
  rw [Finset.sum_congr rfl fun s _ => h2 s] at h1
  simp only [Fintype.sum_sum_type, Sum.elim_inl, Sum.elim_inr, Finset.sum_add_distrib] at h1
  have e1 : ∑ i, ∑ a, c i * -w a * k (p i) (q a) = -∑ a, w a * ∑ i, c i * k (p i) (q a) := by
    rw [Finset.sum_comm, ← Finset.sum_neg_distrib]
    refine Finset.sum_congr rfl fun a _ => ?_
    rw [Finset.mul_sum, ← Finset.sum_neg_distrib]
    exact Finset.sum_congr rfl fun i _ => by ring
  have e2 : ∑ a, ∑ i, -w a * c i * k (q a) (p i) = -∑ a, w a * ∑ i, c i * k (p i) (q a) := by
    rw [← Finset.sum_neg_distrib]
    refine Finset.sum_congr rfl fun a _ => ?_
    rw [Finset.mul_sum, ← Finset.sum_neg_distrib]
    exact Finset.sum_congr rfl fun i _ => by rw [h.symm (q a) (p i)]; ring
  have e3 : ∑ a, ∑ b, -w a * -w b * k (q a) (q b) = ∑ a, ∑ b, w a * w b * k (q a) (q b) :=
    Finset.sum_congr rfl fun a _ => Finset.sum_congr rfl fun b _ => by ring
  rw [e1, e2, e3] at h1
  linarith

theorem predictChecks_cov (xs : List (Fin d → ℝ)) : predictChecks { cov := true } xs = .ok () := by
  simp [predictChecks]

theorem zipIdx_ofFn {α β : Type} (Z : Fin m → α) (f : α × Nat → β) :
    (List.ofFn Z).zipIdx.map f = List.ofFn fun i : Fin m => f (Z i, i.val) := by
  apply List.ext_getElem
  · simp
  · intro i h1 h2
    simp

/-! ## C100 -/

/-- **C100.** Before fitting, `predict(X, return_cov=True)` returns a positive semidefinite matrix, whatever kernel is
built from the kernels of the module with sums, products and powers; its entries are the values of the kernel, with
white noise on the diagonal only (two equal points do not share their noise).

Partial: periodic kernels in more than one dimension are excluded (`C100_refuted_periodic`), and so are Matérn kernels
with other values of `nu` and powers with exponents that are no natural numbers. -/
theorem C100_prior_covariance_partial (k : Kernel d) (hv : k.Valid) (hp : d ≤ 1 ∨ ¬ k.Periodic) (Z : Fin m → Fin d → ℝ) :
    ∃ p, ∃ M : Fin m → Fin m → ℝ, predictPrior (some k) { cov := true } (List.ofFn Z) = .ok p ∧
      p.cov = some (List.ofFn fun i => List.ofFn fun j => M i j) ∧ (Matrix.of M).PosSemidef ∧
      (∀ i, M i i = k.diag (Z i)) ∧ ∀ i j, i ≠ j → M i j = k.value (Z i) (Z j) := by
  refine ⟨⟨(List.ofFn Z).map fun _ => 0, none, some (List.ofFn fun i => List.ofFn fun j => k.gram Z i j), none, none⟩,
    k.gram Z, ?_, rfl, gram_psd k hv hp Z, fun i => by simp [Kernel.gram], fun i j hij => by simp [Kernel.gram, hij]⟩
  unfold predictPrior
  rw [predictChecks_cov]
  simp only [zipIdx_ofFn, Fin.val_inj, Kernel.gram]
  rfl

/-- The surrogate that `gp_minimize` builds for numeric spaces, with its noise term (skopt/utils.py:374-387,
skopt/learning/gaussian_process/gpr.py:186-187). -/
noncomputable def gpKernel (c v : ℝ) (ls : Fin d → ℝ) : Kernel d := .sum (.prod (.const c) (.matern ls .fiveHalves)) (.white v)

example : (gpKernel 1 (1 / 2) fun _ : Fin 3 => 1).Valid ∧ ¬ (gpKernel 1 (1 / 2) fun _ : Fin 3 => 1).Periodic := by
  refine ⟨⟨⟨zero_le_one, fun _ => one_pos, Or.inr (Or.inr rfl)⟩, ?_⟩, ?_⟩
  · show (0 : ℝ) ≤ 1 / 2
    norm_num
  · simp [gpKernel, Kernel.Periodic]

example : (Kernel.prod (.expSine 1 2) (.sum (.rq 1 1) (.expo (.dot 1) 3)) : Kernel 1).Valid :=
  ⟨⟨one_pos, two_pos⟩, ⟨one_pos, one_pos⟩, trivial, 3, by norm_num⟩

/-- **C100.** Fitting never fails for lack of positive definiteness: with a positive `alpha` (or noise) the covariance
of the training points has a Cholesky factor.

Partial: as `C100_prior_covariance_partial`. -/
theorem C100_factor_exists_partial (k : Kernel d) (hv : k.Valid) (hp : d ≤ 1 ∨ ¬ k.Periodic) (X : Fin n → Fin d → ℝ)
    (nz : Fin n → ℝ) (hnz : ∀ i, 0 < nz i) :
    ∃ L : Matrix (Fin n) (Fin n) ℝ, (∀ i j, i < j → L i j = 0) ∧ IsUnit L.det ∧
      L * Lᵀ = Matrix.of (k.gram X) + diagonal nz :=
  cholesky_exists _ (PosDef.posSemidef_add (gram_psd k hv hp X) (PosDef.diagonal hnz))

/-- **C100.** After fitting, `predict(X, return_cov=True)` returns a positive semidefinite matrix, and the variances are
not negative before the code sets negative ones to zero: that step only ever corrects rounding errors.

Partial: as `C100_prior_covariance_partial`. -/
theorem C100_posterior_covariance_partial (g : Gp n d) (hv : g.kernel.Valid) (hp : d ≤ 1 ∨ ¬ g.kernel.Periodic)
    (nz : Fin n → ℝ) (hnz : ∀ i, 0 ≤ nz i) (hf : Factored g (Matrix.of (g.kernel.gram g.X) + diagonal nz))
    (Z : Fin m → Fin d → ℝ) :
    (∃ p, ∃ M : Fin m → Fin m → ℝ, g.predict { cov := true } (List.ofFn Z) = .ok p ∧
      p.cov = some (List.ofFn fun i => List.ofFn fun j => M i j) ∧ (Matrix.of M).PosSemidef) ∧
    ∀ x, 0 ≤ g.rawVar x := by
  have hS : ∀ {m : Nat} (Z : Fin m → Fin d → ℝ), (Matrix.of fun i j : Fin m =>
      (if i = j then g.kernel.diag (Z i) else g.kernel.value (Z i) (Z j)) -
        ∑ a, g.kTrans (Z i) a * ((g.L * g.Lᵀ)⁻¹ *ᵥ g.kTrans (Z j)) a).PosSemidef := by
    intro m Z
    have hG := gram_positive g.kernel hv hp (T := Fin m ⊕ Fin n) (Sum.elim Z g.X)
    have hGm : (Matrix.of (g.kernel.gram Z)).PosSemidef := gram_psd g.kernel hv hp Z
    have hsymm : ∀ i a, g.kernel.gram (Sum.elim Z g.X) (Sum.inl i) (Sum.inr a) = g.kTrans (Z i) a := by
      intro i a
      simp [Kernel.gram, Gp.kTrans]
    rw [hf.1]
    set K := Matrix.of (g.kernel.gram g.X) + diagonal nz with hK
    have hKs : (K⁻¹)ᵀ = K⁻¹ := by rw [transpose_nonsing_inv, hf.symm]
    rw [posSemidef_iff_dotProduct_mulVec]
    constructor
    · ext i j
      simp only [conjTranspose_apply, of_apply, star_trivial]
      have h1 : (if j = i then g.kernel.diag (Z j) else g.kernel.value (Z j) (Z i)) =
          if i = j then g.kernel.diag (Z i) else g.kernel.value (Z i) (Z j) :=
        (gram_positive g.kernel hv hp Z).symm j i
      rw [h1]
      congr 1
      show g.kTrans (Z j) ⬝ᵥ (K⁻¹ *ᵥ g.kTrans (Z i)) = g.kTrans (Z i) ⬝ᵥ (K⁻¹ *ᵥ g.kTrans (Z j))
      rw [dotProduct_mulVec, ← mulVec_transpose, hKs, dotProduct_comm]
    · intro c
      set u : Fin n → ℝ := fun a => ∑ i, c i * g.kTrans (Z i) a with hu
      set w : Fin n → ℝ := K⁻¹ *ᵥ u with hw
      have hKw : K *ᵥ w = u := by rw [hw, mulVec_mulVec, mul_nonsing_inv _ hf.unit, one_mulVec]
      have h2 := hG.two_groups Sum.inl Sum.inr c w
      simp only [hsymm] at h2
      have e1 : ∀ i j : Fin m, g.kernel.gram (Sum.elim Z g.X) (Sum.inl i) (Sum.inl j) = g.kernel.gram Z i j := by
        intro i j
        simp only [Kernel.gram, Sum.elim_inl, Sum.inl.injEq]
      have e2 : ∀ a b : Fin n, g.kernel.gram (Sum.elim Z g.X) (Sum.inr a) (Sum.inr b) = g.kernel.gram g.X a b := by
        intro a b
        simp only [Kernel.gram, Sum.elim_inr, Sum.inr.injEq]
      simp only [e1, e2] at h2
      have e3 : ∑ a, ∑ b, w a * w b * g.kernel.gram g.X a b ≤ w ⬝ᵥ u := by
        have : w ⬝ᵥ u = ∑ a, ∑ b, w a * w b * g.kernel.gram g.X a b + ∑ a, nz a * w a ^ 2 := by
          rw [← hKw, hK, add_mulVec, dotProduct_add]
          congr 1
          · simp only [dotProduct, mulVec, of_apply, Finset.mul_sum]
            exact Finset.sum_congr rfl fun a _ => Finset.sum_congr rfl fun b _ => by ring
          · simp only [dotProduct, mulVec_diagonal]
            exact Finset.sum_congr rfl fun a _ => by ring
        rw [this]
        have : 0 ≤ ∑ a, nz a * w a ^ 2 := Finset.sum_nonneg fun a _ => mul_nonneg (hnz a) (sq_nonneg _)
        linarith
      have e4 : ∑ a, w a * ∑ i, c i * g.kTrans (Z i) a = w ⬝ᵥ u := rfl
      rw [e4] at h2
      have e5 : star c ⬝ᵥ ((Matrix.of fun i j : Fin m => (if i = j then g.kernel.diag (Z i) else
          g.kernel.value (Z i) (Z j)) - ∑ a, g.kTrans (Z i) a * (K⁻¹ *ᵥ g.kTrans (Z j)) a) *ᵥ c) =
          ∑ i, ∑ j, c i * c j * g.kernel.gram Z i j - w ⬝ᵥ u := by
        have hwj : ∀ a, w a = ∑ j, c j * (K⁻¹ *ᵥ g.kTrans (Z j)) a := by
          intro a
          simp only [hw, hu, mulVec, dotProduct, Finset.mul_sum]
          rw [Finset.sum_comm]
          exact Finset.sum_congr rfl fun j _ => Finset.sum_congr rfl fun b _ => by ring
        have hwu : w ⬝ᵥ u = ∑ i, ∑ j, c i * c j * ∑ a, g.kTrans (Z i) a * (K⁻¹ *ᵥ g.kTrans (Z j)) a := by
          simp only [dotProduct, hwj, hu, Finset.mul_sum, Finset.sum_mul]
          rw [Finset.sum_comm]
          refine Finset.sum_congr rfl fun i _ => ?_
          rw [Finset.sum_comm]
          exact Finset.sum_congr rfl fun j _ => Finset.sum_congr rfl fun a _ => by ring
        rw [hwu, ← Finset.sum_sub_distrib]
        simp only [dotProduct, mulVec, of_apply, Pi.star_apply, star_trivial]
        refine Finset.sum_congr rfl fun i _ => ?_
        rw [← Finset.sum_sub_distrib, Finset.mul_sum]
        refine Finset.sum_congr rfl fun j _ => ?_
        simp only [Kernel.gram]
        ring
      rw [e5]
      linarith
  refine ⟨⟨⟨(List.ofFn Z).map g.mean, none, some (g.cov (List.ofFn Z)), none, none⟩,
    fun i j => g.covEntry i j (Z i) (Z j), ?_, ?_, ?_⟩, fun x => ?_⟩
  · unfold Gp.predict
    rw [predictChecks_cov]
    rfl
  · simp only [Gp.cov, zipIdx_ofFn]
  · have h := (hS Z).smul (sq_nonneg g.yStd)
    refine Eq.subst (motive := fun M : Matrix (Fin m) (Fin m) ℝ => M.PosSemidef) ?_ h
    ext i j
    simp only [Matrix.smul_apply, of_apply, Gp.covEntry, smul_eq_mul, Fin.val_inj]
    ring
  · have h := (hS fun _ : Fin 1 => x).diag_nonneg (i := 0)
    simp only [of_apply, if_true] at h
    rw [Gp.rawVar, quad_form, Kinv_eq]
    exact h

/-- Meets the hypotheses of `C100_factor_exists_partial`. -/
example : bothSeen.kernel.Valid ∧ ¬ bothSeen.kernel.Periodic ∧
    Factored bothSeen (Matrix.of (bothSeen.kernel.gram bothSeen.X) + diagonal fun _ => 0) := by
  refine ⟨trivial, fun h => h, ?_⟩
  have : Matrix.of (bothSeen.kernel.gram bothSeen.X) + (diagonal fun _ => (0 : ℝ)) = 1 := by
    ext i j
    fin_cases i <;> fin_cases j <;> simp [bothSeen, Kernel.gram, Kernel.diag, Kernel.value, Fin.sum_univ_two]
  rw [this]
  exact bothSeen_factored

/-- **C100 refuted.** The periodic kernel is no covariance function of points with two coordinates, where it is a
function of their distance: for the origin and two points of the unit circle with distance one and a half the matrix has
no Cholesky factor, even with up to a quarter added to the diagonal, so that fitting raises `LinAlgError`. -/
theorem C100_refuted_periodic : ∃ (k : Kernel 2) (X : Fin 3 → Fin 2 → ℝ), k.Valid ∧
    ∀ alpha : ℝ, alpha ≤ 1 / 4 → ¬ ∃ L : Matrix (Fin 3) (Fin 3) ℝ,
      L * Lᵀ = Matrix.of (k.gram X) + diagonal fun _ => alpha := by
  refine ⟨.expSine 1 1, ![![0, 0], ![1, 0], ![-(1 / 8), Real.sqrt 63 / 8]], ⟨one_pos, one_pos⟩, ?_⟩
  rintro alpha ha ⟨L, hL⟩
  have h63 : Real.sqrt 63 ^ 2 = 63 := Real.sq_sqrt (by norm_num)
  have d01 : kdist (fun _ => 1) ![(0 : ℝ), 0] ![1, 0] = 1 := by
    simp [kdist, kdistSq, kdiff, Fin.sum_univ_two]
  have d02 : kdist (fun _ => 1) ![(0 : ℝ), 0] ![-(1 / 8), Real.sqrt 63 / 8] = 1 := by
    rw [kdist, Real.sqrt_eq_one]
    simp [kdistSq, kdiff, Fin.sum_univ_two, div_pow, h63]
    norm_num
  have d12 : kdist (fun _ => 1) ![(1 : ℝ), 0] ![-(1 / 8), Real.sqrt 63 / 8] = 3 / 2 := by
    rw [kdist, Real.sqrt_eq_iff_mul_self_eq (kdistSq_nonneg' _ _ _) (by norm_num)]
    simp [kdistSq, kdiff, Fin.sum_univ_two, div_pow, h63]
    norm_num
  have s1 : Real.sin (Real.pi * 1 / 1) = 0 := by simp
  have s2 : Real.sin (Real.pi * (3 / 2) / 1) ^ 2 = 1 := by
    have : Real.pi * (3 / 2) / 1 = Real.pi / 2 + Real.pi := by ring
    rw [this, Real.sin_add_pi, Real.sin_pi_div_two]
    norm_num
  have v01 : (Kernel.expSine 1 1).value ![(0 : ℝ), 0] ![1, 0] = 1 := by
    rw [Kernel.value, d01, s1]
    simp
  have v02 : (Kernel.expSine 1 1).value ![(0 : ℝ), 0] ![-(1 / 8), Real.sqrt 63 / 8] = 1 := by
    rw [Kernel.value, d02, s1]
    simp
  have v12 : (Kernel.expSine 1 1).value ![(1 : ℝ), 0] ![-(1 / 8), Real.sqrt 63 / 8] = Real.exp (-2) := by
    rw [Kernel.value, d12, div_one, s2, mul_one]
  have hentry : ∀ i j, (L * Lᵀ) i j = ∑ a, L i a * L j a := fun i j => rfl
  have e00 := congrFun (congrFun hL 0) 0
  have e11 := congrFun (congrFun hL 1) 1
  have e22 := congrFun (congrFun hL 2) 2
  have e01 := congrFun (congrFun hL 0) 1
  have e02 := congrFun (congrFun hL 0) 2
  have e12 := congrFun (congrFun hL 1) 2
  rw [hentry] at e00 e11 e22 e01 e02 e12
  simp only [Matrix.add_apply, of_apply, Kernel.gram, diagonal_apply, Fin.sum_univ_three] at e00 e11 e22 e01 e02 e12
  simp [Kernel.diag] at e00 e11 e22
  simp only [Fin.isValue, show ¬ ((0 : Fin 3) = 1) by decide, show ¬ ((0 : Fin 3) = 2) by decide,
    show ¬ ((1 : Fin 3) = 2) by decide, if_false, add_zero] at e01 e02 e12
  rw [show (![![(0 : ℝ), 0], ![1, 0], ![-(1 / 8), Real.sqrt 63 / 8]] : Fin 3 → Fin 2 → ℝ) 0 = ![0, 0] from rfl] at e01 e02
  rw [show (![![(0 : ℝ), 0], ![1, 0], ![-(1 / 8), Real.sqrt 63 / 8]] : Fin 3 → Fin 2 → ℝ) 1 = ![1, 0] from rfl] at e01 e12
  rw [show (![![(0 : ℝ), 0], ![1, 0], ![-(1 / 8), Real.sqrt 63 / 8]] : Fin 3 → Fin 2 → ℝ) 2 =
    ![-(1 / 8), Real.sqrt 63 / 8] from rfl] at e02 e12
  rw [v01] at e01
  rw [v02] at e02
  rw [v12] at e12
  have hexp : Real.exp (-2) < 1 / 4 := by
    have h1 : (2 : ℝ) < Real.exp 1 := by
      have := Real.add_one_lt_exp (one_ne_zero (α := ℝ))
      linarith
    have h2 : (4 : ℝ) < Real.exp 2 := by
      have : Real.exp 2 = Real.exp 1 * Real.exp 1 := by rw [← Real.exp_add]; norm_num
      nlinarith
    rw [Real.exp_neg, inv_lt_comm₀ (Real.exp_pos 2) (by norm_num)]
    simpa using h2
  have hsq := add_nonneg (add_nonneg (sq_nonneg (-2 * L 0 0 + L 1 0 + L 2 0)) (sq_nonneg (-2 * L 0 1 + L 1 1 + L 2 1)))
    (sq_nonneg (-2 * L 0 2 + L 1 2 + L 2 2))
  nlinarith

end Skopt

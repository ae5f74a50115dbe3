import Verif.Props.KernelCovariance
import Verif.Props.GaussianProcess

/-!
# C109: the order of the observations does not matter for the Gaussian process
-/

namespace Skopt

open Matrix

variable {n d : Nat}

/-! ## Specification -/

/-- `y_train_mean_` and `y_train_std_` (scikit-learn's `fit`): the mean and the standard deviation of the observed
values, one in place of a vanishing standard deviation; zero and one without normalisation. -/
def NormalisedBy (norm : Bool) (y : Fin n → ℝ) (mu sigma : ℝ) : Prop :=
  if norm then mu = (∑ i, y i) / n ∧
    sigma = (let s := Real.sqrt ((∑ i, (y i - mu) ^ 2) / n); if s = 0 then 1 else s)
  else mu = 0 ∧ sigma = 1

/-- What scikit-learn's `fit` promises for the kernel `k` with the hyperparameters it has chosen and the values `alpha`
added to the diagonal: mean and standard deviation of the values, a factor of the covariance matrix, the dual
coefficients. -/
structure FitsData (g : Gp n d) (k : Kernel d) (norm : Bool) (X : Fin n → Fin d → ℝ) (y alpha : Fin n → ℝ) : Prop where
  inputs : g.X = X
  scale : NormalisedBy norm y g.yMean g.yStd
  fitted : Fitted g (Matrix.of (k.gram X) + diagonal alpha) fun i => (y i - g.yMean) / g.yStd

/-! ## Lemmas -/

theorem NormalisedBy.perm {norm : Bool} {y : Fin n → ℝ} {m s m' s' : ℝ} (σ : Equiv.Perm (Fin n))
    (h : NormalisedBy norm y m s) (h' : NormalisedBy norm (y ∘ σ) m' s') : m' = m ∧ s' = s := by
  cases norm with
  | false => exact ⟨h'.1.trans h.1.symm, h'.2.trans h.2.symm⟩
  | true =>
    obtain ⟨h1, h2⟩ := h
    obtain ⟨h1', h2'⟩ := h'
    have e : m' = m := by
      rw [h1, h1', ← Equiv.sum_comp σ y]
      rfl
    refine ⟨e, ?_⟩
    rw [h2, h2', e, ← Equiv.sum_comp σ fun i => (y i - m) ^ 2]
    rfl

theorem gram_perm (k : Kernel d) (X : Fin n → Fin d → ℝ) (alpha : Fin n → ℝ) (σ : Equiv.Perm (Fin n)) :
    Matrix.of (k.gram (X ∘ σ)) + diagonal (alpha ∘ σ) = (Matrix.of (k.gram X) + diagonal alpha).submatrix σ σ := by
  ext i j
  by_cases h : i = j
  · subst h
    simp [Kernel.gram]
  · simp [Kernel.gram, h, σ.injective.ne h]

theorem call_uniform (k : Kernel d) (r : Nat) (x : Fin d → ℝ) :
    (∃ e, ∀ y, k.call r x y = .error e) ∨ ∃ f : (Fin d → ℝ) → ℝ, ∀ y, k.call r x y = .ok (f y) := by
  induction k with
  | const c => exact .inr ⟨_, fun _ => rfl⟩
  | white v => exact .inr ⟨_, fun _ => rfl⟩
  | sum a b iha ihb =>
    simp only [Kernel.call]
    rcases iha with ⟨e, h⟩ | ⟨f, h⟩
    · exact .inl ⟨e, fun y => by rw [h]; rfl⟩
    · rcases ihb with ⟨e, h'⟩ | ⟨f', h'⟩
      · exact .inl ⟨e, fun y => by rw [h, h']; rfl⟩
      · exact .inr ⟨_, fun y => by rw [h, h']; rfl⟩
  | prod a b iha ihb =>
    simp only [Kernel.call]
    rcases iha with ⟨e, h⟩ | ⟨f, h⟩
    · exact .inl ⟨e, fun y => by rw [h]; rfl⟩
    · rcases ihb with ⟨e, h'⟩ | ⟨f', h'⟩
      · exact .inl ⟨e, fun y => by rw [h, h']; rfl⟩
      · exact .inr ⟨_, fun y => by rw [h, h']; rfl⟩
  | expo a p iha =>
    simp only [Kernel.call]
    rcases iha with ⟨e, h⟩ | ⟨f, h⟩
    · exact .inl ⟨e, fun y => by rw [h]; rfl⟩
    · exact .inr ⟨_, fun y => by rw [h]; rfl⟩
  | _ =>
    simp only [Kernel.call]
    by_cases h : r ≤ 1
    · simp only [if_pos h]; exact .inr ⟨_, fun _ => rfl⟩
    · simp only [if_neg h]; exact .inl ⟨_, fun _ => rfl⟩

theorem gradRow_uniform (k : Kernel d) (r : Nat) (x : Fin d → ℝ) :
    (∃ e, ∀ y, k.gradRow r x y = .error e) ∨ ∃ f : (Fin d → ℝ) → Fin d → ℝ, ∀ y, k.gradRow r x y = .ok (f y) := by
  induction k generalizing r with
  | sum a b iha ihb =>
    simp only [Kernel.gradRow]
    rcases iha r with ⟨e, h⟩ | ⟨f, h⟩
    · exact .inl ⟨e, fun y => by rw [h]; rfl⟩
    · rcases ihb r with ⟨e, h'⟩ | ⟨f', h'⟩
      · exact .inl ⟨e, fun y => by rw [h, h']; rfl⟩
      · exact .inr ⟨_, fun y => by rw [h, h']; rfl⟩
  | prod a b iha ihb =>
    simp only [Kernel.gradRow]
    rcases call_uniform a (r + 1) x with ⟨e, h⟩ | ⟨f, h⟩
    · exact .inl ⟨e, fun y => by rw [h]; rfl⟩
    rcases call_uniform b (r + 1) x with ⟨e, h'⟩ | ⟨f', h'⟩
    · exact .inl ⟨e, fun y => by rw [h, h']; rfl⟩
    rcases ihb (r + 1) with ⟨e, g⟩ | ⟨f2, g⟩
    · exact .inl ⟨e, fun y => by rw [h, h', g]; rfl⟩
    rcases iha (r + 1) with ⟨e, g'⟩ | ⟨f3, g'⟩
    · exact .inl ⟨e, fun y => by rw [h, h', g, g']; rfl⟩
    · exact .inr ⟨_, fun y => by rw [h, h', g, g']; rfl⟩
  | expo a p iha =>
    simp only [Kernel.gradRow]
    rcases call_uniform a (r + 1) x with ⟨e, h⟩ | ⟨f, h⟩
    · exact .inl ⟨e, fun y => by rw [h]; rfl⟩
    rcases iha r with ⟨e, g⟩ | ⟨f2, g⟩
    · exact .inl ⟨e, fun y => by rw [h, g]; rfl⟩
    · exact .inr ⟨_, fun y => by rw [h, g]; rfl⟩
  | const c => exact .inr ⟨_, fun _ => rfl⟩
  | white v => exact .inr ⟨_, fun _ => rfl⟩
  | dot s => exact .inr ⟨_, fun _ => rfl⟩
  | hamming l => exact .inl ⟨_, fun _ => rfl⟩
  | matern ls nu =>
    cases nu with
    | half =>
      simp only [Kernel.gradRow]
      split
      · exact .inr ⟨_, fun _ => rfl⟩
      · split
        · split
          · exact .inr ⟨_, fun _ => rfl⟩
          · exact .inl ⟨_, fun _ => rfl⟩
        · exact .inl ⟨_, fun _ => rfl⟩
    | other f => exact .inl ⟨_, fun _ => rfl⟩
    | _ =>
      simp only [Kernel.gradRow]
      split
      · exact .inr ⟨_, fun _ => rfl⟩
      · exact .inl ⟨_, fun _ => rfl⟩
  | _ =>
    simp only [Kernel.gradRow]
    split
    · exact .inr ⟨_, fun _ => rfl⟩
    · exact .inl ⟨_, fun _ => rfl⟩

theorem mapE_error_of_all {α β : Type} {g : α → Except PyErr β} {e : PyErr} (h : ∀ a, g a = .error e) {l : List α}
    (hl : l ≠ []) : mapE g l = .error e := by
  cases l with
  | nil => exact absurd rfl hl
  | cons a l => simp only [mapE, h]

theorem mapE_ok_of_all {α β : Type} {g : α → Except PyErr β} {f : α → β} (h : ∀ a, g a = .ok (f a)) (l : List α) :
    mapE g l = .ok (l.map f) := by
  induction l with
  | nil => rfl
  | cons a l ih => simp only [mapE, h, ih, List.map_cons]

theorem gradient_perm {g g' : Gp n d} (hk : g'.kernel = g.kernel) (σ : Equiv.Perm (Fin n)) (hX : g'.X = g.X ∘ σ)
    (x : Fin d → ℝ) :
    (∃ e, g.gradient x = .error e ∧ g'.gradient x = .error e) ∨
      ∃ G, g.gradient x = .ok G ∧ g'.gradient x = .ok (G ∘ σ) := by
  unfold Gp.gradient Kernel.gradientX
  rw [hk]
  rcases gradRow_uniform g.kernel 0 x with ⟨e, h⟩ | ⟨f, h⟩
  · rcases Nat.eq_zero_or_pos n with rfl | hn
    · refine .inr ⟨fun i => i.elim0, ?_, ?_⟩
      · simp only [List.ofFn_zero, mapE, ok_bind, Except.ok.injEq]
        funext i; exact i.elim0
      · simp only [List.ofFn_zero, mapE, ok_bind, Except.ok.injEq]
        funext i; exact i.elim0
    · refine .inl ⟨e, ?_, ?_⟩
      · rw [mapE_error_of_all h (by intro h0; simpa [hn.ne'] using congrArg List.length h0)]; rfl
      · rw [mapE_error_of_all h (by intro h0; simpa [hn.ne'] using congrArg List.length h0)]; rfl
  · refine .inr ⟨fun i => f (g.X i), ?_, ?_⟩
    · rw [mapE_ok_of_all h, ok_bind]
      congr 1
      funext i
      simp [List.getD_eq_getElem?_getD]
    · rw [mapE_ok_of_all h, ok_bind, hX]
      congr 1
      funext i
      simp [List.getD_eq_getElem?_getD]

/-! ## C109 -/

/-- **C109.** Fitted to the same observations in another order, with the same kernel, the Gaussian process gives the
same answer to every call of `predict`: means, standard deviations, covariances, gradients and exceptions. -/
theorem C109_order_of_observations (g g' : Gp n d) (k : Kernel d) (norm : Bool) (X : Fin n → Fin d → ℝ)
    (y alpha : Fin n → ℝ) (σ : Equiv.Perm (Fin n)) (hk : g'.kernel = g.kernel) (h : FitsData g k norm X y alpha)
    (h' : FitsData g' k norm (X ∘ σ) (y ∘ σ) (alpha ∘ σ)) (fl : PredictFlags) (xs : List (Fin d → ℝ)) :
    g'.predict fl xs = g.predict fl xs := by
  obtain ⟨e1, e2⟩ := h.scale.perm σ h'.scale
  have hK := gram_perm k X alpha σ
  have hL := h.fitted.1
  have hL' := h'.fitted.1
  rw [hK] at hL'
  have hinv : (g'.L * g'.Lᵀ)⁻¹ = ((g.L * g.Lᵀ)⁻¹).submatrix σ σ := by
    rw [hL', hL]
    exact inv_submatrix_equiv (Matrix.of (k.gram X) + diagonal alpha) σ σ
  have hKinv : g'.Kinv = g.Kinv.submatrix σ σ := by rw [Kinv_eq, Kinv_eq, hinv]
  have halpha : g'.alpha = g.alpha ∘ σ := by
    rw [h'.fitted.2, h.fitted.2, hK, inv_submatrix_equiv, e1, e2]
    funext i
    simp only [mulVec, dotProduct, submatrix_apply, Function.comp]
    exact Equiv.sum_comp σ fun j => (Matrix.of (k.gram X) + diagonal alpha)⁻¹ (σ i) j * ((y j - g.yMean) / g.yStd)
  have hX : g'.X = g.X ∘ σ := by rw [h'.inputs, h.inputs]
  have hkt : ∀ x, g'.kTrans x = g.kTrans x ∘ σ := by
    intro x
    funext i
    simp only [Gp.kTrans, hk, hX, Function.comp]
  have hmean : ∀ x, g'.mean x = g.mean x := by
    intro x
    unfold Gp.mean
    rw [e1, e2, hkt, halpha]
    congr 2
    exact Equiv.sum_comp σ fun i => g.kTrans x i * g.alpha i
  have hvar : ∀ x, g'.rawVar x = g.rawVar x := by
    intro x
    unfold Gp.rawVar
    rw [hk, hkt, hKinv]
    congr 1
    rw [← Equiv.sum_comp σ fun i => ∑ j, g.kTrans x i * g.kTrans x j * g.Kinv i j]
    refine Finset.sum_congr rfl fun i _ => ?_
    exact Equiv.sum_comp σ fun j => g.kTrans x (σ i) * g.kTrans x j * g.Kinv (σ i) j
  have hstd : ∀ x, g'.std x = g.std x := by
    intro x
    unfold Gp.std
    rw [hvar, e2]
  have hcov : ∀ i j x z, g'.covEntry i j x z = g.covEntry i j x z := by
    intro i j x z
    unfold Gp.covEntry
    rw [hk, e2, hinv, hkt, hkt]
    congr 2
    rw [← Equiv.sum_comp σ fun a => g.kTrans x a * ((g.L * g.Lᵀ)⁻¹ *ᵥ g.kTrans z) a]
    refine Finset.sum_congr rfl fun a _ => ?_
    simp only [mulVec, dotProduct, submatrix_apply, Function.comp]
    congr 1
    exact Equiv.sum_comp σ fun b => (g.L * g.Lᵀ)⁻¹ (σ a) b * g.kTrans z b
  have hgm : ∀ G : Fin n → Fin d → ℝ, g'.gradMean (G ∘ σ) = g.gradMean G := by
    intro G
    funext j
    unfold Gp.gradMean
    rw [e2, halpha]
    congr 1
    exact Equiv.sum_comp σ fun i => G i j * g.alpha i
  have hgs : ∀ x (G : Fin n → Fin d → ℝ), g'.gradStd x (G ∘ σ) = g.gradStd x G := by
    intro x G
    unfold Gp.gradStd
    rw [hstd, e2, hkt, hKinv]
    congr 1
    funext j
    congr 3
    rw [← Equiv.sum_comp σ fun a => g.kTrans x a * ∑ b, g.Kinv a b * G b j]
    refine Finset.sum_congr rfl fun a _ => ?_
    simp only [submatrix_apply, Function.comp]
    congr 1
    exact Equiv.sum_comp σ fun b => g.Kinv (σ a) b * G b j
  unfold Gp.predict
  have m1 : xs.map g'.mean = xs.map g.mean := List.map_congr_left fun x _ => hmean x
  have m2 : xs.map g'.std = xs.map g.std := List.map_congr_left fun x _ => hstd x
  have m3 : g'.cov xs = g.cov xs := by
    unfold Gp.cov
    simp only [hcov]
  rw [m1, m2, m3]
  cases predictChecks fl xs with
  | error e => rfl
  | ok u =>
    simp only [ok_bind]
    split
    · rfl
    · split
      · cases xs with
        | nil => rfl
        | cons x xs =>
          simp only
          rcases gradient_perm hk σ hX x with ⟨e, g1, g2⟩ | ⟨G, g1, g2⟩
          · rw [g1, g2]; rfl
          · rw [g1, g2, ok_bind, ok_bind, hgm, hgs]
      · rfl

/-- Two observations, 1 at the point 3 and 3 at the point 4, with different noise, in either order: the factors are
different matrices. -/
noncomputable def twoObs (swap : Bool) : Gp 2 1 :=
  let y : Fin 2 → ℝ := if swap then ![1, -1] else ![-1, 1]
  { kernel := .dot 0
    X := if swap then ![![4], ![3]] else ![![3], ![4]]
    L := if swap then !![5, 0; 12 / 5, 16 / 5] else !![4, 0; 3, 4]
    alpha := (if swap then !![25, 12; 12, 16] else !![16, 12; 12, 25])⁻¹ *ᵥ y
    yMean := 2
    yStd := 1 }

theorem twoObs_fits :
    FitsData (twoObs false) (.dot 0) true ![![3], ![4]] ![1, 3] ![7, 9] ∧
      FitsData (twoObs true) (.dot 0) true (![![3], ![4]] ∘ Equiv.swap 0 1) (![1, 3] ∘ Equiv.swap 0 1)
        (![7, 9] ∘ Equiv.swap 0 1) := by
  have e1 : (Matrix.of ((Kernel.dot 0 : Kernel 1).gram ![![3], ![4]]) + diagonal ![7, 9] : Matrix (Fin 2) (Fin 2) ℝ) =
      !![16, 12; 12, 25] := by
    ext i j
    fin_cases i <;> fin_cases j <;> norm_num [Kernel.gram, Kernel.value, Kernel.diag]
  have e2 : (Matrix.of ((Kernel.dot 0 : Kernel 1).gram (![![3], ![4]] ∘ Equiv.swap 0 1)) +
      diagonal (![7, 9] ∘ Equiv.swap 0 1) : Matrix (Fin 2) (Fin 2) ℝ) = !![25, 12; 12, 16] := by
    ext i j
    fin_cases i <;> fin_cases j <;> norm_num [Kernel.gram, Kernel.value, Kernel.diag]
  refine ⟨⟨rfl, ?_, ?_, ?_⟩, ⟨?_, ?_, ?_, ?_⟩⟩
  · norm_num [NormalisedBy, twoObs]
  · rw [e1]
    ext i j
    fin_cases i <;> fin_cases j <;> norm_num [twoObs, Matrix.mul_apply, Fin.sum_univ_two]
  · rw [e1]
    simp only [twoObs]
    congr 1
    funext i
    fin_cases i <;> norm_num
  · funext i j
    fin_cases i <;> simp [twoObs]
  · norm_num [NormalisedBy, twoObs]
  · rw [e2]
    ext i j
    fin_cases i <;> fin_cases j <;> norm_num [twoObs, Matrix.mul_apply, Fin.sum_univ_two]
  · rw [e2]
    simp only [twoObs]
    congr 1
    funext i
    fin_cases i <;> norm_num

/-- The answer with standard deviation and gradients at the point 5 is the same. -/
example : (twoObs true).predict { std := true, meanGrad := true, stdGrad := true } [![5]] =
    (twoObs false).predict { std := true, meanGrad := true, stdGrad := true } [![5]] :=
  C109_order_of_observations (twoObs false) (twoObs true) (.dot 0) true _ _ _ (Equiv.swap 0 1) rfl twoObs_fits.1 twoObs_fits.2 _ _

end Skopt

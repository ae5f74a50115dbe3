import Verif.Model.Hamming
import Verif.Lemmas.Basic
import Mathlib.Analysis.SpecialFunctions.ExpDeriv
import Mathlib.Analysis.SpecialFunctions.Log.Basic
import Mathlib.Algebra.BigOperators.Ring.Finset
import Mathlib.Algebra.Order.BigOperators.Ring.Finset

/-!
# C56: the Hamming kernel
-/

namespace Skopt

variable {V : Type} [DecidableEq V] {d : Nat}

/-! ## Specification -/

/-- The length scale of every feature: a number, or a sequence of one number, applies to all. -/
def ScaleOf (d : Nat) : LengthScale → (Fin d → ℝ) → Prop
  | .scalar l, s => ∀ i, s i = l
  | .vector ls, s => (ls.length = 1 ∧ ∀ i, ls[0]? = some (s i)) ∨
      (1 < ls.length ∧ ls.length = d ∧ ∀ i : Fin d, ls[i.val]? = some (s i))

/-- The covariance of the documentation: `exp` of minus the sum of the scales of the features that differ. -/
noncomputable def hammingCov (s : Fin d → ℝ) (x y : Fin d → V) : ℝ :=
  Real.exp (-∑ i with x i ≠ y i, s i)

/-- A symmetric function is a covariance function: no combination of finitely many points has negative variance. -/
def PositiveKernel {T : Type} (k : T → T → ℝ) : Prop :=
  (∀ x y, k x y = k y x) ∧
  ∀ (n : Nat) (pts : Fin n → T) (c : Fin n → ℝ), 0 ≤ ∑ i, ∑ j, c i * c j * k (pts i) (pts j)

/-! ## Lemmas -/

theorem hammingValue_eq (s : Fin d → ℝ) (x y : Fin d → V) : hammingValue s x y = hammingCov s x y := by
  simp only [hammingValue, hammingCov, indicator, mul_ite, mul_one, mul_zero]
  rw [Finset.sum_filter]

theorem perFeature_scale {ls : LengthScale} {s : Fin d → ℝ} (h : ls.perFeature d = .ok s) : ScaleOf d ls s := by
  match ls, h with
  | .scalar l, h => cases h; exact fun _ => rfl
  | .vector [l], h => cases h; exact .inl ⟨rfl, fun _ => rfl⟩
  | .vector (l :: l' :: ls), h =>
    simp only [LengthScale.perFeature] at h
    split_ifs at h with hd
    cases h
    refine .inr ⟨by simp, (not_not.1 hd).symm, fun i => ?_⟩
    have hi : i.val < (l :: l' :: ls).length := by rw [← not_not.1 hd]; exact i.isLt
    simp only [List.getD_eq_getElem?_getD, List.getElem?_eq_getElem hi, Option.getD_some]

theorem perFeature_ok (ls : LengthScale) :
    (∃ s, ls.perFeature d = .ok s) ↔ (∃ s, ScaleOf d ls s) := by
  constructor
  · rintro ⟨s, h⟩; exact ⟨s, perFeature_scale h⟩
  · rintro ⟨s, h⟩
    match ls, h with
    | .scalar l, _ => exact ⟨_, rfl⟩
    | .vector [], h => rcases h with ⟨h, _⟩ | ⟨h, _⟩ <;> simp at h
    | .vector [l], _ => exact ⟨_, rfl⟩
    | .vector (l :: l' :: ls), h =>
      rcases h with ⟨h, _⟩ | ⟨_, h, _⟩
      · simp at h
      · exact ⟨_, by simp only [LengthScale.perFeature, ← h, ne_eq, not_true_eq_false, if_false]; rfl⟩

theorem cov_sum_nonneg {s : Fin d → ℝ} (hs : ∀ i, 0 ≤ s i) (x y : Fin d → V) : 0 ≤ ∑ i with x i ≠ y i, s i :=
  Finset.sum_nonneg fun i _ => hs i

theorem cov_symm (s : Fin d → ℝ) (x y : Fin d → V) : hammingCov s x y = hammingCov s y x := by
  unfold hammingCov
  simp only [ne_comm]

/-- Multiplying by an equality test keeps positivity. -/
theorem positive_equal {n : Nat} {T : Type} [DecidableEq T] (M : Fin n → Fin n → ℝ)
    (hM : ∀ c : Fin n → ℝ, 0 ≤ ∑ i, ∑ j, c i * c j * M i j) (f : Fin n → T) (c : Fin n → ℝ) :
    0 ≤ ∑ i, ∑ j, c i * c j * (M i j * if f i = f j then 1 else 0) := by
  have h : ∑ i, ∑ j, c i * c j * (M i j * if f i = f j then 1 else 0) =
      ∑ v ∈ Finset.univ.image f, ∑ i, ∑ j, (if f i = v then c i else 0) * (if f j = v then c j else 0) * M i j := by
    rw [Finset.sum_comm]
    rw [Finset.sum_comm (s := Finset.univ.image f)]
    have hr : ∀ i : Fin n, ∑ v ∈ Finset.univ.image f, ∑ j, (if f i = v then c i else 0) *
        (if f j = v then c j else 0) * M i j = ∑ j, c i * (if f j = f i then c j else 0) * M i j := by
      intro i
      rw [Finset.sum_comm]
      refine Finset.sum_congr rfl fun j _ => ?_
      rw [Finset.sum_eq_single_of_mem (f i) (Finset.mem_image_of_mem f (Finset.mem_univ i))]
      · simp
      · intro v _ hv
        simp [Ne.symm hv]
    rw [Finset.sum_congr rfl fun i _ => hr i, Finset.sum_comm]
    refine Finset.sum_congr rfl fun j _ => Finset.sum_congr rfl fun i _ => ?_
    by_cases hij : f i = f j
    · simp [hij]
    · simp [hij, Ne.symm hij]
  rw [h]
  exact Finset.sum_nonneg fun v _ => hM _

theorem positive_coordinates {n : Nat} (s : Fin d → ℝ) (hs : ∀ i, 0 ≤ s i) (pts : Fin n → Fin d → V)
    (S : Finset (Fin d)) (c : Fin n → ℝ) :
    0 ≤ ∑ i, ∑ j, c i * c j * ∏ k ∈ S, (if pts i k = pts j k then 1 else Real.exp (-s k)) := by
  classical
  induction S using Finset.induction_on generalizing c with
  | empty =>
    simp only [Finset.prod_empty, mul_one]
    have : ∑ i, ∑ j, c i * c j = (∑ i, c i) * ∑ j, c j := by rw [Finset.sum_mul_sum]
    rw [this]
    exact mul_self_nonneg _
  | insert k S hk ih =>
    have hsplit : ∀ i j : Fin n, c i * c j * ∏ k ∈ insert k S, (if pts i k = pts j k then 1 else Real.exp (-s k)) =
        Real.exp (-s k) * (c i * c j * ∏ k ∈ S, (if pts i k = pts j k then 1 else Real.exp (-s k))) +
        (1 - Real.exp (-s k)) * (c i * c j * ((∏ k ∈ S, (if pts i k = pts j k then 1 else Real.exp (-s k))) *
          if pts i k = pts j k then 1 else 0)) := by
      intro i j
      rw [Finset.prod_insert hk]
      by_cases h : pts i k = pts j k
      · simp only [h, if_true]; ring
      · simp only [h, if_false]; ring
    simp only [hsplit, Finset.sum_add_distrib, ← Finset.mul_sum]
    have h1 : Real.exp (-s k) ≤ 1 := Real.exp_le_one_iff.2 (by have := hs k; linarith)
    refine add_nonneg (mul_nonneg (Real.exp_pos _).le (ih c)) (mul_nonneg (by linarith) ?_)
    exact positive_equal _ ih (fun i => pts i k) c

theorem cov_prod (s : Fin d → ℝ) (x y : Fin d → V) :
    hammingCov s x y = ∏ k, (if x k = y k then 1 else Real.exp (-s k)) := by
  unfold hammingCov
  rw [← Finset.sum_neg_distrib, Finset.sum_filter, Real.exp_sum]
  refine Finset.prod_congr rfl fun k _ => ?_
  by_cases h : x k = y k <;> simp [h]

/-! ## C56 -/

/-- **C56.** Calling the Hamming kernel succeeds exactly if the length scale is a number, a sequence of one number or
of one number per feature, and returns for every pair of rows `exp` of minus the sum of the length scales of the
features in which they differ. -/
theorem C56_hamming_values (ls : LengthScale) (xs ys : List (Fin d → V)) :
    ((∃ K, hammingCall ls xs ys = .ok K) ↔ ∃ s, ScaleOf d ls s) ∧
    ∀ K, hammingCall ls xs ys = .ok K → ∃ s, ScaleOf d ls s ∧
      K = xs.map fun x => ys.map fun y => hammingCov s x y := by
  have hb : ∀ r : Except PyErr (Fin d → ℝ), (∃ K, (r.bind fun s => Except.ok (ε := PyErr)
      (xs.map fun x => ys.map fun y => hammingValue s x y)) = .ok K) ↔ ∃ s, r = .ok s := by
    intro r
    cases r <;> simp [Except.bind]
  constructor
  · rw [← perFeature_ok]
    exact hb _
  · intro K h
    cases hp : ls.perFeature d with
    | error e => simp only [hammingCall, hp, bind, Except.bind] at h; cases h
    | ok s =>
      simp only [hammingCall, hp, bind, Except.bind] at h
      cases h
      exact ⟨s, perFeature_scale hp, by simp only [hammingValue_eq]⟩

/-- Two rows that differ in the second of two features. -/
def hammingRows : List (Fin 2 → String) := [fun _ => "a", fun i => if i = 0 then "a" else "b"]

/-- Meets the hypotheses of `C56_hamming_values`. -/
example : ∃ K, hammingCall (.vector [1, 2]) hammingRows hammingRows = .ok K :=
  ⟨_, rfl⟩

/-- **C56.** With length scales that are not negative the kernel is a covariance function (symmetric and positive
semidefinite) with values in `(0, 1]` and one on the diagonal; if the length scales are positive, it is one only for
equal rows. -/
theorem C56_hamming_covariance (s : Fin d → ℝ) (hs : ∀ i, 0 ≤ s i) :
    PositiveKernel (fun x y : Fin d → V => hammingValue s x y) ∧
    (∀ x y : Fin d → V, 0 < hammingValue s x y ∧ hammingValue s x y ≤ 1) ∧
    (∀ x : Fin d → V, hammingValue s x x = 1) ∧
    ((∀ i, 0 < s i) → ∀ x y : Fin d → V, hammingValue s x y = 1 → x = y) := by
  refine ⟨⟨?_, ?_⟩, ?_, ?_, ?_⟩
  · intro x y
    simp only [hammingValue_eq]
    exact cov_symm s x y
  · intro n pts c
    simp only [hammingValue_eq, cov_prod]
    exact positive_coordinates s hs pts Finset.univ c
  · intro x y
    rw [hammingValue_eq]
    exact ⟨Real.exp_pos _, Real.exp_le_one_iff.2 (neg_nonpos.2 (cov_sum_nonneg hs x y))⟩
  · intro x
    simp [hammingValue, indicator]
  · intro hpos x y h
    rw [hammingValue_eq, hammingCov, Real.exp_eq_one_iff, neg_eq_zero] at h
    rw [Finset.sum_eq_zero_iff_of_nonneg fun i _ => hs i] at h
    funext i
    by_contra hne
    exact (hpos i).ne' (h i (Finset.mem_filter.2 ⟨Finset.mem_univ i, hne⟩))

example : (∀ i : Fin 2, 0 ≤ (fun _ => (1 : ℝ)) i) ∧ (fun _ => "a" : Fin 2 → String) ≠ fun _ => "b" :=
  ⟨fun _ => zero_le_one, fun h => by have := congrFun h 0; revert this; decide⟩

/-- **C56.** The gradient returned with an anisotropic kernel: component `j` is the derivative of the covariance with
respect to the logarithm of the length scale of feature `j`. -/
theorem C56_hamming_gradient (s : Fin d → ℝ) (l : ℝ) (hs : ∀ i, 0 < s i) (x y : Fin d → V) (j : Fin d) :
    ∃ g, (hammingGrad true s l x y)[j.val]? = some g ∧ (hammingGrad true s l x y).length = d ∧
      HasDerivAt (fun t => hammingCov (Function.update s j (Real.exp t)) x y) g (Real.log (s j)) := by
  refine ⟨-hammingValue s x y * indicator x y j * s j, ?_, by simp [hammingGrad], ?_⟩
  · simp [hammingGrad]
  · have hsum : ∀ t : ℝ, (∑ i, Function.update s j (Real.exp t) i * indicator x y i) =
        Real.exp t * indicator x y j + ∑ i ∈ Finset.univ.erase j, s i * indicator x y i := by
      intro t
      rw [← Finset.add_sum_erase _ _ (Finset.mem_univ j), Function.update_self]
      congr 1
      refine Finset.sum_congr rfl fun i hi => ?_
      rw [Function.update_of_ne (Finset.ne_of_mem_erase hi)]
    have hfun : (fun t => hammingCov (Function.update s j (Real.exp t)) x y) = fun t =>
        Real.exp (-(Real.exp t * indicator x y j + ∑ i ∈ Finset.univ.erase j, s i * indicator x y i)) := by
      funext t
      rw [← hammingValue_eq, hammingValue, hsum]
    rw [hfun]
    have h1 : HasDerivAt (fun t : ℝ => -(Real.exp t * indicator x y j +
        ∑ i ∈ Finset.univ.erase j, s i * indicator x y i))
        (-(Real.exp (Real.log (s j)) * indicator x y j)) (Real.log (s j)) :=
      (((Real.hasDerivAt_exp _).mul_const _).add_const _).fun_neg
    refine h1.exp.congr_deriv ?_
    rw [Real.exp_log (hs j)]
    have : s j * indicator x y j + ∑ i ∈ Finset.univ.erase j, s i * indicator x y i =
        ∑ i, s i * indicator x y i := Finset.add_sum_erase _ (fun i => s i * indicator x y i) (Finset.mem_univ j)
    rw [this, hammingValue]
    ring

example : ∀ i : Fin 2, 0 < (fun _ => (2 : ℝ)) i := fun _ => two_pos

/-- **C56.** The gradient returned with an isotropic kernel: its only component is the derivative of the covariance
with respect to the logarithm of the length scale. -/
theorem C56_hamming_gradient_isotropic (l : ℝ) (hl : 0 < l) (x y : Fin d → V) :
    ∃ g, hammingGrad false (fun _ => l) l x y = [g] ∧
      HasDerivAt (fun t => hammingCov (fun _ => Real.exp t) x y) g (Real.log l) := by
  refine ⟨_, rfl, ?_⟩
  have hfun : (fun t => hammingCov (fun _ => Real.exp t) x y) = fun t =>
      Real.exp (-(Real.exp t * ∑ i, indicator x y i)) := by
    funext t
    rw [← hammingValue_eq, hammingValue, Finset.mul_sum]
  rw [hfun]
  have h1 : HasDerivAt (fun t : ℝ => -(Real.exp t * ∑ i, indicator x y i))
      (-(Real.exp (Real.log l) * ∑ i, indicator x y i)) (Real.log l) :=
    ((Real.hasDerivAt_exp _).mul_const _).fun_neg
  refine h1.exp.congr_deriv ?_
  rw [Real.exp_log hl, hammingValue, ← Finset.mul_sum]
  ring

/-- **C56.** What `eval_gradient=True` returns: the values and, for every pair of rows, the gradient of the two
theorems above, in the anisotropic form exactly if there are several length scales. -/
theorem C56_hamming_call_gradient (ls : LengthScale) (xs : List (Fin d → V)) (K : List (List ℝ))
    (G : List (List (List ℝ))) (h : hammingCallGrad ls xs = .ok (K, G)) :
    ∃ s, ScaleOf d ls s ∧ K = xs.map (fun x => xs.map fun y => hammingCov s x y) ∧
      ((∃ l l' t, ls = .vector (l :: l' :: t)) → ∀ l, G = xs.map fun x => xs.map fun y => hammingGrad true s l x y) ∧
      ((¬ ∃ l l' t, ls = .vector (l :: l' :: t)) →
        ∃ l, s = (fun _ => l) ∧ G = xs.map fun x => xs.map fun y => hammingGrad false (fun _ => l) l x y) := by
  cases hp : ls.perFeature d with
  | error e => simp only [hammingCallGrad, hp, bind, Except.bind] at h; cases h
  | ok s =>
    simp only [hammingCallGrad, hp, bind, Except.bind] at h
    cases h
    refine ⟨s, perFeature_scale hp, by simp only [hammingValue_eq], ?_, ?_⟩
    · rintro ⟨l, l', t, rfl⟩ l0
      simp [LengthScale.anisotropic, hammingGrad]
    · intro hno
      match ls, hp with
      | .scalar l, hp => cases hp; exact ⟨l, rfl, rfl⟩
      | .vector [l], hp => cases hp; exact ⟨l, rfl, by simp [LengthScale.anisotropic, LengthScale.single]⟩
      | .vector (l :: l' :: t), _ => exact absurd ⟨l, l', t, rfl⟩ hno

/-- Meets the hypotheses of `C56_hamming_gradient_isotropic`. -/
example : ∃ r, hammingCallGrad (.scalar 1) hammingRows = .ok r := ⟨_, rfl⟩

end Skopt

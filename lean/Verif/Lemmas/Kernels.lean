import Verif.Model.Kernels
import Verif.Spec.Kernels
import Mathlib.Analysis.Calculus.FDeriv.Add
import Mathlib.Analysis.Calculus.FDeriv.Mul
import Mathlib.Analysis.Calculus.FDeriv.Pi
import Mathlib.Analysis.Calculus.Deriv.Pow
import Mathlib.Analysis.SpecialFunctions.Pow.Deriv
import Mathlib.Analysis.SpecialFunctions.Trigonometric.Deriv
import Mathlib.Analysis.SpecialFunctions.Trigonometric.Bounds
import Mathlib.Analysis.Complex.Exponential

/-!
# Derivatives of kernels
-/

namespace Skopt

open scoped BigOperators

variable {d : Nat}

theorem linForm_apply (g v : Fin d → ℝ) : linForm g v = ∑ i, g i * v i := by
  simp [linForm]

theorem linForm_add (g h : Fin d → ℝ) : linForm (fun i => g i + h i) = linForm g + linForm h := by
  ext v
  simp [linForm_apply, add_mul, Finset.sum_add_distrib]

theorem linForm_smul (c : ℝ) (g : Fin d → ℝ) : linForm (fun i => c * g i) = c • linForm g := by
  ext v
  simp [linForm_apply, Finset.mul_sum, mul_assoc]

theorem linForm_zero : linForm (fun _ : Fin d => 0) = 0 := by
  ext v
  simp [linForm_apply]

theorem kdistSq_hasFDerivAt (ls x y : Fin d → ℝ) :
    HasFDerivAt (fun x => kdistSq ls x y) (linForm fun i => 2 * (kdiff ls x y i / ls i)) x := by
  have h : ∀ i : Fin d, HasFDerivAt (fun x : Fin d → ℝ => kdiff ls x y i ^ 2)
      ((2 * (kdiff ls x y i / ls i)) • ContinuousLinearMap.proj (R := ℝ) (φ := fun _ : Fin d => ℝ) i) x := by
    intro i
    have h1 : HasDerivAt (fun t : ℝ => ((t - y i) / ls i) ^ 2) (2 * ((x i - y i) / ls i) * (1 / ls i)) (x i) := by
      have := (((hasDerivAt_id (x i)).sub_const (y i)).div_const (ls i)).fun_pow 2
      simpa using this
    have h2 : HasFDerivAt (fun x : Fin d → ℝ => x i) (ContinuousLinearMap.proj (R := ℝ) (φ := fun _ : Fin d => ℝ) i) x :=
      (ContinuousLinearMap.proj (R := ℝ) (φ := fun _ : Fin d => ℝ) i).hasFDerivAt
    refine (h1.comp_hasFDerivAt x h2).congr_fderiv ?_
    congr 1
    simp only [kdiff]
    ring
  have := HasFDerivAt.fun_sum (u := Finset.univ) fun _i _ => h _i
  exact this

theorem kdistSq_nonneg (ls x y : Fin d → ℝ) : 0 ≤ kdistSq ls x y := Finset.sum_nonneg fun i _ => sq_nonneg _

theorem kdistSq_self (ls y : Fin d → ℝ) : kdistSq ls y y = 0 := by simp [kdistSq, kdiff]

theorem kdist_sq (ls x y : Fin d → ℝ) : kdist ls x y ^ 2 = kdistSq ls x y := Real.sq_sqrt (kdistSq_nonneg ls x y)

theorem kdist_nonneg (ls x y : Fin d → ℝ) : 0 ≤ kdist ls x y := Real.sqrt_nonneg _

theorem kdist_self (ls y : Fin d → ℝ) : kdist ls y y = 0 := by simp [kdist, kdistSq_self]

theorem kdist_eq_zero {ls x y : Fin d → ℝ} (hls : ∀ i, 0 < ls i) (h : kdist ls x y = 0) : x = y := by
  have h0 : kdistSq ls x y = 0 := by rw [← kdist_sq, h]; norm_num
  funext i
  have := (Finset.sum_eq_zero_iff_of_nonneg fun i _ => sq_nonneg (kdiff ls x y i)).1 h0 i (Finset.mem_univ i)
  have h2 : (x i - y i) / ls i = 0 := by simpa [kdiff] using this
  rcases div_eq_zero_iff.1 h2 with h3 | h3
  · linarith
  · exact absurd h3 (hls i).ne'

/-- A function of the squared distance. -/
theorem sq_comp {φ : ℝ → ℝ} {φ' : ℝ} (ls x y : Fin d → ℝ) (h : HasDerivAt φ φ' (kdistSq ls x y)) :
    HasFDerivAt (fun x => φ (kdistSq ls x y)) (linForm fun i => φ' * (2 * (kdiff ls x y i / ls i))) x := by
  rw [linForm_smul]
  exact h.comp_hasFDerivAt x (kdistSq_hasFDerivAt ls x y)

/-- A function of the distance, away from zero. -/
theorem dist_comp {φ : ℝ → ℝ} {φ' : ℝ} (ls x y : Fin d → ℝ) (h0 : kdist ls x y ≠ 0)
    (h : HasDerivAt φ φ' (kdist ls x y)) :
    HasFDerivAt (fun x => φ (kdist ls x y)) (linForm fun i => φ' / kdist ls x y * (kdiff ls x y i / ls i)) x := by
  have hs : kdistSq ls x y ≠ 0 := fun hz => h0 (by simp [kdist, hz])
  have h1 := HasDerivAt.comp (kdistSq ls x y) (h₂ := φ) (h := Real.sqrt) h (Real.hasDerivAt_sqrt hs)
  refine (sq_comp ls x y h1).congr_fderiv ?_
  congr 1
  funext i
  change φ' * (1 / (2 * kdist ls x y)) * _ = _
  field_simp

/-- A function of the distance that is flat at zero. -/
theorem dist_flat {φ : ℝ → ℝ} {C : ℝ} (ls y : Fin d → ℝ) (h : ∀ r, 0 ≤ r → |φ r - φ 0| ≤ C * r ^ 2) :
    HasFDerivAt (fun x => φ (kdist ls x y)) (linForm fun _ => 0) y := by
  rw [linForm_zero, hasFDerivAt_iff_isLittleO]
  have hsq := kdistSq_hasFDerivAt ls y y
  rw [hasFDerivAt_iff_isLittleO] at hsq
  have hz : (linForm fun i => 2 * (kdiff ls y y i / ls i)) = (0 : (Fin d → ℝ) →L[ℝ] ℝ) := by
    rw [← linForm_zero]; congr 1; funext i; simp [kdiff]
  rw [hz] at hsq
  refine Asymptotics.IsBigO.trans_isLittleO ?_ hsq
  refine Asymptotics.IsBigO.of_bound C (Filter.Eventually.of_forall fun x => ?_)
  simp only [kdist_self, kdistSq_self, zero_apply, sub_zero, Real.norm_eq_abs,
    abs_of_nonneg (kdistSq_nonneg ls x y)]
  rw [← kdist_sq]
  exact h _ (kdist_nonneg ls x y)

/-- A function of the distance, everywhere. -/
theorem dist_everywhere {φ φ' : ℝ → ℝ} {C : ℝ} (ls x y : Fin d → ℝ) (hls : ∀ i, 0 < ls i)
    (h : ∀ r, HasDerivAt φ (φ' r) r) (hflat : ∀ r, 0 ≤ r → |φ r - φ 0| ≤ C * r ^ 2) (g : Fin d → ℝ)
    (hg : kdist ls x y ≠ 0 → ∀ i, g i = φ' (kdist ls x y) / kdist ls x y * (kdiff ls x y i / ls i))
    (hg0 : x = y → ∀ i, g i = 0) :
    HasFDerivAt (fun x => φ (kdist ls x y)) (linForm g) x := by
  by_cases h0 : kdist ls x y = 0
  · have hxy := kdist_eq_zero hls h0
    have : g = fun _ => 0 := funext fun i => hg0 hxy i
    rw [this]
    subst hxy
    exact dist_flat ls x hflat
  · have : g = fun i => φ' (kdist ls x y) / kdist ls x y * (kdiff ls x y i / ls i) := funext (hg h0)
    rw [this]
    exact dist_comp ls x y h0 (h _)

theorem rbf_gradient (ls x y : Fin d → ℝ) :
    HasFDerivAt (fun x => (Kernel.rbf ls).value x y) (linForm (rbfGrad ls x y)) x := by
  have h : HasDerivAt (fun s : ℝ => Real.exp (-(1 / 2) * s)) (Real.exp (-(1 / 2) * kdistSq ls x y) * (-(1 / 2)))
      (kdistSq ls x y) := by
    have := ((hasDerivAt_id (kdistSq ls x y)).const_mul (-(1 / 2) : ℝ)).exp
    simpa using this
  refine (sq_comp ls x y h).congr_fderiv ?_
  congr 1
  funext i
  simp only [rbfGrad]
  ring

theorem rq_gradient (alpha l : ℝ) (x y : Fin d → ℝ) (ha : 0 < alpha) :
    HasFDerivAt (fun x => (Kernel.rq alpha l).value x y) (linForm (rqGrad alpha l x y)) x := by
  have hpos : 0 < 1 + kdistSq (fun _ : Fin d => l) x y / (2 * alpha) := by
    have := kdistSq_nonneg (fun _ : Fin d => l) x y
    positivity
  have h : HasDerivAt (fun s : ℝ => (1 + s / (2 * alpha)) ^ (-alpha))
      (1 / (2 * alpha) * (-alpha) * (1 + kdistSq (fun _ : Fin d => l) x y / (2 * alpha)) ^ (-alpha - 1))
      (kdistSq (fun _ : Fin d => l) x y) := by
    have h1 : HasDerivAt (fun s : ℝ => 1 + s / (2 * alpha)) (1 / (2 * alpha)) (kdistSq (fun _ : Fin d => l) x y) :=
      ((hasDerivAt_id _).div_const (2 * alpha)).const_add 1
    exact h1.rpow_const (Or.inl hpos.ne')
  refine (sq_comp (fun _ : Fin d => l) x y h).congr_fderiv ?_
  congr 1
  funext i
  simp only [rqGrad]
  field_simp

theorem matern_half_gradient (ls x y : Fin d → ℝ) (hls : ∀ i, 0 < ls i) (hxy : x ≠ y) :
    HasFDerivAt (fun x => (Kernel.matern ls .half).value x y) (linForm (maternHalfGrad ls x y)) x := by
  have h0 : kdist ls x y ≠ 0 := fun h => hxy (kdist_eq_zero hls h)
  have h : HasDerivAt (fun r : ℝ => Real.exp (-r)) (Real.exp (-kdist ls x y) * -1) (kdist ls x y) := by
    have := (hasDerivAt_id (kdist ls x y)).neg.exp
    simpa using this
  refine (dist_comp ls x y h0 h).congr_fderiv ?_
  congr 1
  funext i
  simp only [maternHalfGrad, if_pos h0]
  ring

theorem three_deriv (r : ℝ) : HasDerivAt (fun r : ℝ => (1 + Real.sqrt 3 * r) * Real.exp (-(Real.sqrt 3 * r)))
    (-3 * r * Real.exp (-(Real.sqrt 3 * r))) r := by
  have h1 : HasDerivAt (fun r : ℝ => 1 + Real.sqrt 3 * r) (Real.sqrt 3) r := by
    have := ((hasDerivAt_id r).const_mul (Real.sqrt 3)).const_add 1
    simpa using this
  have h2 : HasDerivAt (fun r : ℝ => Real.exp (-(Real.sqrt 3 * r)))
      (Real.exp (-(Real.sqrt 3 * r)) * -(Real.sqrt 3)) r := by
    have := ((hasDerivAt_id r).const_mul (Real.sqrt 3)).neg.exp
    simpa using this
  refine (h1.mul h2).congr_deriv ?_
  have : Real.sqrt 3 * Real.sqrt 3 = 3 := Real.mul_self_sqrt (by norm_num)
  linear_combination (-r * Real.exp (-(Real.sqrt 3 * r))) * this

theorem five_deriv (r : ℝ) :
    HasDerivAt (fun r : ℝ => (1 + Real.sqrt 5 * r + 5 / 3 * r ^ 2) * Real.exp (-(Real.sqrt 5 * r)))
    (-(5 / 3) * r * (1 + Real.sqrt 5 * r) * Real.exp (-(Real.sqrt 5 * r))) r := by
  have h1 : HasDerivAt (fun r : ℝ => 1 + Real.sqrt 5 * r + 5 / 3 * r ^ 2) (Real.sqrt 5 + 10 / 3 * r) r := by
    have h := (((hasDerivAt_id r).const_mul (Real.sqrt 5)).const_add 1).add
      (((hasDerivAt_id r).pow 2).const_mul (5 / 3 : ℝ))
    refine h.congr_deriv ?_
    simp
    ring
  have h2 : HasDerivAt (fun r : ℝ => Real.exp (-(Real.sqrt 5 * r)))
      (Real.exp (-(Real.sqrt 5 * r)) * -(Real.sqrt 5)) r := by
    have := ((hasDerivAt_id r).const_mul (Real.sqrt 5)).neg.exp
    simpa using this
  refine (h1.mul h2).congr_deriv ?_
  have : Real.sqrt 5 * Real.sqrt 5 = 5 := Real.mul_self_sqrt (by norm_num)
  linear_combination (-r * Real.exp (-(Real.sqrt 5 * r))) * this

theorem one_add_mul_exp_neg {u : ℝ} (hu : 0 ≤ u) :
    1 - u ^ 2 ≤ (1 + u) * Real.exp (-u) ∧ (1 + u) * Real.exp (-u) ≤ 1 := by
  have h1 : 1 - u ≤ Real.exp (-u) := by have := Real.add_one_le_exp (-u); linarith
  have h2 : u + 1 ≤ Real.exp u := Real.add_one_le_exp u
  constructor
  · nlinarith
  · rw [Real.exp_neg, ← div_eq_mul_inv, div_le_one (Real.exp_pos u)]
    linarith

theorem three_flat (r : ℝ) (hr : 0 ≤ r) : |(1 + Real.sqrt 3 * r) * Real.exp (-(Real.sqrt 3 * r)) -
    (1 + Real.sqrt 3 * 0) * Real.exp (-(Real.sqrt 3 * 0))| ≤ 3 * r ^ 2 := by
  have h3 : Real.sqrt 3 ^ 2 = 3 := Real.sq_sqrt (by norm_num)
  have hu : 0 ≤ Real.sqrt 3 * r := mul_nonneg (Real.sqrt_nonneg 3) hr
  obtain ⟨h1, h2⟩ := one_add_mul_exp_neg hu
  have h4 : (Real.sqrt 3 * r) ^ 2 = 3 * r ^ 2 := by rw [mul_pow, h3]
  rw [h4] at h1
  simp only [mul_zero, add_zero, neg_zero, Real.exp_zero, mul_one]
  rw [abs_le]
  constructor <;> nlinarith [sq_nonneg r]

theorem five_flat (r : ℝ) (hr : 0 ≤ r) : |(1 + Real.sqrt 5 * r + 5 / 3 * r ^ 2) * Real.exp (-(Real.sqrt 5 * r)) -
    (1 + Real.sqrt 5 * 0 + 5 / 3 * 0 ^ 2) * Real.exp (-(Real.sqrt 5 * 0))| ≤ 5 * r ^ 2 := by
  have h5 : Real.sqrt 5 ^ 2 = 5 := Real.sq_sqrt (by norm_num)
  have hu : 0 ≤ Real.sqrt 5 * r := mul_nonneg (Real.sqrt_nonneg 5) hr
  obtain ⟨h1, _⟩ := one_add_mul_exp_neg hu
  have h4 : (Real.sqrt 5 * r) ^ 2 = 5 * r ^ 2 := by rw [mul_pow, h5]
  rw [h4] at h1
  have hq := Real.quadratic_le_exp_of_nonneg hu
  rw [h4] at hq
  have hle : (1 + Real.sqrt 5 * r + 5 / 3 * r ^ 2) * Real.exp (-(Real.sqrt 5 * r)) ≤ 1 := by
    rw [Real.exp_neg, ← div_eq_mul_inv, div_le_one (Real.exp_pos _)]
    nlinarith [sq_nonneg r]
  have hge : (1 + Real.sqrt 5 * r) * Real.exp (-(Real.sqrt 5 * r)) ≤
      (1 + Real.sqrt 5 * r + 5 / 3 * r ^ 2) * Real.exp (-(Real.sqrt 5 * r)) :=
    mul_le_mul_of_nonneg_right (by nlinarith [sq_nonneg r]) (Real.exp_pos _).le
  simp only [mul_zero, add_zero, neg_zero, Real.exp_zero, mul_one, ne_eq, OfNat.ofNat_ne_zero, not_false_eq_true,
    zero_pow]
  rw [abs_le]
  constructor <;> nlinarith [sq_nonneg r]

theorem matern_three_gradient (ls x y : Fin d → ℝ) (hls : ∀ i, 0 < ls i) :
    HasFDerivAt (fun x => (Kernel.matern ls .threeHalves).value x y) (linForm (maternThreeGrad ls x y)) x := by
  refine dist_everywhere ls x y hls three_deriv three_flat _ ?_ ?_
  · intro h0 i
    have h3 : Real.sqrt 3 * Real.sqrt 3 = 3 := Real.mul_self_sqrt (by norm_num)
    simp only [maternThreeGrad, if_pos h0]
    have hl := (hls i).ne'
    field_simp
    linear_combination (-(kdiff ls x y i) * kdist ls x y) * h3
  · rintro rfl i
    simp [maternThreeGrad, kdist_self]

theorem matern_five_gradient (ls x y : Fin d → ℝ) (hls : ∀ i, 0 < ls i) :
    HasFDerivAt (fun x => (Kernel.matern ls .fiveHalves).value x y) (linForm (maternFiveGrad ls x y)) x := by
  refine dist_everywhere ls x y hls five_deriv five_flat _ ?_ ?_
  · intro h0 i
    have h5 : Real.sqrt 5 * Real.sqrt 5 = 5 := Real.mul_self_sqrt (by norm_num)
    simp only [maternFiveGrad, if_pos h0]
    rw [← kdist_sq]
    have hl := (hls i).ne'
    field_simp
    ring_nf
    have h5' : Real.sqrt 5 ^ 2 = 5 := Real.sq_sqrt (by norm_num)
    rw [h5']
    ring
  · rintro rfl i
    simp [maternFiveGrad, kdist_self, kdiff]

theorem sine_deriv (l p r : ℝ) : HasDerivAt (fun r : ℝ => Real.exp (-2 * (Real.sin (Real.pi * r / p) / l) ^ 2))
    (Real.exp (-2 * (Real.sin (Real.pi * r / p) / l) ^ 2) *
      (-2 * Real.sin (2 * (r * (Real.pi / p))) / l ^ 2 * (Real.pi / p))) r := by
  have h1 : HasDerivAt (fun r : ℝ => Real.pi * r / p) (Real.pi / p) r := by
    have := ((hasDerivAt_id r).const_mul Real.pi).div_const p
    simpa using this
  have h2 := (((h1.sin.div_const l).pow 2).const_mul (-2 : ℝ)).exp
  refine h2.congr_deriv ?_
  congr 1
  have : r * (Real.pi / p) = Real.pi * r / p := by ring
  rw [this, Real.sin_two_mul]
  simp
  ring

theorem sine_flat (l p r : ℝ) (hl : 0 < l) (hp : 0 < p) :
    |Real.exp (-2 * (Real.sin (Real.pi * r / p) / l) ^ 2) - Real.exp (-2 * (Real.sin (Real.pi * 0 / p) / l) ^ 2)| ≤
      2 * (Real.pi / p / l) ^ 2 * r ^ 2 := by
  simp only [mul_zero, zero_div, Real.sin_zero, ne_eq, OfNat.ofNat_ne_zero, not_false_eq_true, zero_pow, Real.exp_zero]
  have hs : (Real.sin (Real.pi * r / p) / l) ^ 2 ≤ (Real.pi / p / l) ^ 2 * r ^ 2 := by
    have h1 : Real.sin (Real.pi * r / p) ^ 2 ≤ (Real.pi * r / p) ^ 2 := sq_le_sq.2 (Real.abs_sin_le_abs (x := Real.pi * r / p))
    have : (Real.pi / p / l) ^ 2 * r ^ 2 = (Real.pi * r / p) ^ 2 / l ^ 2 := by field_simp
    rw [this, div_pow]
    exact div_le_div_of_nonneg_right h1 (by positivity)
  have h0 : 0 ≤ (Real.sin (Real.pi * r / p) / l) ^ 2 := sq_nonneg _
  have he1 := Real.add_one_le_exp (-2 * (Real.sin (Real.pi * r / p) / l) ^ 2)
  have he2 : Real.exp (-2 * (Real.sin (Real.pi * r / p) / l) ^ 2) ≤ 1 := Real.exp_le_one_iff.2 (by linarith)
  rw [abs_le]
  constructor <;> nlinarith

theorem expSine_gradient (l p : ℝ) (x y : Fin d → ℝ) (hl : 0 < l) (hp : 0 < p) :
    HasFDerivAt (fun x => (Kernel.expSine l p).value x y) (linForm (expSineGrad l p x y)) x := by
  refine dist_everywhere (fun _ : Fin d => 1) x y (fun _ => one_pos) (sine_deriv l p)
    (fun r _ => sine_flat l p r hl hp) _ ?_ ?_
  · intro h0 i
    simp only [expSineGrad, if_pos h0, kdiff, div_one]
    have : Real.pi * kdist (fun _ : Fin d => 1) x y / p = kdist (fun _ : Fin d => 1) x y * (Real.pi / p) := by ring
    rw [this]
    field_simp
  · rintro rfl i
    simp [expSineGrad]

theorem dot_gradient (s : ℝ) (x y : Fin d → ℝ) :
    HasFDerivAt (fun x => (Kernel.dot s).value x y) (linForm y) x := by
  have h : HasFDerivAt (fun x : Fin d → ℝ => linForm y x + s ^ 2) (linForm y) x :=
    (linForm y).hasFDerivAt.add_const _
  have he : (fun x => (Kernel.dot s).value x y) = fun x : Fin d → ℝ => linForm y x + s ^ 2 := by
    funext x
    simp only [Kernel.value, linForm_apply]
    congr 1
    exact Finset.sum_congr rfl fun i _ => mul_comm _ _
  rw [he]
  exact h

/-- A successful call returns the value. -/
theorem call_value (k : Kernel d) : ∀ (r : Nat) (x y : Fin d → ℝ) (v : ℝ), k.call r x y = .ok v → v = k.value x y := by
  induction k with
  | const c => intro r x y v h; cases h; rfl
  | white c => intro r x y v h; cases h; rfl
  | dot s =>
    intro r x y v h
    simp only [Kernel.call] at h
    split_ifs at h
    cases h; rfl
  | sum a b iha ihb =>
    intro r x y v h
    simp only [Kernel.call, bind, Except.bind] at h
    cases ha : a.call r x y with
    | error e => rw [ha] at h; cases h
    | ok u =>
      rw [ha] at h
      cases hb : b.call r x y with
      | error e => rw [hb] at h; cases h
      | ok w =>
        rw [hb] at h
        cases h
        rw [iha r x y u ha, ihb r x y w hb]
        rfl
  | prod a b iha ihb =>
    intro r x y v h
    simp only [Kernel.call, bind, Except.bind] at h
    cases ha : a.call r x y with
    | error e => rw [ha] at h; cases h
    | ok u =>
      rw [ha] at h
      cases hb : b.call r x y with
      | error e => rw [hb] at h; cases h
      | ok w =>
        rw [hb] at h
        cases h
        rw [iha r x y u ha, ihb r x y w hb]
        rfl
  | expo a p iha =>
    intro r x y v h
    simp only [Kernel.call, bind, Except.bind] at h
    cases ha : a.call r x y with
    | error e => rw [ha] at h; cases h
    | ok u =>
      rw [ha] at h
      cases h
      rw [iha r x y u ha]
      rfl
  | _ =>
    intro r x y v h
    simp only [Kernel.call] at h
    split_ifs at h
    cases h; rfl

end Skopt

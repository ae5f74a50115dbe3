import Verif.Model.Benchmarks
import Verif.Lemmas.Basic
import Mathlib.Analysis.Real.Pi.Bounds
import Mathlib.Analysis.SpecialFunctions.Trigonometric.Deriv
import Mathlib.Analysis.SpecialFunctions.Trigonometric.Bounds
import Mathlib.Analysis.SpecialFunctions.Trigonometric.DerivHyp
import Mathlib.Analysis.Calculus.LocalExtr.Basic

/-!
# Lemmas on the benchmark function `bench3`
-/

namespace Skopt

open Real

/-- The decay factor of `bench3` in terms of the exponential. -/
theorem one_sub_tanh (v : ℝ) : 1 - tanh v = 2 / (exp (2 * v) + 1) := by
  rw [Real.tanh_eq]
  have h1 := exp_pos v
  have h2 := exp_pos (-v)
  have h3 : exp (2 * v) = exp v * exp v := by rw [← exp_add]; ring_nf
  have h4 : exp v * exp (-v) = 1 := by rw [← exp_add]; simp
  rw [h3]
  field_simp
  linear_combination (2 * exp v) * h4

/-- `bench3` written with the exponential. -/
noncomputable def dip (x : ℝ) : ℝ := sin (5 * x) * (2 / (exp (2 * x ^ 2) + 1))

theorem bench3_eq (x : ℝ) : bench3 [x] = .ok (dip x) := by
  rw [dip, ← one_sub_tanh]; rfl

theorem decay_pos (x : ℝ) : 0 < 2 / (exp (2 * x ^ 2) + 1) := by have := exp_pos (2 * x ^ 2); positivity

theorem decay_le_one (x : ℝ) : 2 / (exp (2 * x ^ 2) + 1) ≤ 1 := by
  have := one_le_exp (x := 2 * x ^ 2) (by positivity)
  rw [div_le_one (by linarith)]
  linarith

theorem decay_le {x c : ℝ} (h : c ^ 2 ≤ x ^ 2) :
    2 / (exp (2 * x ^ 2) + 1) ≤ 1 / (1 + c ^ 2 + c ^ 4) := by
  have h1 : 1 + 2 * c ^ 2 + (2 * c ^ 2) ^ 2 / 2 ≤ exp (2 * c ^ 2) := quadratic_le_exp_of_nonneg (by positivity)
  have h2 : exp (2 * c ^ 2) ≤ exp (2 * x ^ 2) := exp_le_exp.2 (by linarith)
  rw [div_le_div_iff₀ (by have := exp_pos (2 * x ^ 2); linarith) (by positivity)]
  nlinarith

theorem sin_five_fourths : sin (5 / 4) ≤ 0.9495 := by
  rw [← cos_pi_div_two_sub]
  have h1 := pi_gt_d4
  have h2 := pi_lt_d4
  have h3 : |π / 2 - 5 / 4| ≤ 1 := by rw [abs_le]; constructor <;> linarith
  have h := (abs_le.1 (cos_bound h3)).2
  rw [abs_of_nonneg (by linarith)] at h
  have h4 : (π / 2 - 5 / 4) ^ 4 ≤ 0.33 ^ 4 := pow_le_pow_left₀ (by linarith) (by linarith) 4
  have h5 : 0.32 ^ 2 ≤ (π / 2 - 5 / 4) ^ 2 := pow_le_pow_left₀ (by norm_num) (by linarith) 2
  norm_num at *
  linarith

theorem sin_near_115 : sin 1.15 ≤ 0.915 := by
  rw [← cos_pi_div_two_sub]
  have h1 := pi_gt_d4
  have h2 := pi_lt_d4
  have h3 : |π / 2 - 1.15| ≤ 1 := by rw [abs_le]; norm_num; constructor <;> linarith
  have h := (abs_le.1 (cos_bound h3)).2
  rw [abs_of_nonneg (by norm_num; linarith)] at h
  have h4 : (π / 2 - 1.15) ^ 4 ≤ 0.43 ^ 4 := pow_le_pow_left₀ (by norm_num; linarith) (by norm_num at *; linarith) 4
  have h5 : 0.42 ^ 2 ≤ (π / 2 - 1.15) ^ 2 := pow_le_pow_left₀ (by norm_num) (by norm_num at *; linarith) 2
  norm_num at *
  linarith

theorem sin_one_upper : sin 1 ≤ 0.86 := by
  rw [← cos_pi_div_two_sub]
  have h1 := pi_gt_d4
  have h2 := pi_lt_d4
  have h3 : |π / 2 - 1| ≤ 1 := by rw [abs_le]; constructor <;> linarith
  have h := (abs_le.1 (cos_bound h3)).2
  rw [abs_of_nonneg (by linarith)] at h
  have h4 : (π / 2 - 1) ^ 4 ≤ 0.58 ^ 4 := pow_le_pow_left₀ (by linarith) (by norm_num at *; linarith) 4
  have h5 : 0.57 ^ 2 ≤ (π / 2 - 1) ^ 2 := pow_le_pow_left₀ (by norm_num) (by norm_num at *; linarith) 2
  norm_num at *
  linarith

theorem sin_near_top : 0.992 ≤ sin 1.45 := by
  rw [← cos_pi_div_two_sub]
  have h1 := pi_gt_d4
  have h2 := pi_lt_d4
  have h := one_sub_sq_div_two_le_cos (x := π / 2 - 1.45)
  have h5 : (π / 2 - 1.45) ^ 2 ≤ 0.121 ^ 2 := pow_le_pow_left₀ (by norm_num; linarith) (by norm_num at *; linarith) 2
  norm_num at *
  linarith

theorem dip_at : dip (-0.29) ≤ -0.9 := by
  have h1 := sin_near_top
  have h2 : exp (2 * (-0.29) ^ 2) ≤ 1 / (1 - 2 * (-0.29) ^ 2) := exp_bound_div_one_sub_of_interval (by norm_num) (by norm_num)
  have h3 : 0.9081 ≤ 2 / (exp (2 * (-0.29) ^ 2) + 1) := by
    rw [le_div_iff₀ (by have := exp_pos (2 * (-0.29) ^ 2 : ℝ); linarith)]
    norm_num at *
    linarith
  unfold dip
  rw [show (5 * -0.29 : ℝ) = -1.45 by norm_num, sin_neg]
  nlinarith

theorem dip_outside {x : ℝ} (h : x ≤ -0.35 ∨ -0.25 ≤ x) : -0.9 < dip x := by
  have hp := decay_pos x
  have h1 := decay_le_one x
  have hpi := pi_gt_d4
  have hs := abs_le.1 (abs_sin_le_one (5 * x))
  have far : 0.35 ^ 2 ≤ x ^ 2 → -0.9 < dip x := by
    intro h2
    have h3 := decay_le h2
    have h4 : 1 / (1 + 0.35 ^ 2 + 0.35 ^ 4 : ℝ) < 0.9 := by norm_num
    unfold dip
    nlinarith
  rcases h with h | h
  · exact far (by nlinarith)
  rcases le_total 0.35 x with h2 | h2
  · exact far (by nlinarith)
  rcases le_total 0 x with h3 | h3
  · have : 0 ≤ sin (5 * x) := sin_nonneg_of_nonneg_of_le_pi (by linarith) (by norm_num at *; linarith)
    unfold dip
    have := mul_nonneg this hp.le
    linarith
  have mono : ∀ c : ℝ, -c ≤ x → 5 * c ≤ π / 2 → -sin (5 * c) ≤ sin (5 * x) := by
    intro c hc hc'
    rw [← sin_neg]
    exact sin_le_sin_of_le_of_le_pi_div_two (by linarith) (by linarith) (by linarith)
  have h125 := mono 0.25 h (by norm_num; linarith)
  rw [show (5 * 0.25 : ℝ) = 5 / 4 by norm_num] at h125
  have h94 := sin_five_fourths
  unfold dip
  rcases le_total x (-0.23) with h4 | h4
  · have h5 := decay_le (x := x) (c := 0.23) (by nlinarith)
    have h6 : 1 / (1 + 0.23 ^ 2 + 0.23 ^ 4 : ℝ) < 0.9474 := by norm_num
    nlinarith
  rcases le_total x (-0.2) with h5 | h5
  · have h6 := decay_le (x := x) (c := 0.2) (by nlinarith)
    have h7 : 1 / (1 + 0.2 ^ 2 + 0.2 ^ 4 : ℝ) < 0.961 := by norm_num
    have h8 := mono 0.23 h4 (by norm_num; linarith)
    have h9 := sin_near_115
    rw [show (5 * 0.23 : ℝ) = 1.15 by norm_num] at h8
    nlinarith
  · have h8 := mono 0.2 h5 (by norm_num; linarith)
    have h9 := sin_one_upper
    rw [show (5 * 0.2 : ℝ) = 1 by norm_num] at h8
    nlinarith

theorem dip_continuous : Continuous dip := by
  unfold dip
  refine (continuous_sin.comp (by fun_prop)).mul (continuous_const.div (by fun_prop) fun x => ?_)
  have := exp_pos (2 * x ^ 2)
  positivity

theorem dip_critical {x : ℝ} (h : deriv dip x = 0) :
    5 * cos (5 * x) * (exp (2 * x ^ 2) + 1) = sin (5 * x) * (exp (2 * x ^ 2) * (4 * x)) := by
  have he := exp_pos (2 * x ^ 2)
  have h1 : HasDerivAt (fun x : ℝ => sin (5 * x)) (cos (5 * x) * (5 * 1)) x :=
    ((hasDerivAt_id x).const_mul 5).sin
  have h2 : HasDerivAt (fun x : ℝ => exp (2 * x ^ 2) + 1) (exp (2 * x ^ 2) * (2 * (2 * x))) x := by
    have := (((hasDerivAt_pow 2 x).const_mul 2).exp).add_const 1
    simpa using this
  have h3 := h1.mul ((hasDerivAt_const x (2 : ℝ)).div h2 (by positivity))
  have h4 := h3.deriv.symm.trans h
  have h5 : exp (2 * x ^ 2) + 1 ≠ 0 := by positivity
  simp only [Pi.div_apply] at h4
  generalize exp (2 * x ^ 2) = p at *
  field_simp at h4
  linear_combination h4 / 2

theorem dip_critical_unique {x y : ℝ} (hx : -0.35 < x) (hxy : x < y) (hy : y < -0.25)
    (h1 : deriv dip x = 0) (h2 : deriv dip y = 0) : False := by
  have c1 := dip_critical h1
  have c2 := dip_critical h2
  have hpi := pi_gt_d4
  have hsin : ∀ z : ℝ, -0.35 < z → z < -0.25 → sin (5 * z) < 0 := fun z h h' =>
    sin_neg_of_neg_of_neg_pi_lt (by norm_num at *; linarith) (by norm_num at *; linarith)
  have sx := hsin x hx (by linarith)
  have sy := hsin y (by linarith) hy
  have hd : 0 < sin (5 * y - 5 * x) :=
    sin_pos_of_pos_of_lt_pi (by linarith) (by norm_num at *; linarith)
  rw [sin_sub] at hd
  have y0 : y < 0 := by norm_num at *; linarith
  have hpq : exp (2 * y ^ 2) < exp (2 * x ^ 2) := exp_lt_exp.2 (by nlinarith)
  have hq := exp_pos (2 * y ^ 2)
  generalize exp (2 * x ^ 2) = p at *
  generalize exp (2 * y ^ 2) = q at *
  have hp : 0 < p := by linarith
  have k1 : x * p < y * q := by nlinarith
  have k2 : p * q * (x - y) < 0 := mul_neg_of_pos_of_neg (by positivity) (by linarith)
  have k3 : 0 < sin (5 * x) * sin (5 * y) := mul_pos_of_neg_of_neg sx sy
  have k4 : sin (5 * x) * sin (5 * y) * (p * q * (x - y) + (x * p - y * q)) < 0 :=
    mul_neg_of_pos_of_neg k3 (by linarith)
  have k5 : 0 < (sin (5 * y) * cos (5 * x) - cos (5 * y) * sin (5 * x)) * ((p + 1) * (q + 1)) :=
    mul_pos hd (by positivity)
  have k6 : 5 * ((sin (5 * y) * cos (5 * x) - cos (5 * y) * sin (5 * x)) * ((p + 1) * (q + 1))) =
      4 * (sin (5 * x) * sin (5 * y) * (p * q * (x - y) + (x * p - y * q))) := by
    linear_combination (sin (5 * y) * (q + 1)) * c1 - (sin (5 * x) * (p + 1)) * c2
  linarith

end Skopt

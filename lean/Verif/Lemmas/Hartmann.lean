import Verif.Model.Hartmann
import Verif.Lemmas.Basic
import Mathlib.Analysis.Convex.SpecificFunctions.Basic
import Mathlib.Analysis.Complex.ExponentialBounds

/-!
# Lemmas on the six-dimensional Hartmann function

The four exponents, and the value at the documented minimiser.
-/

namespace Skopt

open Real

theorem exp_neg_le {q r : ℝ} (n : ℕ) (hq : 0 ≤ q) (hr : 0 < r)
    (h : r⁻¹ ≤ ∑ i ∈ Finset.range n, q ^ i / i.factorial) : exp (-q) ≤ r := by
  rw [exp_neg, inv_le_comm₀ (exp_pos q) hr]
  exact h.trans (sum_le_exp_of_nonneg hq n)

theorem convexOn_exp_line (m k : ℝ) : ConvexOn ℝ Set.univ (fun s : ℝ => exp (m * s + k)) := by
  have h := convexOn_exp.comp_affineMap ((LinearMap.mulLeft ℝ m).toAffineMap + AffineMap.const ℝ ℝ k)
  simpa [Function.comp_def] using h

theorem le_exp_neg {q q' r : ℝ} (n k : ℕ) (hn : 0 < n) (hk : 0 < k) (hq : 0 ≤ q) (hq1 : q / k ≤ 1) (hr : 0 < r) (hq' : q' ≤ q)
    (h : (∑ m ∈ Finset.range n, (q / k) ^ m / m.factorial + (q / k) ^ n * (n + 1) / (n.factorial * n)) ^ k ≤ r⁻¹) :
    r ≤ exp (-q') := by
  refine le_trans ?_ (exp_le_exp.2 (neg_le_neg hq'))
  rw [exp_neg, le_inv_comm₀ hr (exp_pos q)]
  have h1 := exp_bound' (div_nonneg hq (Nat.cast_nonneg k)) hq1 hn
  have h2 := pow_le_pow_left₀ (exp_pos _).le h1 k
  rw [← exp_nat_mul, mul_div_cancel₀ _ (by positivity : (k : ℝ) ≠ 0)] at h2
  exact h2.trans h

/-- Exponent number 1 of `hart6` at a point. -/
noncomputable def hartQ1 (a b c d e f : ℝ) : ℝ :=
  10.0 * (a - 0.1312) ^ 2 + 3.0 * (b - 0.1696) ^ 2 + 17.0 * (c - 0.5569) ^ 2 + 3.5 * (d - 0.0124) ^ 2 + 1.7 * (e - 0.8283) ^ 2 + 8.0 * (f - 0.5886) ^ 2

/-- Exponent number 2 of `hart6` at a point. -/
noncomputable def hartQ2 (a b c d e f : ℝ) : ℝ :=
  0.05 * (a - 0.2329) ^ 2 + 10.0 * (b - 0.4135) ^ 2 + 17.0 * (c - 0.8307) ^ 2 + 0.1 * (d - 0.3736) ^ 2 + 8.0 * (e - 0.1004) ^ 2 + 14.0 * (f - 0.9991) ^ 2

/-- Exponent number 3 of `hart6` at a point. -/
noncomputable def hartQ3 (a b c d e f : ℝ) : ℝ :=
  3.0 * (a - 0.2348) ^ 2 + 3.5 * (b - 0.1451) ^ 2 + 1.7 * (c - 0.3522) ^ 2 + 10.0 * (d - 0.2883) ^ 2 + 17.0 * (e - 0.3047) ^ 2 + 8.0 * (f - 0.665) ^ 2

/-- Exponent number 4 of `hart6` at a point. -/
noncomputable def hartQ4 (a b c d e f : ℝ) : ℝ :=
  17.0 * (a - 0.4047) ^ 2 + 8.0 * (b - 0.8828) ^ 2 + 0.05 * (c - 0.8732) ^ 2 + 10.0 * (d - 0.5743) ^ 2 + 0.1 * (e - 0.1091) ^ 2 + 14.0 * (f - 0.0381) ^ 2

theorem hart_at_1 : 0.4093408 ≤ exp (-hartQ1 0.20169 0.15001 0.476874 0.275332 0.311652 0.6573) ∧ exp (-hartQ1 0.20169 0.15001 0.476874 0.275332 0.311652 0.6573) ≤ 0.4093409 := by
  constructor
  · refine le_exp_neg 8 1 (q := 0.8932071) (by norm_num) (by norm_num) (by norm_num) (by norm_num) (by norm_num) (by norm_num [hartQ1]) ?_
    norm_num [Finset.sum_range_succ, Nat.factorial]
  · refine le_trans (exp_le_exp.2 (neg_le_neg (a := 0.893207) (by norm_num [hartQ1]))) ?_
    exact exp_neg_le 11 (by norm_num) (by norm_num) (by norm_num [Finset.sum_range_succ, Nat.factorial])

theorem hart_at_2 : 0.00809779 ≤ exp (-hartQ2 0.20169 0.15001 0.476874 0.275332 0.311652 0.6573) ∧ exp (-hartQ2 0.20169 0.15001 0.476874 0.275332 0.311652 0.6573) ≤ 0.0080978 := by
  constructor
  · refine le_exp_neg 7 16 (q := 4.8161631) (by norm_num) (by norm_num) (by norm_num) (by norm_num) (by norm_num) (by norm_num [hartQ2]) ?_
    norm_num [Finset.sum_range_succ, Nat.factorial]
  · refine le_trans (exp_le_exp.2 (neg_le_neg (a := 4.816163) (by norm_num [hartQ2]))) ?_
    exact exp_neg_le 21 (by norm_num) (by norm_num) (by norm_num [Finset.sum_range_succ, Nat.factorial])

theorem hart_at_3 : 0.96775618 ≤ exp (-hartQ3 0.20169 0.15001 0.476874 0.275332 0.311652 0.6573) ∧ exp (-hartQ3 0.20169 0.15001 0.476874 0.275332 0.311652 0.6573) ≤ 0.9677564 := by
  constructor
  · refine le_exp_neg 4 1 (q := 0.032775) (by norm_num) (by norm_num) (by norm_num) (by norm_num) (by norm_num) (by norm_num [hartQ3]) ?_
    norm_num [Finset.sum_range_succ, Nat.factorial]
  · refine le_trans (exp_le_exp.2 (neg_le_neg (a := 0.0327749) (by norm_num [hartQ3]))) ?_
    exact exp_neg_le 5 (by norm_num) (by norm_num) (by norm_num [Finset.sum_range_succ, Nat.factorial])

theorem hart_at_4 : 0.00001275 ≤ exp (-hartQ4 0.20169 0.15001 0.476874 0.275332 0.311652 0.6573) ∧ exp (-hartQ4 0.20169 0.15001 0.476874 0.275332 0.311652 0.6573) ≤ 0.0000128 := by
  constructor
  · refine le_exp_neg 6 32 (q := 11.2699676) (by norm_num) (by norm_num) (by norm_num) (by norm_num) (by norm_num) (by norm_num [hartQ4]) ?_
    norm_num [Finset.sum_range_succ, Nat.factorial]
  · refine le_trans (exp_le_exp.2 (neg_le_neg (a := 11.2699675) (by norm_num [hartQ4]))) ?_
    exact exp_neg_le 22 (by norm_num) (by norm_num) (by norm_num [Finset.sum_range_succ, Nat.factorial])

theorem hart6_eq (a b c d e f : ℝ) : hart6 [a, b, c, d, e, f] = .ok (-(exp (-hartQ1 a b c d e f) +
    1.2 * exp (-hartQ2 a b c d e f) + 3 * exp (-hartQ3 a b c d e f) + 3.2 * exp (-hartQ4 a b c d e f))) := by
  simp only [hart6, broadcast6, hartA, hartP, hartAlpha, List.map_cons, List.map_nil, List.zipWith_cons_cons,
    List.zipWith_nil_right, List.sum_cons, List.sum_nil, List.length_cons, List.length_nil, zero_add, Nat.reduceAdd, if_true, ok_bind,
    add_zero]
  congr 2
  unfold hartQ1 hartQ2 hartQ3 hartQ4
  norm_num [zpow_neg]
  ring_nf

end Skopt

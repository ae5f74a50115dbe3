import Mathlib.Probability.Moments.SubGaussian

/-!
# Lemmas: the regret of exponential weights
-/

namespace Skopt
open MeasureTheory ProbabilityTheory

/-- Hoeffding's lemma for finitely many weights. -/
theorem hoeffding_weights {n : Nat} (w x : Fin n → ℝ) (hw : ∀ i, 0 ≤ w i) (hs : ∑ i, w i = 1) {a b : ℝ}
    (hx : ∀ i, a ≤ x i ∧ x i ≤ b) (t : ℝ) :
    ∑ i, w i * Real.exp (t * x i) ≤ Real.exp (t * (∑ i, w i * x i) + t ^ 2 * (b - a) ^ 2 / 8) := by
  set μ : Measure (Fin n) := ∑ i, ENNReal.ofReal (w i) • Measure.dirac i with hμ
  have hint : ∀ f : Fin n → ℝ, ∫ i, f i ∂μ = ∑ i, w i * f i := by
    intro f
    rw [hμ, integral_finsetSum_measure]
    · refine Finset.sum_congr rfl fun i _ => ?_
      rw [integral_smul_measure, integral_dirac, ENNReal.toReal_ofReal (hw i), smul_eq_mul]
    · intro i _
      exact (integrable_dirac (by simp)).smul_measure ENNReal.ofReal_ne_top
  have : IsProbabilityMeasure μ := by
    constructor
    rw [hμ]
    simp only [Measure.coe_finsetSum, Finset.sum_apply, Measure.smul_apply, measure_univ, smul_eq_mul, mul_one]
    rw [← ENNReal.ofReal_sum_of_nonneg fun i _ => hw i, hs, ENNReal.ofReal_one]
  have hsub := hasSubgaussianMGF_of_mem_Icc (μ := μ) (X := x) (a := a) (b := b) (measurable_of_finite x).aemeasurable
    (.of_forall fun i => hx i)
  have h := hsub.mgf_le t
  rw [mgf, hint, hint] at h
  have e : ∑ i, w i * Real.exp (t * x i) = Real.exp (t * ∑ i, w i * x i) *
      ∑ i, w i * Real.exp (t * (x i - ∑ i, w i * x i)) := by
    rw [Finset.mul_sum]
    refine Finset.sum_congr rfl fun i _ => ?_
    rw [mul_sub, Real.exp_sub]
    field_simp
  rw [e, Real.exp_add]
  refine mul_le_mul_of_nonneg_left (h.trans (le_of_eq ?_)) (Real.exp_pos _).le
  congr 1
  push_cast
  rw [Real.norm_eq_abs, div_pow, sq_abs]
  ring

/-- The regret of exponential weights. -/
theorem hedge_regret {n : Nat} (hn : 0 < n) (eta : ℝ) (heta : 0 < eta) {a b : ℝ} (loss : Nat → Fin n → ℝ)
    (T : Nat) (hx : ∀ k < T, ∀ i, a ≤ loss k i ∧ loss k i ≤ b) (j : Fin n) :
    ∑ k ∈ Finset.range T, (∑ i, Real.exp (-(eta * ∑ l ∈ Finset.range k, loss l i)) * loss k i) /
        (∑ i, Real.exp (-(eta * ∑ l ∈ Finset.range k, loss l i))) ≤
      ∑ k ∈ Finset.range T, loss k j + Real.log n / eta + eta * (b - a) ^ 2 / 8 * T := by
  set Φ : Nat → ℝ := fun k => ∑ i, Real.exp (-(eta * ∑ l ∈ Finset.range k, loss l i)) with hΦ
  have : Nonempty (Fin n) := ⟨⟨0, hn⟩⟩
  have hpos : ∀ k, 0 < Φ k := fun k => Finset.sum_pos (fun i _ => Real.exp_pos _) Finset.univ_nonempty
  set L : Nat → ℝ := fun k => (∑ i, Real.exp (-(eta * ∑ l ∈ Finset.range k, loss l i)) * loss k i) / Φ k with hL
  have step : ∀ k < T, Real.log (Φ (k + 1)) ≤ Real.log (Φ k) - eta * L k + eta ^ 2 * (b - a) ^ 2 / 8 := by
    intro k hk
    have h := hoeffding_weights (fun i => Real.exp (-(eta * ∑ l ∈ Finset.range k, loss l i)) / Φ k) (loss k)
      (fun i => div_nonneg (Real.exp_pos _).le (hpos k).le) (by rw [← Finset.sum_div, div_self (hpos k).ne']) (hx k hk) (-eta)
    have e1 : ∑ i, Real.exp (-(eta * ∑ l ∈ Finset.range k, loss l i)) / Φ k * Real.exp (-eta * loss k i) =
        Φ (k + 1) / Φ k := by
      simp only [hΦ]
      rw [Finset.sum_div]
      refine Finset.sum_congr rfl fun i _ => ?_
      rw [Finset.sum_range_succ, div_mul_eq_mul_div, ← Real.exp_add]
      congr 2
      ring
    have e2 : ∑ i, Real.exp (-(eta * ∑ l ∈ Finset.range k, loss l i)) / Φ k * loss k i = L k := by
      simp only [hL]
      rw [Finset.sum_div]
      exact Finset.sum_congr rfl fun i _ => by ring
    rw [e1, e2] at h
    have h' := Real.log_le_log (div_pos (hpos _) (hpos _)) h
    rw [Real.log_exp, Real.log_div (hpos _).ne' (hpos _).ne'] at h'
    nlinarith
  have total : ∀ k ≤ T, Real.log (Φ k) ≤ Real.log n - eta * ∑ l ∈ Finset.range k, L l + eta ^ 2 * (b - a) ^ 2 / 8 * k := by
    intro k
    induction k with
    | zero => intro _; simp [hΦ]
    | succ k ih =>
      intro hk
      have h1 := ih (by omega)
      have h2 := step k (by omega)
      rw [Finset.sum_range_succ]
      push_cast
      nlinarith
  have hlow : -(eta * ∑ l ∈ Finset.range T, loss l j) ≤ Real.log (Φ T) := by
    rw [Real.le_log_iff_exp_le (hpos T)]
    exact Finset.single_le_sum (f := fun i => Real.exp (-(eta * ∑ l ∈ Finset.range T, loss l i)))
      (fun i _ => (Real.exp_pos _).le) (Finset.mem_univ j)
  have h := hlow.trans (total T le_rfl)
  have : eta * ∑ l ∈ Finset.range T, L l ≤
      eta * (∑ k ∈ Finset.range T, loss k j + Real.log n / eta + eta * (b - a) ^ 2 / 8 * T) := by
    have e : eta * (Real.log n / eta) = Real.log n := by field_simp
    nlinarith
  exact le_of_mul_le_mul_left this heta

end Skopt

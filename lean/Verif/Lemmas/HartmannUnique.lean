import Verif.Lemmas.HartmannBound
import Mathlib.Algebra.BigOperators.Field
import Mathlib.Analysis.SpecialFunctions.Trigonometric.Series

/-!
# The Hartmann function has one minimiser

Near the documented point the function is strictly midpoint convex.
-/

namespace Skopt

open Real

theorem hq_mid (x y : Fin 6 → ℝ) (i : Fin 4) :
    hq (fun j => (x j + y j) / 2) i = (hq x i + hq y i) / 2 - ∑ j, (hA i j : ℝ) * ((x j - y j) / 2) ^ 2 := by
  unfold hq
  rw [← Finset.sum_add_distrib, Finset.sum_div, ← Finset.sum_sub_distrib]
  refine Finset.sum_congr rfl fun j _ => ?_
  ring

theorem hq_diff (x y : Fin 6 → ℝ) (i : Fin 4) :
    (hq x i - hq y i) / 2 =
      ∑ j, 2 * (hA i j : ℝ) * ((x j + y j) / 2 - hP i j) * ((x j - y j) / 2) := by
  unfold hq
  rw [← Finset.sum_sub_distrib, Finset.sum_div]
  refine Finset.sum_congr rfl fun j _ => ?_
  ring

/-- Weights for the Cauchy-Schwarz inequality. -/
def hw : Fin 6 → ℚ := ![12, 11, 11, 30, 49, 26]

theorem cauchy_weights (b d : Fin 6 → ℝ) :
    (∑ j, b j * d j) ^ 2 ≤ (∑ j, b j ^ 2 / hw j) * ∑ j, (hw j : ℝ) * d j ^ 2 := by
  have hpos : ∀ j, (0 : ℝ) < hw j := by
    have : ∀ j, 0 < hw j := by decide +kernel
    exact fun j => by exact_mod_cast this j
  have := Finset.sum_sq_le_sum_mul_sum_of_sq_le_mul Finset.univ (r := fun j => b j * d j)
    (f := fun j => b j ^ 2 / hw j) (g := fun j => (hw j : ℝ) * d j ^ 2)
    (fun j _ => div_nonneg (sq_nonneg _) (hpos j).le) (fun j _ => mul_nonneg (hpos j).le (sq_nonneg _))
    (fun j _ => by
      have := (hpos j).ne'
      refine le_of_eq ?_
      field_simp)
  exact this

theorem cosh_bound {t : ℝ} (h : |t| ≤ 1 / 10) : (exp t + exp (-t)) / 2 ≤ 1 + 0.51 * t ^ 2 := by
  have h1 := Real.cosh_le_exp_half_sq t
  rw [Real.cosh_eq] at h1
  have h2 : t ^ 2 ≤ 1 / 100 := by
    have := sq_le_sq' (abs_le.1 h).1 (abs_le.1 h).2
    linarith
  have h3 := Real.exp_bound' (x := t ^ 2 / 2) (by positivity) (by linarith) (n := 2) (by norm_num)
  norm_num [Finset.sum_range_succ, Nat.factorial] at h3
  have h4 : 0 ≤ t ^ 2 := sq_nonneg t
  nlinarith

/-- The distance of a coordinate from a centre is at most this near the documented point. -/
def hU (i : Fin 4) (j : Fin 6) : ℚ := |hX j - hP i j| + 2 / 1000

/-- The distance of a coordinate from a centre is at least this near the documented point. -/
def hV (i : Fin 4) (j : Fin 6) : ℚ := max 0 (|hX j - hP i j| - 2 / 1000)

theorem near_centre {x : Fin 6 → ℝ} (h : ∀ j, |x j - hX j| ≤ 2 / 1000) (i : Fin 4) (j : Fin 6) :
    |x j - hP i j| ≤ hU i j ∧ (hV i j : ℝ) ≤ |x j - hP i j| := by
  have h1 := abs_sub_le (x j) (hX j : ℝ) (hP i j : ℝ)
  have h2 := abs_sub_le (hX j : ℝ) (x j) (hP i j : ℝ)
  rw [abs_sub_comm (hX j : ℝ) (x j)] at h2
  unfold hU hV
  push_cast
  exact ⟨by linarith [h j], max_le (abs_nonneg _) (by linarith [h j])⟩

theorem hA_pos (i : Fin 4) (j : Fin 6) : (0 : ℝ) < hA i j := by
  have : ∀ i j, 0 < hA i j := by decide +kernel
  exact_mod_cast this i j

theorem hq_near {x : Fin 6 → ℝ} (h : ∀ j, |x j - hX j| ≤ 2 / 1000) (i : Fin 4) :
    ((∑ j, hA i j * hV i j ^ 2 : ℚ) : ℝ) ≤ hq x i ∧ hq x i ≤ ((∑ j, hA i j * hU i j ^ 2 : ℚ) : ℝ) := by
  have hV0 : ∀ i j, (0 : ℝ) ≤ hV i j := fun i j => by
    have : 0 ≤ hV i j := le_max_left _ _
    exact_mod_cast this
  unfold hq
  push_cast
  constructor
  · refine Finset.sum_le_sum fun j _ => mul_le_mul_of_nonneg_left ?_ (hA_pos i j).le
    rw [← sq_abs (x j - _)]
    exact pow_le_pow_left₀ (hV0 i j) (near_centre h i j).2 2
  · refine Finset.sum_le_sum fun j _ => mul_le_mul_of_nonneg_left ?_ (hA_pos i j).le
    rw [← sq_abs (x j - _)]
    exact pow_le_pow_left₀ (abs_nonneg _) (near_centre h i j).1 2

/-- Upper bounds for the four terms near the documented point. -/
def hc : Fin 4 → ℚ := ![42 / 100, 105 / 10000, 3, 1 / 1000]

theorem terms_near {m : Fin 4 → ℝ} (h1 : ∀ i, ((∑ j, hA i j * hV i j ^ 2 : ℚ) : ℝ) ≤ m i)
    (h2 : ∀ i, m i ≤ ((∑ j, hA i j * hU i j ^ 2 : ℚ) : ℝ)) :
    (∀ i, (hAl i : ℝ) * exp (-m i) ≤ hc i) ∧ 0.4 ≤ (hAl 0 : ℝ) * exp (-m 0) ∧ 2.88 ≤ (hAl 2 : ℝ) * exp (-m 2) := by
  have hlow : ∀ i, 0 ≤ (∑ j, hA i j * hV i j ^ 2) ∧ hAl i ≤ hc i * hExp (∑ j, hA i j * hV i j ^ 2) := by
    decide +kernel
  have hlow0 : (∑ j, hA 0 j * hU 0 j ^ 2) ≤ 9125 / 10000 := by decide +kernel
  have hlow2 : (∑ j, hA 2 j * hU 2 j ^ 2) ≤ 38 / 1000 := by decide +kernel
  refine ⟨fun i => ?_, ?_, ?_⟩
  · obtain ⟨a, b⟩ := hlow i
    have hal : 0 < hAl i := by revert i; decide +kernel
    have hb : 1 ≤ hc i / hAl i * hExp (∑ j, hA i j * hV i j ^ 2) := by
      rw [div_mul_eq_mul_div, le_div_iff₀ hal]
      linarith
    have := hExp_bound a hb
    have h3 : exp (-m i) ≤ ((hc i / hAl i : ℚ) : ℝ) := (exp_le_exp.2 (neg_le_neg (h1 i))).trans this
    have hal' : (0 : ℝ) < hAl i := by exact_mod_cast hal
    push_cast at h3
    rw [le_div_iff₀ hal'] at h3
    linarith
  · have h3 : m 0 ≤ 0.9125 := by
      refine (h2 0).trans ?_
      have : ((∑ j, hA 0 j * hU 0 j ^ 2 : ℚ) : ℝ) ≤ ((9125 / 10000 : ℚ) : ℝ) := by exact_mod_cast hlow0
      refine this.trans ?_
      norm_num
    have h4 := le_exp_neg (q := 0.9125) (q' := m 0) (r := 0.4) 8 1 (by norm_num) (by norm_num) (by norm_num)
      (by norm_num) (by norm_num) h3 (by norm_num [Finset.sum_range_succ, Nat.factorial])
    have : (hAl 0 : ℝ) = 1 := by norm_num [hAl]
    rw [this]
    linarith
  · have h3 : m 2 ≤ 0.038 := by
      refine (h2 2).trans ?_
      have : ((∑ j, hA 2 j * hU 2 j ^ 2 : ℚ) : ℝ) ≤ ((38 / 1000 : ℚ) : ℝ) := by exact_mod_cast hlow2
      refine this.trans ?_
      norm_num
    have h4 := le_exp_neg (q := 0.038) (q' := m 2) (r := 0.96) 8 1 (by norm_num) (by norm_num) (by norm_num)
      (by norm_num) (by norm_num) h3 (by norm_num [Finset.sum_range_succ, Nat.factorial])
    have : (hAl 2 : ℝ) = 3 := by
      have : hAl 2 = 3 := rfl
      exact_mod_cast this
    rw [this]
    linarith

theorem mid_better {x y : Fin 6 → ℝ} (hx : ∀ j, |x j - hX j| ≤ 2 / 1000) (hy : ∀ j, |y j - hX j| ≤ 2 / 1000)
    (hne : x ≠ y) : (hsum x + hsum y) / 2 < hsum fun j => (x j + y j) / 2 := by
  have hz : ∀ j, |(x j + y j) / 2 - hX j| ≤ 2 / 1000 := by
    intro j
    have h1 := abs_le.1 (hx j)
    have h2 := abs_le.1 (hy j)
    exact abs_le.2 ⟨by linarith, by linarith⟩
  obtain ⟨d, hd⟩ : ∃ d : Fin 6 → ℝ, d = fun j => (x j - y j) / 2 := ⟨_, rfl⟩
  have hdle : ∀ j, |d j| ≤ 2 / 1000 := by
    intro j
    have h1 := abs_le.1 (hx j)
    have h2 := abs_le.1 (hy j)
    rw [hd]
    exact abs_le.2 ⟨by linarith, by linarith⟩
  have hwpos : ∀ j, (0 : ℝ) < hw j := by
    have : ∀ j, 0 < hw j := by decide +kernel
    exact fun j => by exact_mod_cast this j
  have hN : 0 < ∑ j, (hw j : ℝ) * d j ^ 2 := by
    obtain ⟨j, hj⟩ := Function.ne_iff.1 hne
    refine Finset.sum_pos' (fun j _ => mul_nonneg (hwpos j).le (sq_nonneg _)) ⟨j, Finset.mem_univ j, ?_⟩
    refine mul_pos (hwpos j) ((sq_nonneg _).lt_of_ne' (pow_ne_zero 2 ?_))
    rw [hd]
    intro h0
    apply hj
    have : (x j - y j) / 2 = 0 := h0
    linarith
  obtain ⟨N, hNdef⟩ : ∃ N, N = ∑ j, (hw j : ℝ) * d j ^ 2 := ⟨_, rfl⟩
  rw [← hNdef] at hN
  obtain ⟨c, hcdef⟩ : ∃ c : Fin 4 → ℝ, c = fun i => (hAl i : ℝ) * exp (-((hq x i + hq y i) / 2)) := ⟨_, rfl⟩
  have hterms := terms_near (m := fun i => (hq x i + hq y i) / 2)
    (fun i => by have := (hq_near hx i).1; have := (hq_near hy i).1; linarith)
    (fun i => by have := (hq_near hx i).2; have := (hq_near hy i).2; linarith)
  obtain ⟨hcu, hc0, hc2⟩ := hterms
  have hcpos : ∀ i, 0 < c i := by
    intro i
    have : ∀ i, 0 < hAl i := by decide +kernel
    rw [hcdef]
    exact mul_pos (by exact_mod_cast this i) (exp_pos _)
  -- the differences of the exponents
  have hdel : ∀ i, ((hq x i - hq y i) / 2) ^ 2 ≤ ((∑ j, (2 * hA i j * hU i j) ^ 2 / hw j : ℚ) : ℝ) * N := by
    intro i
    rw [hq_diff, hNdef]
    have := cauchy_weights (fun j => 2 * (hA i j : ℝ) * ((x j + y j) / 2 - hP i j)) d
    rw [hd] at this ⊢
    refine this.trans (mul_le_mul_of_nonneg_right ?_ (by rw [hd] at hNdef; rw [← hNdef]; exact hN.le))
    push_cast
    refine Finset.sum_le_sum fun j _ => div_le_div_of_nonneg_right ?_ (hwpos j).le
    rw [mul_pow, mul_pow (2 * (hA i j : ℝ)), ← sq_abs ((x j + y j) / 2 - _)]
    exact mul_le_mul_of_nonneg_left (pow_le_pow_left₀ (abs_nonneg _) (near_centre hz i j).1 2) (sq_nonneg _)
  have hsmall : ∀ i, |(hq x i - hq y i) / 2| ≤ 1 / 10 := by
    intro i
    rw [hq_diff]
    refine (Finset.abs_sum_le_sum_abs _ _).trans ?_
    have hb : ∀ i, ∑ j, 2 * hA i j * hU i j * (2 / 1000) ≤ 1 / 10 := by decide +kernel
    have hb' : ((∑ j, 2 * hA i j * hU i j * (2 / 1000) : ℚ) : ℝ) ≤ ((1 / 10 : ℚ) : ℝ) := by exact_mod_cast hb i
    push_cast at hb'
    refine le_trans (Finset.sum_le_sum fun j _ => ?_) hb'
    rw [abs_mul, abs_mul, abs_of_pos (mul_pos two_pos (hA_pos i j))]
    have h1 := hdle j
    rw [hd] at h1
    exact mul_le_mul (mul_le_mul_of_nonneg_left (near_centre hz i j).1 (mul_pos two_pos (hA_pos i j)).le) h1
      (abs_nonneg _) (mul_nonneg (mul_pos two_pos (hA_pos i j)).le ((abs_nonneg _).trans (near_centre hz i j).1))
  -- the average
  have havg : (hsum x + hsum y) / 2 ≤ ∑ i, c i * (1 + 0.51 * ((hq x i - hq y i) / 2) ^ 2) := by
    unfold hsum
    rw [← Finset.sum_add_distrib, Finset.sum_div]
    refine Finset.sum_le_sum fun i _ => ?_
    have := cosh_bound (hsmall i)
    have e : (hAl i * exp (-hq x i) + hAl i * exp (-hq y i)) / 2 =
        c i * ((exp ((hq x i - hq y i) / 2) + exp (-((hq x i - hq y i) / 2))) / 2) := by
      rw [hcdef]
      have e1 : exp (-hq x i) = exp (-((hq x i + hq y i) / 2)) * exp (-((hq x i - hq y i) / 2)) := by
        rw [← exp_add]; ring_nf
      have e2 : exp (-hq y i) = exp (-((hq x i + hq y i) / 2)) * exp ((hq x i - hq y i) / 2) := by
        rw [← exp_add]; ring_nf
      rw [e1, e2]
      ring
    rw [e]
    exact mul_le_mul_of_nonneg_left this (hcpos i).le
  -- the midpoint
  have hmid : ∑ i, c i * (1 + ∑ j, (hA i j : ℝ) * d j ^ 2) ≤ hsum fun j => (x j + y j) / 2 := by
    unfold hsum
    refine Finset.sum_le_sum fun i _ => ?_
    rw [hq_mid, neg_sub, sub_eq_add_neg, exp_add, hd, hcdef]
    have := Real.add_one_le_exp (∑ j, (hA i j : ℝ) * ((x j - y j) / 2) ^ 2)
    have h0 : 0 ≤ (hAl i : ℝ) * exp (-((hq x i + hq y i) / 2)) := by
      have := (hcpos i).le
      rw [hcdef] at this
      exact this
    nlinarith
  have hDnn : ∀ i, 0 ≤ ∑ j, (hA i j : ℝ) * d j ^ 2 := fun i =>
    Finset.sum_nonneg fun j _ => mul_nonneg (hA_pos i j).le (sq_nonneg _)
  have hgain : N ≤ ∑ i, c i * ∑ j, (hA i j : ℝ) * d j ^ 2 := by
    have h0 : 0.4 ≤ c 0 := by rw [hcdef]; exact hc0
    have h2 : 2.88 ≤ c 2 := by rw [hcdef]; exact hc2
    have e1 : 0.4 * (∑ j, (hA 0 j : ℝ) * d j ^ 2) + 2.88 * (∑ j, (hA 2 j : ℝ) * d j ^ 2) ≤
        ∑ i, c i * ∑ j, (hA i j : ℝ) * d j ^ 2 := by
      rw [Fin.sum_univ_four]
      have a0 := mul_le_mul_of_nonneg_right h0 (hDnn 0)
      have a2 := mul_le_mul_of_nonneg_right h2 (hDnn 2)
      have a1 := mul_nonneg (hcpos 1).le (hDnn 1)
      have a3 := mul_nonneg (hcpos 3).le (hDnn 3)
      linarith
    refine le_trans ?_ e1
    rw [hNdef, Finset.mul_sum, Finset.mul_sum, ← Finset.sum_add_distrib]
    refine Finset.sum_le_sum fun j _ => ?_
    have hb : ∀ j, hw j ≤ 4 / 10 * hA 0 j + 288 / 100 * hA 2 j := by decide +kernel
    have hb' : (hw j : ℝ) ≤ ((4 / 10 * hA 0 j + 288 / 100 * hA 2 j : ℚ) : ℝ) := by exact_mod_cast hb j
    push_cast at hb'
    nlinarith [sq_nonneg (d j)]
  have hloss : ∑ i, c i * (0.51 * ((hq x i - hq y i) / 2) ^ 2) ≤ 0.9 * N := by
    have hb : ∑ i, hc i * (51 / 100 * ∑ j, (2 * hA i j * hU i j) ^ 2 / hw j) ≤ 9 / 10 := by decide +kernel
    have hb' : ((∑ i, hc i * (51 / 100 * ∑ j, (2 * hA i j * hU i j) ^ 2 / hw j) : ℚ) : ℝ) ≤ ((9 / 10 : ℚ) : ℝ) := by
      exact_mod_cast hb
    have hc0 : ∀ i, (0 : ℝ) ≤ hc i := by
      have : ∀ i, 0 ≤ hc i := by decide +kernel
      exact fun i => by exact_mod_cast this i
    have e1 : ∑ i, c i * (0.51 * ((hq x i - hq y i) / 2) ^ 2) ≤
        ∑ i, (hc i : ℝ) * (0.51 * (((∑ j, (2 * hA i j * hU i j) ^ 2 / hw j : ℚ) : ℝ) * N)) := by
      refine Finset.sum_le_sum fun i _ => mul_le_mul ?_ ?_ (by positivity) (hc0 i)
      · rw [hcdef]
        exact hcu i
      · exact mul_le_mul_of_nonneg_left (hdel i) (by norm_num)
    refine e1.trans ?_
    have e2 : ∑ i, (hc i : ℝ) * (0.51 * (((∑ j, (2 * hA i j * hU i j) ^ 2 / hw j : ℚ) : ℝ) * N)) =
        ((∑ i, hc i * (51 / 100 * ∑ j, (2 * hA i j * hU i j) ^ 2 / hw j) : ℚ) : ℝ) * N := by
      push_cast
      rw [Finset.sum_mul]
      refine Finset.sum_congr rfl fun i _ => ?_
      ring
    rw [e2]
    refine (mul_le_mul_of_nonneg_right hb' hN.le).trans ?_
    norm_num
  simp only [mul_add, mul_one, Finset.sum_add_distrib] at havg hmid
  linarith

end Skopt

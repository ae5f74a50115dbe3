import Verif.Model.GbrtFloat
import Verif.Props.FloatForest

/-!
# C156: the uncertainty of the quantile regression surrogate in floating-point arithmetic

The standard deviation is half the difference of two predicted quantiles.  Unlike the forest (C149) it does not cancel badly:
the only rounding is that of the difference.
-/

namespace Skopt

variable {p : ℕ}

/-! ## Lemmas -/

theorem isBinary_half {x : ℝ} (h : IsBinary p x) : IsBinary p (x / 2) := by
  obtain ⟨m, e, hm, rfl⟩ := h
  refine ⟨m, e - 1, hm, ?_⟩
  rw [zpow_sub_one₀ (by norm_num)]
  ring

theorem gbrtStdAt_val (hp : 1 ≤ p) (low high : Bin p) :
    (gbrtStdAt (binArith p) low high).1 = rnd p (high.1 - low.1) / 2 := by
  have h2 : ((binArith p).ofInt 2).1 = 2 := by
    rw [bin_ofInt hp]; norm_num
    have : (2 : ℤ) ^ 1 ≤ 2 ^ p := pow_le_pow_right₀ (by norm_num) hp
    norm_num at this ⊢
    exact this
  show rnd p (((binArith p).sub high low).1 / ((binArith p).ofInt 2).1) = _
  rw [h2, rnd_of_isBinary hp (isBinary_half ((binArith p).sub high low).2)]
  rfl

/-! ## Properties -/

/-- **C156, size.** In floating-point arithmetic of any precision the reported standard deviation differs from half the difference
of the two quantiles by at most the relative error `u`. -/
theorem C156_error (hp : 1 ≤ p) (low high : Bin p) :
    |(gbrtStdAt (binArith p) low high).1 - (high.1 - low.1) / 2| ≤ 1 / 2 ^ p * |(high.1 - low.1) / 2| := by
  rw [gbrtStdAt_val hp, ← sub_div, abs_div, abs_div]
  have := rnd_err p (high.1 - low.1)
  rw [abs_of_pos (show (0 : ℝ) < 2 by norm_num), mul_div_assoc']
  exact div_le_div_of_nonneg_right this (by norm_num)

/-- **C156, sign.** It is positive, zero or negative exactly when the upper quantile is above, equal to or below the lower one. -/
theorem C156_sign (hp : 1 ≤ p) (low high : Bin p) :
    (0 < (gbrtStdAt (binArith p) low high).1 ↔ low.1 < high.1) ∧
    ((gbrtStdAt (binArith p) low high).1 = 0 ↔ low.1 = high.1) ∧
    ((gbrtStdAt (binArith p) low high).1 < 0 ↔ high.1 < low.1) := by
  obtain ⟨u0, u1⟩ := unit_le_half hp
  have he := abs_le.1 (C156_error hp low high)
  have hpos : low.1 < high.1 → 0 < (gbrtStdAt (binArith p) low high).1 := by
    intro h
    rw [abs_of_pos (show 0 < (high.1 - low.1) / 2 by linarith)] at he
    nlinarith [he.1]
  have hneg : high.1 < low.1 → (gbrtStdAt (binArith p) low high).1 < 0 := by
    intro h
    rw [abs_of_neg (show (high.1 - low.1) / 2 < 0 by linarith)] at he
    nlinarith [he.2]
  have hzero : low.1 = high.1 → (gbrtStdAt (binArith p) low high).1 = 0 := by
    intro h
    rw [gbrtStdAt_val hp, h, sub_self, rnd_zero, zero_div]
  refine ⟨⟨fun h => ?_, hpos⟩, ⟨fun h => ?_, hzero⟩, ⟨fun h => ?_, hneg⟩⟩
  · by_contra hc
    rcases (not_lt.1 hc).lt_or_eq with h' | h'
    · linarith [hneg h']
    · linarith [hzero h'.symm]
  · rcases lt_trichotomy low.1 high.1 with h' | h' | h'
    · linarith [hpos h']
    · exact h'
    · linarith [hneg h']
  · by_contra hc
    rcases (not_lt.1 hc).lt_or_eq with h' | h'
    · linarith [hpos h']
    · linarith [hzero h']

/-- **C156, order.** A candidate where the quantiles are at least as far apart is reported to be at least as uncertain. -/
theorem C156_order (hp : 1 ≤ p) (low high low' high' : Bin p) (h : high.1 - low.1 ≤ high'.1 - low'.1) :
    (gbrtStdAt (binArith p) low high).1 ≤ (gbrtStdAt (binArith p) low' high').1 := by
  rw [gbrtStdAt_val hp, gbrtStdAt_val hp]
  exact div_le_div_of_nonneg_right (rnd_mono hp h) (by norm_num)

/-- Quantiles 1, 3 and 2, 7.  Meets the hypotheses of `C156_error`, `C156_sign` and `C156_order`. -/
example : ((binArith 53).ofInt 3).1 - ((binArith 53).ofInt 1).1 ≤ ((binArith 53).ofInt 7).1 - ((binArith 53).ofInt 2).1 := by
  rw [bin_ofInt (by norm_num) (by norm_num), bin_ofInt (by norm_num) (by norm_num), bin_ofInt (by norm_num) (by norm_num),
    bin_ofInt (by norm_num) (by norm_num)]
  norm_num

/-- **C156, link.** With exact numbers this is the standard deviation that `predict(X, return_std=True)` returns. -/
theorem C156_exact (fit : ℝ → List ℝ → ℝ) (qs : List ℝ) (X : List (List ℝ)) (h16 : (0.16 : ℝ) ∈ qs)
    (h50 : (0.5 : ℝ) ∈ qs) (h84 : (0.84 : ℝ) ∈ qs) :
    gbrtPredictStd (.list qs) (gbrtFit fit (.list qs)) X =
      .ok (X.map (fit 0.5), X.map fun x => gbrtStdAt exact (fit 0.16 x) (fit 0.84 x)) := by
  rw [(C70_gbrt_std fit qs X h16 h50 h84).1]
  simp [gbrtStdAt, exact]

/-- The quantiles 0.16, 0.5 and 0.84 and one more.  Meets the hypotheses of `C156_exact`. -/
example : (0.16 : ℝ) ∈ [0.1, 0.16, 0.5, 0.84] ∧ (0.5 : ℝ) ∈ [0.1, 0.16, 0.5, 0.84] ∧ (0.84 : ℝ) ∈ [0.1, 0.16, 0.5, 0.84] := by
  simp

end Skopt

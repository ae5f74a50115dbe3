import Verif.Props.FloatEi

/-!
# C152: improvement per second in floating-point arithmetic
-/

namespace Skopt

variable {p : ℕ}

/-! ## Lemmas -/

/-- The exponent, as computed. -/
theorem exponent_rounded (hp : 1 ≤ p) (mu std : Bin p) :
    |((binArith p).add ((binArith p).sub ((binArith p).ofInt 0) mu)
        ((binArith p).mul (binArith p).half ((binArith p).mul std std))).1 - (-mu.1 + 0.5 * std.1 ^ 2)| ≤
      5 / 2 ^ p * (|mu.1| + std.1 ^ 2 / 2) := by
  obtain ⟨u0, u1⟩ := unit_le_half hp
  have hneg : ((binArith p).sub ((binArith p).ofInt 0) mu).1 = -mu.1 := by
    show rnd p (((binArith p).ofInt 0).1 - mu.1) = -mu.1
    rw [bin_zero, zero_sub, rnd_neg, rnd_of_isBinary hp mu.2]
  have hhalf : (binArith p).half.1 = 1 / 2 := rnd_of_isBinary hp (half_isBinary p)
  have h1 : |((binArith p).mul std std).1 - std.1 * std.1| ≤ 1 / 2 ^ p * |std.1 * std.1| := rnd_err p _
  have h2 : |((binArith p).mul (binArith p).half ((binArith p).mul std std)).1 -
      (binArith p).half.1 * ((binArith p).mul std std).1| ≤
      1 / 2 ^ p * |(binArith p).half.1 * ((binArith p).mul std std).1| := rnd_err p _
  have h3 : |((binArith p).add ((binArith p).sub ((binArith p).ofInt 0) mu)
        ((binArith p).mul (binArith p).half ((binArith p).mul std std))).1 -
      (((binArith p).sub ((binArith p).ofInt 0) mu).1 +
        ((binArith p).mul (binArith p).half ((binArith p).mul std std)).1)| ≤
      1 / 2 ^ p * |((binArith p).sub ((binArith p).ofInt 0) mu).1 +
        ((binArith p).mul (binArith p).half ((binArith p).mul std std)).1| := rnd_err p _
  rw [hhalf] at h2
  rw [hneg] at h3
  rw [abs_mul_self] at h1
  rw [show (5 : ℝ) / 2 ^ p = 5 * (1 / 2 ^ p) by ring]
  generalize ((binArith p).add ((binArith p).sub ((binArith p).ofInt 0) mu)
        ((binArith p).mul (binArith p).half ((binArith p).mul std std))).1 = g at *
  generalize ((binArith p).mul (binArith p).half ((binArith p).mul std std)).1 = h at *
  generalize ((binArith p).mul std std).1 = q at *
  have hq : 0 ≤ std.1 * std.1 := mul_self_nonneg _
  rw [show std.1 ^ 2 = std.1 * std.1 by ring]
  generalize std.1 * std.1 = s at *
  generalize (1 : ℝ) / 2 ^ p = w at *
  have q1 : |q| ≤ (1 + w) * s := by
    have := abs_add_le (q - s) s
    rw [sub_add_cancel, abs_of_nonneg hq] at this
    linarith
  have a1 : |1 / 2 * q| = 1 / 2 * |q| := by rw [abs_mul, abs_of_pos (by norm_num : (0 : ℝ) < 1 / 2)]
  rw [a1] at h2
  have h2' : |h - 1 / 2 * q| ≤ w * (1 / 2 * ((1 + w) * s)) :=
    h2.trans (mul_le_mul_of_nonneg_left (by linarith) u0.le)
  have hws : w * (w * s) ≤ 1 / 2 * (w * s) := mul_le_mul_of_nonneg_right u1 (mul_nonneg u0.le hq)
  have h5 : |h - s / 2| ≤ 5 / 4 * (w * s) := by
    have b := abs_add_le (h - 1 / 2 * q) (1 / 2 * q - s / 2)
    rw [sub_add_sub_cancel] at b
    have c : |1 / 2 * q - s / 2| = 1 / 2 * |q - s| := by
      rw [show 1 / 2 * q - s / 2 = 1 / 2 * (q - s) by ring, abs_mul, abs_of_pos (by norm_num : (0 : ℝ) < 1 / 2)]
    rw [c] at b
    nlinarith
  have h6 : |-mu.1 + h| ≤ |mu.1| + (s / 2 + 5 / 4 * (w * s)) := by
    have b := abs_add_le (-mu.1) h
    rw [abs_neg] at b
    have c := abs_add_le (h - s / 2) (s / 2)
    rw [sub_add_cancel, abs_of_nonneg (by linarith : 0 ≤ s / 2)] at c
    linarith
  have h7 := h3.trans (mul_le_mul_of_nonneg_left h6 u0.le)
  have b := abs_add_le (g - (-mu.1 + h)) (h - s / 2)
  rw [show g - (-mu.1 + h) + (h - s / 2) = g - (-mu.1 + 0.5 * s) by norm_num; ring] at b
  have m0 := mul_nonneg u0.le (abs_nonneg mu.1)
  nlinarith [mul_nonneg u0.le hq]

/-- A product of two nearly known positive numbers. -/
theorem product_error {w r η E R e x P : ℝ} (w0 : 0 ≤ w) (hE : 0 ≤ E) (hR : 0 ≤ R)
    (he : |e - E| ≤ η) (hx : |x - R| ≤ r * R) (hP : |P - e * x| ≤ w * |e * x|) :
    |P - E * R| ≤ R * ((1 + w) * (1 + r) * η + ((1 + w) * (1 + r) - 1) * E) := by
  have η0 : 0 ≤ η := (abs_nonneg _).trans he
  have x1 : |x| ≤ (1 + r) * R := by
    have := abs_add_le (x - R) R
    rw [sub_add_cancel, abs_of_nonneg hR] at this
    linarith
  have t1 : |e * x - E * R| ≤ η * ((1 + r) * R) + E * (r * R) := by
    have a := abs_add_le ((e - E) * x) (E * (x - R))
    rw [show (e - E) * x + E * (x - R) = e * x - E * R by ring, abs_mul, abs_mul, abs_of_nonneg hE] at a
    have b := mul_le_mul he x1 (abs_nonneg _) η0
    have c := mul_le_mul_of_nonneg_left hx hE
    linarith
  have t2 : |e * x| ≤ (η + E) * ((1 + r) * R) := by
    rw [abs_mul]
    have e1 : |e| ≤ η + E := by
      have := abs_add_le (e - E) E
      rw [sub_add_cancel, abs_of_nonneg hE] at this
      linarith
    exact mul_le_mul e1 x1 (abs_nonneg _) (by linarith)
  have t3 := abs_add_le (P - e * x) (e * x - E * R)
  rw [sub_add_sub_cancel] at t3
  have t4 := mul_le_mul_of_nonneg_left t2 w0
  calc |P - E * R| ≤ w * ((η + E) * ((1 + r) * R)) + (η * ((1 + r) * R) + E * (r * R)) := by linarith
    _ = _ := by ring

/-! ## Properties -/

/-- **C152, the expected rate.** The factor `exp(-mu + 0.5 std ** 2)` computed for `EIps` and `PIps` in floating-point arithmetic is
the expectation of one over the evaluation time up to a factor between `(1 - ε) exp(-δ)` and `(1 + ε) exp(δ)` with
`δ = 5 / 2 ^ p * (|mu| + std ** 2 / 2)`, when `np.exp` has relative error `ε`: the relative accuracy is lost in proportion to the
size of the exponent. -/
theorem C152_rate (hp : 1 ≤ p) {ε : ℝ} (h0 : 0 ≤ ε) (h1 : ε ≤ 1) (expF : Bin p → Bin p)
    (hexp : ∀ a : Bin p, |(expF a).1 - Real.exp a.1| ≤ ε * Real.exp a.1) (mu std : Bin p) :
    (1 - ε) * Real.exp (-(5 / 2 ^ p * (|mu.1| + std.1 ^ 2 / 2))) * expectedRate mu.1 std.1 ≤
      (rateAt (binArith p) expF mu std).1 ∧
    (rateAt (binArith p) expF mu std).1 ≤
      (1 + ε) * Real.exp (5 / 2 ^ p * (|mu.1| + std.1 ^ 2 / 2)) * expectedRate mu.1 std.1 := by
  unfold rateAt
  have hg := abs_le.1 (exponent_rounded hp mu std)
  have he := abs_le.1 (hexp ((binArith p).add ((binArith p).sub ((binArith p).ofInt 0) mu)
        ((binArith p).mul (binArith p).half ((binArith p).mul std std))))
  rw [expectedRate_eq]
  generalize ((binArith p).add ((binArith p).sub ((binArith p).ofInt 0) mu)
        ((binArith p).mul (binArith p).half ((binArith p).mul std std))) = g at *
  generalize 5 / 2 ^ p * (|mu.1| + std.1 ^ 2 / 2) = δ at *
  rw [mul_assoc, mul_assoc, ← Real.exp_add, ← Real.exp_add]
  have a := Real.exp_le_exp.2 (show -δ + (-mu.1 + 0.5 * std.1 ^ 2) ≤ g.1 by linarith [hg.1])
  have b := Real.exp_le_exp.2 (show g.1 ≤ δ + (-mu.1 + 0.5 * std.1 ^ 2) by linarith [hg.2])
  constructor
  · have := mul_le_mul_of_nonneg_left a (show 0 ≤ 1 - ε by linarith)
    linarith [he.1]
  · have := mul_le_mul_of_nonneg_left b (show 0 ≤ 1 + ε by linarith)
    linarith [he.2]

/-- A predicted logarithm of the time of 3 ± 1, and a correctly rounded `exp`. -/
example : ∃ (expF : Bin 53 → Bin 53) (mu std : Bin 53),
    (∀ a : Bin 53, |(expF a).1 - Real.exp a.1| ≤ 1 / 2 ^ 53 * Real.exp a.1) ∧ mu.1 = 3 ∧ std.1 = 1 := by
  refine ⟨fun a => .near 53 (Real.exp a.1), (binArith 53).ofInt 3, (binArith 53).ofInt 1, fun a => ?_, ?_, ?_⟩
  · have := rnd_err 53 (Real.exp a.1)
    rwa [abs_of_pos (Real.exp_pos _)] at this
  · rw [bin_ofInt (by norm_num) (by norm_num)]; norm_num
  · rw [bin_ofInt (by norm_num) (by norm_num)]; norm_num

/-- **C152, link to the acquisition function.** In exact arithmetic this is what `_gaussian_acquisition` does to the values of `EI`
and `PI`, candidate by candidate. -/
theorem C152_exact (vals : List ℝ) (t : Pred) :
    perSecond vals t = List.zipWith (fun v ms => perSecondAt exact Real.exp v ms.1 ms.2) vals (t.mu.zip t.std) := by
  have hexp : (List.zipWith (fun m s => Real.exp (-m + 0.5 * s ^ 2)) t.mu t.std) =
      (t.mu.zip t.std).map fun ms => Real.exp (-ms.1 + 0.5 * ms.2 ^ 2) := by
    rw [List.zip, List.map_zipWith]
  unfold perSecond
  rw [hexp, List.zipWith_map_right]
  congr 1
  funext v ms
  have : (exact.half : ℝ) = 0.5 := by norm_num [exact]
  unfold perSecondAt rateAt
  rw [this]
  simp only [exact, pow_two]
  norm_num

example : perSecond [-1] { mu := [0], std := [2] } = [-Real.exp 2] := by
  rw [C152_exact]
  simp only [perSecondAt, rateAt, exact, List.zip_cons_cons, List.zip_nil_right, List.zipWith_cons_cons, List.zipWith_nil_right]
  norm_num

/-- **C152, expected improvement per second.** The value minimised for `acq_func="EIps"` in floating-point arithmetic is minus the
expected improvement times the expected rate, up to the error of `C151_value` and the relative error of `C152_rate`. -/
theorem C152_eips (hp : 1 ≤ p) {ε : ℝ} (h1 : ε ≤ 1) (cdf pdf expF : Bin p → Bin p) (h : Accurate ε cdf pdf)
    (hexp : ∀ a : Bin p, |(expF a).1 - Real.exp a.1| ≤ ε * Real.exp a.1) (yOpt xi mu std muT stdT : Bin p) (hs : 0 < std.1) :
    |(perSecondAt (binArith p) expF ((binArith p).sub ((binArith p).ofInt 0) (eiAt (binArith p) cdf pdf yOpt xi mu std))
        muT stdT).1 - -(expectedImprovement (yOpt.1 - xi.1) mu.1 std.1 * expectedRate muT.1 stdT.1)| ≤
      expectedRate muT.1 stdT.1 *
        ((1 + 1 / 2 ^ p) * ((1 + ε) * Real.exp (5 / 2 ^ p * (|muT.1| + stdT.1 ^ 2 / 2))) *
          ((6 * ε + 9 / 2 ^ p) * (|yOpt.1 - xi.1| + |mu.1| + std.1)) +
        ((1 + 1 / 2 ^ p) * ((1 + ε) * Real.exp (5 / 2 ^ p * (|muT.1| + stdT.1 ^ 2 / 2))) - 1) *
          expectedImprovement (yOpt.1 - xi.1) mu.1 std.1) := by
  obtain ⟨u0, u1⟩ := unit_le_half hp
  have e0 := h.nonneg
  have hv := C151_value hp cdf pdf h yOpt xi mu std hs
  have hr := C152_rate hp e0 h1 expF hexp muT stdT
  have hEI := (expectedImprovement_pos (yOpt.1 - xi.1) mu.1 hs).le
  have hR : 0 ≤ expectedRate muT.1 stdT.1 := by rw [expectedRate_eq]; exact (Real.exp_pos _).le
  have hneg : ((binArith p).sub ((binArith p).ofInt 0) (eiAt (binArith p) cdf pdf yOpt xi mu std)).1 =
      -(eiAt (binArith p) cdf pdf yOpt xi mu std).1 := by
    show rnd p (((binArith p).ofInt 0).1 - (eiAt (binArith p) cdf pdf yOpt xi mu std).1) = _
    rw [bin_zero, zero_sub, rnd_neg, rnd_of_isBinary hp (eiAt (binArith p) cdf pdf yOpt xi mu std).2]
  have hP : (perSecondAt (binArith p) expF ((binArith p).sub ((binArith p).ofInt 0) (eiAt (binArith p) cdf pdf yOpt xi mu std))
        muT stdT).1 = -rnd p ((eiAt (binArith p) cdf pdf yOpt xi mu std).1 *
          (rateAt (binArith p) expF muT stdT).1) := by
    show rnd p (((binArith p).sub ((binArith p).ofInt 0) (eiAt (binArith p) cdf pdf yOpt xi mu std)).1 * _) = _
    rw [hneg, neg_mul, rnd_neg]
  rw [hP, neg_sub_neg, abs_sub_comm]
  set δ := 5 / 2 ^ p * (|muT.1| + stdT.1 ^ 2 / 2) with hδ
  have hδ0 : 0 ≤ δ := by positivity
  have hE1 := Real.one_le_exp hδ0
  have hEx : Real.exp (-δ) * Real.exp δ = 1 := by rw [← Real.exp_add]; simp
  have hEn := Real.exp_pos (-δ)
  have hx : |(rateAt (binArith p) expF muT stdT).1 - expectedRate muT.1 stdT.1| ≤
      ((1 + ε) * Real.exp δ - 1) * expectedRate muT.1 stdT.1 := by
    have hlow : 2 - (1 + ε) * Real.exp δ ≤ (1 - ε) * Real.exp (-δ) := by
      have h3 : 2 ≤ Real.exp (-δ) + Real.exp δ := by nlinarith [sq_nonneg (Real.exp δ - 1)]
      have h4 : Real.exp (-δ) ≤ Real.exp δ := Real.exp_le_exp.2 (by linarith)
      nlinarith
    have h5 := mul_le_mul_of_nonneg_right hlow hR
    rw [abs_le]
    constructor <;> linarith [hr.1, hr.2]
  have := product_error u0.le hEI hR hv hx
    (rnd_err p ((eiAt (binArith p) cdf pdf yOpt xi mu std).1 *
      (rateAt (binArith p) expF muT stdT).1))
  rw [add_sub_cancel] at this
  exact this

/-- **C152, probability of improvement per second.** The value minimised for `acq_func="PIps"` in floating-point arithmetic is minus
the probability of improvement times the expected rate, up to the error of `C151_pi_value` and the relative error of `C152_rate`. -/
theorem C152_pips (hp : 1 ≤ p) {ε : ℝ} (h1 : ε ≤ 1) (cdf pdf expF : Bin p → Bin p) (h : Accurate ε cdf pdf)
    (hexp : ∀ a : Bin p, |(expF a).1 - Real.exp a.1| ≤ ε * Real.exp a.1) (yOpt xi mu std muT stdT : Bin p) (hs : 0 < std.1) :
    |(perSecondAt (binArith p) expF ((binArith p).sub ((binArith p).ofInt 0) (piAt (binArith p) cdf yOpt xi mu std))
        muT stdT).1 - -(improvementProbability (yOpt.1 - xi.1) mu.1 std.1 * expectedRate muT.1 stdT.1)| ≤
      expectedRate muT.1 stdT.1 *
        ((1 + 1 / 2 ^ p) * ((1 + ε) * Real.exp (5 / 2 ^ p * (|muT.1| + stdT.1 ^ 2 / 2))) *
          (ε + 2 / 2 ^ p * (1 + (|yOpt.1 - xi.1| + |mu.1|) / std.1)) +
        ((1 + 1 / 2 ^ p) * ((1 + ε) * Real.exp (5 / 2 ^ p * (|muT.1| + stdT.1 ^ 2 / 2))) - 1) *
          improvementProbability (yOpt.1 - xi.1) mu.1 std.1) := by
  obtain ⟨u0, u1⟩ := unit_le_half hp
  have e0 := h.nonneg
  have hv := C151_pi_value hp cdf pdf h yOpt xi mu std hs
  have hr := C152_rate hp e0 h1 expF hexp muT stdT
  have hEI := (show 0 ≤ improvementProbability (yOpt.1 - xi.1) mu.1 std.1 by
    rw [improvementProbability_eq _ _ hs]; exact normCdf_nonneg _)
  have hR : 0 ≤ expectedRate muT.1 stdT.1 := by rw [expectedRate_eq]; exact (Real.exp_pos _).le
  have hneg : ((binArith p).sub ((binArith p).ofInt 0) (piAt (binArith p) cdf yOpt xi mu std)).1 =
      -(piAt (binArith p) cdf yOpt xi mu std).1 := by
    show rnd p (((binArith p).ofInt 0).1 - (piAt (binArith p) cdf yOpt xi mu std).1) = _
    rw [bin_zero, zero_sub, rnd_neg, rnd_of_isBinary hp (piAt (binArith p) cdf yOpt xi mu std).2]
  have hP : (perSecondAt (binArith p) expF ((binArith p).sub ((binArith p).ofInt 0) (piAt (binArith p) cdf yOpt xi mu std))
        muT stdT).1 = -rnd p ((piAt (binArith p) cdf yOpt xi mu std).1 *
          (rateAt (binArith p) expF muT stdT).1) := by
    show rnd p (((binArith p).sub ((binArith p).ofInt 0) (piAt (binArith p) cdf yOpt xi mu std)).1 * _) = _
    rw [hneg, neg_mul, rnd_neg]
  rw [hP, neg_sub_neg, abs_sub_comm]
  set δ := 5 / 2 ^ p * (|muT.1| + stdT.1 ^ 2 / 2) with hδ
  have hδ0 : 0 ≤ δ := by positivity
  have hE1 := Real.one_le_exp hδ0
  have hEx : Real.exp (-δ) * Real.exp δ = 1 := by rw [← Real.exp_add]; simp
  have hEn := Real.exp_pos (-δ)
  have hx : |(rateAt (binArith p) expF muT stdT).1 - expectedRate muT.1 stdT.1| ≤
      ((1 + ε) * Real.exp δ - 1) * expectedRate muT.1 stdT.1 := by
    have hlow : 2 - (1 + ε) * Real.exp δ ≤ (1 - ε) * Real.exp (-δ) := by
      have h3 : 2 ≤ Real.exp (-δ) + Real.exp δ := by nlinarith [sq_nonneg (Real.exp δ - 1)]
      have h4 : Real.exp (-δ) ≤ Real.exp δ := Real.exp_le_exp.2 (by linarith)
      nlinarith
    have h5 := mul_le_mul_of_nonneg_right hlow hR
    rw [abs_le]
    constructor <;> linarith [hr.1, hr.2]
  have := product_error u0.le hEI hR hv hx
    (rnd_err p ((piAt (binArith p) cdf yOpt xi mu std).1 *
      (rateAt (binArith p) expF muT stdT).1))
  rw [add_sub_cancel] at this
  exact this

/-- Accurate functions, a standard deviation of 1.  Meets the hypotheses of `C152_eips` and `C152_pips`. -/
example : ∃ (cdf pdf expF : Bin 53 → Bin 53) (std : Bin 53), Accurate (1 / 2 ^ 53) cdf pdf ∧
    (∀ a : Bin 53, |(expF a).1 - Real.exp a.1| ≤ 1 / 2 ^ 53 * Real.exp a.1) ∧ 0 < std.1 := by
  refine ⟨fun a => .near 53 (normCdf a.1), fun a => .near 53 (normPdf a.1), fun a => .near 53 (Real.exp a.1),
    (binArith 53).ofInt 1, ⟨by positivity, fun a => ?_, fun a => ?_⟩, fun a => ?_, ?_⟩
  · have := rnd_err 53 (normCdf a.1)
    rwa [abs_of_nonneg (normCdf_nonneg _)] at this
  · have := rnd_err 53 (normPdf a.1)
    rwa [abs_of_nonneg (normPdf_pos _).le] at this
  · have := rnd_err 53 (Real.exp a.1)
    rwa [abs_of_pos (Real.exp_pos _)] at this
  · rw [bin_ofInt (by norm_num) (by norm_num)]; norm_num

/-- **C152, ranking.** Rounding never reverses the ranking of two candidates by improvement per second when one of them is at least as
good in both respects: its improvement is at least as large (`acq` is the negated improvement), and it is predicted to be at least
as fast, with the same uncertainty about the time.  `np.exp` is monotone and not negative. -/
theorem C152_order (hp : 1 ≤ p) (expF : Bin p → Bin p) (h0 : ∀ a, 0 ≤ (expF a).1)
    (hm : ∀ a b : Bin p, a.1 ≤ b.1 → (expF a).1 ≤ (expF b).1) (acq acq' mu mu' std : Bin p)
    (ha : acq.1 ≤ acq'.1) (hn : acq'.1 ≤ 0) (hmu : mu.1 ≤ mu'.1) :
    (perSecondAt (binArith p) expF acq mu std).1 ≤ (perSecondAt (binArith p) expF acq' mu' std).1 ∧
    (perSecondAt (binArith p) expF acq' mu' std).1 ≤ 0 := by
  have hr : (rateAt (binArith p) expF mu' std).1 ≤ (rateAt (binArith p) expF mu std).1 := by
    refine hm _ _ (rnd_mono hp ?_)
    have : rnd p (((binArith p).ofInt 0).1 - mu'.1) ≤ rnd p (((binArith p).ofInt 0).1 - mu.1) := rnd_mono hp (by linarith)
    exact add_le_add this le_rfl
  have h1 : 0 ≤ (rateAt (binArith p) expF mu' std).1 := h0 _
  constructor
  · refine rnd_mono hp (show acq.1 * (rateAt (binArith p) expF mu std).1 ≤ acq'.1 * (rateAt (binArith p) expF mu' std).1 from ?_)
    nlinarith
  · have := rnd_mono hp (show acq'.1 * (rateAt (binArith p) expF mu' std).1 ≤ 0 by nlinarith)
    rwa [rnd_zero] at this

/-- A correctly rounded `exp`, improvements of 2 and 1 predicted to take `exp 3` and `exp 5`. -/
example : ∃ (expF : Bin 53 → Bin 53) (acq acq' mu mu' : Bin 53), (∀ a, 0 ≤ (expF a).1) ∧
    (∀ a b : Bin 53, a.1 ≤ b.1 → (expF a).1 ≤ (expF b).1) ∧ acq.1 < acq'.1 ∧ acq'.1 < 0 ∧ mu.1 < mu'.1 := by
  refine ⟨fun a => .near 53 (Real.exp a.1), (binArith 53).ofInt (-2), (binArith 53).ofInt (-1), (binArith 53).ofInt 3,
    (binArith 53).ofInt 5, fun a => rnd_nonneg (by norm_num) (Real.exp_pos _).le,
    fun a b h => rnd_mono (by norm_num) (Real.exp_le_exp.2 h), ?_, ?_, ?_⟩
  · rw [bin_ofInt (by norm_num) (by norm_num), bin_ofInt (by norm_num) (by norm_num)]; norm_num
  · rw [bin_ofInt (by norm_num) (by norm_num)]; norm_num
  · rw [bin_ofInt (by norm_num) (by norm_num), bin_ofInt (by norm_num) (by norm_num)]; norm_num

end Skopt

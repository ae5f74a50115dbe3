import Verif.Model.AcquisitionFloat
import Verif.Props.Acquisition
import Verif.Props.ObjectiveUnitsEi
import Verif.Props.FloatForest

/-!
# C150: ranking candidates by LCB and PI in floating-point arithmetic
-/

namespace Skopt

variable {p : ℕ}

/-! ## Specification -/

/-- What scipy's `norm.cdf` is relied on for: it is increasing, 1/2 at zero and between 0 and 1. -/
structure CdfLike (cdf : Bin p → Bin p) : Prop where
  mono : ∀ a b, a.1 ≤ b.1 → (cdf a).1 ≤ (cdf b).1
  half : ∀ a, a.1 = 0 → (cdf a).1 = 1 / 2
  unit : ∀ a, 0 ≤ (cdf a).1 ∧ (cdf a).1 ≤ 1

/-- The lower confidence bound in exact arithmetic (`none`: `kappa = "inf"`). -/
noncomputable def lcbReal (kappa : Option ℝ) (mu std : ℝ) : ℝ :=
  match kappa with
  | none => -std
  | some k => mu - k * std

/-! ## Lemmas -/

theorem half_isBinary (p : ℕ) : IsBinary p (1 / 2) :=
  ⟨1, -1, by rw [abs_one]; exact one_le_pow₀ (by norm_num), by norm_num⟩

theorem lcbAt_inf (hp : 1 ≤ p) (mu std : Bin p) : (lcbAt (binArith p) none mu std).1 = -std.1 := by
  show rnd p (((binArith p).ofInt 0).1 - std.1) = -std.1
  rw [bin_zero, zero_sub, rnd_neg, rnd_of_isBinary hp std.2]

/-- One lower confidence bound, as computed. -/
theorem lcbAt_err (hp : 1 ≤ p) (k mu std : Bin p) (hk : 0 ≤ k.1) (hs : 0 ≤ std.1) :
    |(lcbAt (binArith p) (some k) mu std).1 - (mu.1 - k.1 * std.1)| ≤ 3 / 2 ^ p * (|mu.1| + k.1 * std.1) := by
  obtain ⟨u0, u1⟩ := unit_le_half hp
  have h1 := rnd_err p (k.1 * std.1)
  have h2 := rnd_err p (mu.1 - rnd p (k.1 * std.1))
  have hq : 0 ≤ k.1 * std.1 := mul_nonneg hk hs
  rw [abs_of_nonneg hq] at h1
  show |rnd p (mu.1 - rnd p (k.1 * std.1)) - (mu.1 - k.1 * std.1)| ≤ _
  rw [show (3 : ℝ) / 2 ^ p = 3 * (1 / 2 ^ p) by ring]
  generalize k.1 * std.1 = q at *
  generalize rnd p (mu.1 - rnd p q) = R at *
  generalize rnd p q = r at *
  generalize (1 : ℝ) / 2 ^ p = w at *
  have h3 : |mu.1 - r| ≤ |mu.1| + (1 + w) * q := by
    have a := abs_sub mu.1 r
    have b : |r| ≤ |r - q| + |q| := by
      have := abs_add_le (r - q) q
      rwa [sub_add_cancel] at this
    rw [abs_of_nonneg hq] at b
    linarith
  have h4 : |R - (mu.1 - q)| ≤ |R - (mu.1 - r)| + |r - q| := by
    have := abs_sub (R - (mu.1 - r)) (r - q)
    rwa [show R - (mu.1 - r) - (r - q) = R - (mu.1 - q) by ring] at this
  have h5 := mul_le_mul_of_nonneg_left h3 u0.le
  have h6 : w * q * w ≤ w * q := mul_le_of_le_one_right (mul_nonneg u0.le hq) (by linarith)
  have h7 := mul_nonneg u0.le (abs_nonneg mu.1)
  nlinarith

/-! ## Properties -/

/-- The number behind `kappa`. -/
def Kappa.toOption : Kappa → Option ℝ
  | .inf => none
  | .num k => some k

/-- **C150, link to the acquisition functions.** In exact arithmetic the two functions give, candidate by candidate, the values of
`gaussian_lcb` and `gaussian_pi`. -/
theorem C150_exact (q : Pred) (hm : q.muDim = 1) (hs : q.stdDim = 1) (hl : q.mu.length = q.std.length) (kappa : Kappa)
    (yOpt xi : ℝ) :
    gaussianLcb q kappa = List.zipWith (lcbAt exact kappa.toOption) q.mu q.std ∧
    gaussianPi q yOpt xi = .ok (List.zipWith (piAt exact normCdf yOpt xi) q.mu q.std) := by
  constructor
  · cases kappa with
    | num k => rfl
    | inf =>
      unfold gaussianLcb
      dsimp only
      obtain ⟨mu, std, _, _⟩ := q
      dsimp only at hl ⊢
      induction mu generalizing std with
      | nil => cases std with
        | nil => rfl
        | cons _ _ => simp at hl
      | cons m mu ih => cases std with
        | nil => simp at hl
        | cons s std =>
          rw [List.map_cons, List.zipWith_cons_cons, ih std hm hs (by simpa using hl)]
          simp [lcbAt, Kappa.toOption, exact]
  · rw [gaussianPi_eq q hm hs hl]
    have : piAt exact normCdf yOpt xi = fun m s => if 0 < s then normCdf ((yOpt - xi - m) / s) else 0 := by
      funext m s
      simp [piAt, exact]
    rw [this]

example : ∃ q : Pred, q.muDim = 1 ∧ q.stdDim = 1 ∧ q.mu.length = q.std.length ∧ q.mu ≠ [] :=
  ⟨{ mu := [1, 2], std := [0, 3] }, rfl, rfl, rfl, by simp⟩

/-- **C150, dominance.** In floating-point arithmetic too, a candidate with a smaller predicted mean and a larger uncertainty never
gets the worse (larger) lower confidence bound. -/
theorem C150_lcb_dominance (hp : 1 ≤ p) (kappa : Option (Bin p)) (hk : ∀ k, kappa = some k → 0 ≤ k.1)
    (mu mu' std std' : Bin p) (hmu : mu.1 ≤ mu'.1) (hstd : std'.1 ≤ std.1) :
    (lcbAt (binArith p) kappa mu std).1 ≤ (lcbAt (binArith p) kappa mu' std').1 := by
  cases kappa with
  | none => rw [lcbAt_inf hp, lcbAt_inf hp]; linarith
  | some k =>
    have h := rnd_mono hp (mul_le_mul_of_nonneg_left hstd (hk k rfl))
    exact rnd_mono hp (sub_le_sub hmu h)

example : ∃ k mu mu' std std' : Bin 53, 0 ≤ k.1 ∧ mu.1 ≤ mu'.1 ∧ std'.1 ≤ std.1 ∧ mu.1 < mu'.1 := by
  refine ⟨(binArith 53).ofInt 2, (binArith 53).ofInt 0, (binArith 53).ofInt 1, (binArith 53).ofInt 1, (binArith 53).ofInt 0,
    ?_, ?_, ?_, ?_⟩ <;>
  simp only [bin_zero, bin_ofInt (p := 53) (k := 1) (by norm_num) (by norm_num),
    bin_ofInt (p := 53) (k := 2) (by norm_num) (by norm_num)] <;> norm_num

/-- **C150, the choice (partial).** The candidate with the smallest computed lower confidence bound has, up to three roundings of
either candidate, the smallest exact one; with `kappa = "inf"` it is exactly the candidate with the largest uncertainty.

Missing: that the computed bounds tell apart candidates whose exact bounds differ.  That is false: see `C150_refuted_tie`. -/
theorem C150_lcb_choice_partial (hp : 1 ≤ p) (kappa : Option (Bin p)) (hk : ∀ k, kappa = some k → 0 ≤ k.1)
    (cands : List (Bin p × Bin p)) (hs : ∀ c ∈ cands, 0 ≤ c.2.1) (c : Bin p × Bin p) (hc : c ∈ cands)
    (hmin : ∀ d ∈ cands, lcbAt (binArith p) kappa c.1 c.2 ≤ lcbAt (binArith p) kappa d.1 d.2) :
    ∀ d ∈ cands, lcbReal (kappa.map Subtype.val) c.1.1 c.2.1 ≤ lcbReal (kappa.map Subtype.val) d.1.1 d.2.1 +
      match kappa with
      | none => 0
      | some k => 3 / 2 ^ p * (|c.1.1| + k.1 * c.2.1) + 3 / 2 ^ p * (|d.1.1| + k.1 * d.2.1) := by
  intro d hd
  have h : (lcbAt (binArith p) kappa c.1 c.2).1 ≤ (lcbAt (binArith p) kappa d.1 d.2).1 := hmin d hd
  cases kappa with
  | none =>
    rw [lcbAt_inf hp, lcbAt_inf hp] at h
    simpa [lcbReal] using h
  | some k =>
    have h1 := abs_le.1 (lcbAt_err hp k c.1 c.2 (hk k rfl) (hs c hc))
    have h2 := abs_le.1 (lcbAt_err hp k d.1 d.2 (hk k rfl) (hs d hd))
    simp only [lcbReal, Option.map_some]
    linarith [h1.1, h2.2]

/-- Two candidates, `kappa = 2`: means 0 and 5, deviations 1 and 1. -/
example : ∃ (k : Bin 53) (cands : List (Bin 53 × Bin 53)) (c : Bin 53 × Bin 53), 0 ≤ k.1 ∧ (∀ c ∈ cands, 0 ≤ c.2.1) ∧
    c ∈ cands ∧ cands.length = 2 ∧
    ∀ d ∈ cands, lcbAt (binArith 53) (some k) c.1 c.2 ≤ lcbAt (binArith 53) (some k) d.1 d.2 := by
  have h1 : ((binArith 53).ofInt 1).1 = 1 := by rw [bin_ofInt (by norm_num) (by norm_num)]; norm_num
  have h2 : ((binArith 53).ofInt 2).1 = 2 := by rw [bin_ofInt (by norm_num) (by norm_num)]; norm_num
  have h5 : ((binArith 53).ofInt 5).1 = 5 := by rw [bin_ofInt (by norm_num) (by norm_num)]; norm_num
  refine ⟨(binArith 53).ofInt 2, [((binArith 53).ofInt 0, (binArith 53).ofInt 1), ((binArith 53).ofInt 5, (binArith 53).ofInt 1)],
    ((binArith 53).ofInt 0, (binArith 53).ofInt 1), by rw [h2]; norm_num, ?_, by simp, rfl, ?_⟩
  · intro c hc
    simp only [List.mem_cons, List.not_mem_nil, or_false] at hc
    rcases hc with rfl | rfl <;> simp only [h1] <;> norm_num
  · intro d hd
    simp only [List.mem_cons, List.not_mem_nil, or_false] at hd
    rcases hd with rfl | rfl
    · exact le_rfl
    · exact C150_lcb_dominance (by norm_num) _ (fun k hk => by cases hk; rw [h2]; norm_num) _ _ _ _
        (by rw [bin_zero, h5]; norm_num) le_rfl

/-- **C150 is false of close candidates.** In doubles with `kappa = 1`, two candidates with predicted mean `-2 ** 60` and
deviations 1 and 100 get the same lower confidence bound: the exploration bonus is rounded away, and which of the two is chosen is
decided by their order. -/
theorem C150_refuted_tie : ∃ k mu std std' : Bin 53, k.1 = 1 ∧ mu.1 = -2 ^ 60 ∧ std.1 = 1 ∧ std'.1 = 100 ∧
    lcbReal (some k.1) mu.1 std'.1 < lcbReal (some k.1) mu.1 std.1 ∧
    lcbAt (binArith 53) (some k) mu std' = lcbAt (binArith 53) (some k) mu std := by
  have rp : (1 : ℕ) ≤ 53 := by norm_num
  have b1 : IsBinary 53 (1 : ℝ) := ⟨1, 0, by norm_num, by norm_num⟩
  have b100 : IsBinary 53 (100 : ℝ) := ⟨100, 0, by norm_num, by norm_num⟩
  have bm : IsBinary 53 (-2 ^ 60 : ℝ) := ⟨-1, 60, by norm_num, by norm_num⟩
  refine ⟨⟨1, b1⟩, ⟨-2 ^ 60, bm⟩, ⟨1, b1⟩, ⟨100, b100⟩, rfl, rfl, rfl, rfl, ?_, ?_⟩
  · simp only [lcbReal]; norm_num
  · apply Subtype.ext
    show rnd 53 (-2 ^ 60 - rnd 53 ((1 : ℝ) * 100)) = rnd 53 (-2 ^ 60 - rnd 53 ((1 : ℝ) * 1))
    rw [one_mul, one_mul, rnd_of_isBinary rp b100, rnd_of_isBinary rp b1,
      show (-2 ^ 60 - 100 : ℝ) = -(2 ^ 60 + 100) by ring, show (-2 ^ 60 - 1 : ℝ) = -(2 ^ 60 + 1) by ring, rnd_neg, rnd_neg,
      rnd_coarse (x := (2 : ℝ) ^ 60 + 100) (2 ^ 52) (by norm_num) (by norm_num) (by norm_num) (by norm_num),
      rnd_coarse (x := (2 : ℝ) ^ 60 + 1) (2 ^ 52) (by norm_num) (by norm_num) (by norm_num) (by norm_num)]

/-- **C150, PI.** In floating-point arithmetic `gaussian_pi` is between 0 and 1; at an uncertain candidate it is at least 1/2 if the
mean is at most the (rounded) target `y_opt - xi` and at most 1/2 if the mean is at least the target, without any tolerance; and of
two candidates with the same uncertainty the one with the smaller mean never gets the smaller value. -/
theorem C150_pi (hp : 1 ≤ p) (cdf : Bin p → Bin p) (h : CdfLike cdf) (yOpt xi mu std : Bin p) :
    (0 ≤ (piAt (binArith p) cdf yOpt xi mu std).1 ∧ (piAt (binArith p) cdf yOpt xi mu std).1 ≤ 1) ∧
    (0 < std.1 → mu.1 ≤ rnd p (yOpt.1 - xi.1) → 1 / 2 ≤ (piAt (binArith p) cdf yOpt xi mu std).1) ∧
    (0 < std.1 → rnd p (yOpt.1 - xi.1) ≤ mu.1 → (piAt (binArith p) cdf yOpt xi mu std).1 ≤ 1 / 2) ∧
    (∀ mu' : Bin p, mu.1 ≤ mu'.1 →
      (piAt (binArith p) cdf yOpt xi mu' std).1 ≤ (piAt (binArith p) cdf yOpt xi mu std).1) := by
  have hz : ∃ z : Bin p, z.1 = 0 := ⟨(binArith p).ofInt 0, bin_zero p⟩
  obtain ⟨z, hz⟩ := hz
  have hpos : ∀ m : Bin p, 0 < std.1 → piAt (binArith p) cdf yOpt xi m std =
      cdf ((binArith p).div ((binArith p).sub ((binArith p).sub yOpt xi) m) std) := by
    intro m hs
    have : (binArith p).ofInt 0 < std := by
      show ((binArith p).ofInt 0).1 < std.1
      rwa [bin_zero]
    rw [piAt, if_pos this]
  have hneg : ∀ m : Bin p, ¬ 0 < std.1 → (piAt (binArith p) cdf yOpt xi m std).1 = 0 := by
    intro m hs
    have : ¬ (binArith p).ofInt 0 < std := by
      show ¬ ((binArith p).ofInt 0).1 < std.1
      rwa [bin_zero]
    rw [piAt, if_neg this, bin_zero]
  have hval : ∀ m : Bin p, ((binArith p).div ((binArith p).sub ((binArith p).sub yOpt xi) m) std).1 =
      rnd p (rnd p (rnd p (yOpt.1 - xi.1) - m.1) / std.1) := fun m => rfl
  refine ⟨?_, fun hs hm => ?_, fun hs hm => ?_, fun mu' hmu => ?_⟩
  · by_cases hs : 0 < std.1
    · rw [hpos _ hs]; exact h.unit _
    · rw [hneg _ hs]; norm_num
  · rw [hpos _ hs, ← h.half z hz]
    refine h.mono _ _ ?_
    rw [hval, hz]
    exact rnd_nonneg hp (div_nonneg (rnd_nonneg hp (sub_nonneg.2 hm)) hs.le)
  · rw [hpos _ hs, ← h.half z hz]
    refine h.mono _ _ ?_
    rw [hval, hz]
    have h1 : rnd p (rnd p (yOpt.1 - xi.1) - mu.1) ≤ 0 := by
      have := rnd_mono hp (sub_nonpos.2 hm)
      rwa [rnd_zero] at this
    have := rnd_mono hp (div_nonpos_of_nonpos_of_nonneg h1 hs.le)
    rwa [rnd_zero] at this
  · by_cases hs : 0 < std.1
    · rw [hpos _ hs, hpos _ hs]
      refine h.mono _ _ ?_
      rw [hval, hval]
      exact rnd_mono hp (div_le_div_of_nonneg_right (rnd_mono hp (sub_le_sub_left hmu _)) hs.le)
    · rw [hneg _ hs, hneg _ hs]

/-- The rounded normal distribution function is such a function. -/
example : CdfLike (p := 53) fun x => .near 53 (normCdf x.1) where
  mono a b h := rnd_mono (by norm_num) (normCdf_strictMono.monotone h)
  half a h := by
    show rnd 53 (normCdf a.1) = 1 / 2
    rw [h, normCdf_zero, rnd_of_isBinary (by norm_num) (half_isBinary 53)]
  unit a := by
    refine ⟨rnd_nonneg (by norm_num) (normCdf_nonneg _), ?_⟩
    have := rnd_mono (p := 53) (by norm_num) (normCdf_le_one a.1)
    rwa [rnd_one (by norm_num)] at this

end Skopt

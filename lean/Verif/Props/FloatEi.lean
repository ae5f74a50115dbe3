import Verif.Props.FloatAcquisition
import Verif.Props.Exploration

/-!
# C151: expected improvement in floating-point arithmetic
-/

namespace Skopt

variable {p : ℕ}

/-! ## Specification -/

/-- `cdf` and `pdf` compute the normal distribution function and density up to a relative error of `ε`. -/
structure Accurate (ε : ℝ) (cdf pdf : Bin p → Bin p) : Prop where
  nonneg : 0 ≤ ε
  cdf : ∀ a : Bin p, |(cdf a).1 - normCdf a.1| ≤ ε * normCdf a.1
  pdf : ∀ a : Bin p, |(pdf a).1 - normPdf a.1| ≤ ε * normPdf a.1

/-! ## Lemmas -/

theorem normPdf_le_half (x : ℝ) : normPdf x ≤ 1 / 2 := by
  unfold normPdf
  have h1 : Real.exp (-x ^ 2 / 2) ≤ 1 := Real.exp_le_one_iff.2 (by nlinarith [sq_nonneg x])
  have h2 : 2 ≤ √(2 * Real.pi) := Real.le_sqrt_of_sq_le (by nlinarith [Real.pi_gt_three])
  rw [div_le_div_iff₀ (by linarith) (by norm_num)]
  linarith

theorem sq_mul_normPdf_le (x : ℝ) : x ^ 2 * normPdf x ≤ 1 := by
  unfold normPdf
  have h2 : 2 ≤ √(2 * Real.pi) := Real.le_sqrt_of_sq_le (by nlinarith [Real.pi_gt_three])
  have h1 : x ^ 2 / 2 * Real.exp (-x ^ 2 / 2) ≤ 1 := by
    have a := Real.add_one_le_exp (x ^ 2 / 2)
    have b : Real.exp (x ^ 2 / 2) * Real.exp (-x ^ 2 / 2) = 1 := by
      rw [← Real.exp_add, show x ^ 2 / 2 + -x ^ 2 / 2 = 0 by ring, Real.exp_zero]
    have c := Real.exp_pos (-x ^ 2 / 2)
    nlinarith
  rw [← mul_div_assoc, div_le_one (by linarith)]
  linarith

theorem unitEi_lip (a b : ℝ) : |unitEi a - unitEi b| ≤ |a - b| := by
  have hm : Monotone fun z => z - unitEi z := by
    refine monotone_of_hasDerivAt_nonneg (f' := fun z => 1 - normCdf z)
      (fun z => (hasDerivAt_id z).sub (unitEi_hasDerivAt z)) fun z => ?_
    exact sub_nonneg.2 (normCdf_le_one z)
  rcases le_total a b with h | h
  · have h1 := unitEi_monotone h
    have h2 : a - unitEi a ≤ b - unitEi b := hm h
    rw [abs_of_nonpos (by linarith), abs_of_nonpos (by linarith)]
    linarith
  · have h1 := unitEi_monotone h
    have h2 : b - unitEi b ≤ a - unitEi a := hm h
    rw [abs_of_nonneg (by linarith), abs_of_nonneg (by linarith)]
    linarith

/-- An error of the scaled improvement hardly matters: the derivative vanishes. -/
theorem scaled_error {w t t' : ℝ} (w0 : 0 ≤ w) (w1 : w ≤ 1 / 2) (h : |t - t'| ≤ w * |t'|) :
    |t' * normCdf t + normPdf t - unitEi t'| ≤ 2 * w := by
  by_cases h0 : t' = 0
  · subst h0
    have : t = 0 := by
      rw [abs_zero, mul_zero] at h
      simpa using le_antisymm h (abs_nonneg _)
    subst this
    simp [unitEi, w0]
  have hp : 0 < |t'| := abs_pos.2 h0
  have hd : ∀ x ∈ Set.uIcc t' t, HasDerivWithinAt (fun x => t' * normCdf x + normPdf x)
      ((t' - x) * normPdf x) (Set.uIcc t' t) x := by
    intro x _
    refine HasDerivAt.hasDerivWithinAt ?_
    refine (((normCdf_hasDerivAt x).const_mul t').add (normPdf_hasDerivAt x)).congr_deriv ?_
    ring
  have hb : ∀ x ∈ Set.uIcc t' t, ‖(t' - x) * normPdf x‖ ≤ 4 * w / |t'| := by
    intro x hx
    have hx1 : |x - t'| ≤ w * |t'| := (Set.abs_sub_left_of_mem_uIcc hx).trans (by rwa [abs_sub_comm] at h ⊢)
    have hx2 : |t'| ≤ 2 * |x| := by
      have := abs_sub_abs_le_abs_sub t' x
      rw [abs_sub_comm] at this
      nlinarith
    have hq := sq_mul_normPdf_le x
    have hpdf := normPdf_pos x
    rw [Real.norm_eq_abs, abs_mul, abs_of_pos hpdf, abs_sub_comm, le_div_iff₀ hp]
    have h4 : |t'| ^ 2 ≤ 4 * x ^ 2 := by
      have := mul_self_le_mul_self hp.le hx2
      nlinarith [sq_abs x]
    calc |x - t'| * normPdf x * |t'| ≤ (w * |t'|) * normPdf x * |t'| := by gcongr
      _ = w * (|t'| ^ 2 * normPdf x) := by ring
      _ ≤ w * (4 * x ^ 2 * normPdf x) := by gcongr
      _ = 4 * w * (x ^ 2 * normPdf x) := by ring
      _ ≤ 4 * w * 1 := by gcongr
      _ = 4 * w := mul_one _
  have hmv := (convex_uIcc t' t).norm_image_sub_le_of_norm_hasDerivWithin_le hd hb Set.left_mem_uIcc Set.right_mem_uIcc
  rw [Real.norm_eq_abs, Real.norm_eq_abs] at hmv
  refine hmv.trans ?_
  calc 4 * w / |t'| * |t - t'| ≤ 4 * w / |t'| * (w * |t'|) := by gcongr
    _ = 4 * w * w := by field_simp
    _ ≤ 2 * w := by nlinarith

/-- An error of the scaled improvement changes the probability little. -/
theorem scaled_error_cdf {w t t' : ℝ} (w0 : 0 ≤ w) (w1 : w ≤ 1 / 2) (h : |t - t'| ≤ w * |t'|) :
    |normCdf t - normCdf t'| ≤ 2 * w := by
  by_cases h0 : t' = 0
  · subst h0
    have : t = 0 := by
      rw [abs_zero, mul_zero] at h
      simpa using le_antisymm h (abs_nonneg _)
    subst this
    simp [w0]
  have hp : 0 < |t'| := abs_pos.2 h0
  have hd : ∀ x ∈ Set.uIcc t' t, HasDerivWithinAt normCdf (normPdf x) (Set.uIcc t' t) x :=
    fun x _ => (normCdf_hasDerivAt x).hasDerivWithinAt
  have hb : ∀ x ∈ Set.uIcc t' t, ‖normPdf x‖ ≤ 2 / |t'| := by
    intro x hx
    have hx1 : |x - t'| ≤ w * |t'| := (Set.abs_sub_left_of_mem_uIcc hx).trans (by rwa [abs_sub_comm] at h ⊢)
    have hx2 : |t'| ≤ 2 * |x| := by
      have := abs_sub_abs_le_abs_sub t' x
      rw [abs_sub_comm] at this
      nlinarith
    have hq := sq_mul_normPdf_le x
    have hpdf := normPdf_pos x
    have hhalf := normPdf_le_half x
    rw [Real.norm_eq_abs, abs_of_pos hpdf, le_div_iff₀ hp]
    have : 2 * |x| ≤ 1 + x ^ 2 := by nlinarith [sq_nonneg (|x| - 1), sq_abs x]
    nlinarith
  have hmv := (convex_uIcc t' t).norm_image_sub_le_of_norm_hasDerivWithin_le hd hb Set.left_mem_uIcc Set.right_mem_uIcc
  rw [Real.norm_eq_abs, Real.norm_eq_abs] at hmv
  refine hmv.trans ?_
  calc 2 / |t'| * |t - t'| ≤ 2 / |t'| * (w * |t'|) := by gcongr
    _ = 2 * w := by field_simp

theorem normCdf_lip (a b : ℝ) : |normCdf a - normCdf b| ≤ 1 / 2 * |a - b| := by
  have hmv := convex_univ.norm_image_sub_le_of_norm_hasDerivWithin_le (f := normCdf) (f' := normPdf) (C := 1 / 2) (x := b)
    (y := a) (s := Set.univ) (fun x _ => (normCdf_hasDerivAt x).hasDerivWithinAt)
    (fun x _ => by rw [Real.norm_eq_abs, abs_of_pos (normPdf_pos x)]; exact normPdf_le_half x) trivial trivial
  simpa [Real.norm_eq_abs] using hmv

/-- Two products and their sum, as computed. -/
theorem two_products {w ε i s Φ φ c d X Y E : ℝ} (w0 : 0 ≤ w) (w1 : w ≤ 1 / 2) (e0 : 0 ≤ ε) (hs : 0 ≤ s)
    (hΦ0 : 0 ≤ Φ) (hφ0 : 0 ≤ φ) (hc : |c - Φ| ≤ ε * Φ) (hd : |d - φ| ≤ ε * φ)
    (hX : |X - i * c| ≤ w * |i * c|) (hY : |Y - s * d| ≤ w * |s * d|) (hE : |E - (X + Y)| ≤ w * |X + Y|) :
    |E - (i * Φ + s * φ)| ≤ (9 / 4 * ε + 5 / 2 * w) * (|i| * Φ + s * φ) := by
  have key : ∀ {a b g Z : ℝ}, 0 ≤ b → |g - b| ≤ ε * b → |Z - a * g| ≤ w * |a * g| →
      |Z - a * b| ≤ (ε + w * (1 + ε)) * (|a| * b) := by
    intro a b g Z b0 hg hZ
    have g1 : |g| ≤ (1 + ε) * b := by
      have := abs_add_le (g - b) b
      rw [sub_add_cancel, abs_of_nonneg b0] at this
      linarith
    have t1 : |a * g - a * b| ≤ ε * (|a| * b) := by
      rw [← mul_sub, abs_mul]
      nlinarith [mul_le_mul_of_nonneg_left hg (abs_nonneg a)]
    have t2 : w * |a * g| ≤ w * (1 + ε) * (|a| * b) := by
      rw [abs_mul]
      have := mul_le_mul_of_nonneg_left g1 (mul_nonneg w0 (abs_nonneg a))
      linarith
    have t3 := abs_add_le (Z - a * g) (a * g - a * b)
    rw [sub_add_sub_cancel] at t3
    linarith
  have kX := key hΦ0 hc hX
  have kY := key hφ0 hd hY
  rw [abs_of_nonneg hs] at kY
  have bX : |X| ≤ (1 + (ε + w * (1 + ε))) * (|i| * Φ) := by
    have := abs_add_le (X - i * Φ) (i * Φ)
    rw [sub_add_cancel, abs_mul, abs_of_nonneg hΦ0] at this
    linarith
  have bY : |Y| ≤ (1 + (ε + w * (1 + ε))) * (s * φ) := by
    have := abs_add_le (Y - s * φ) (s * φ)
    rw [sub_add_cancel, abs_mul, abs_of_nonneg hφ0, abs_of_nonneg hs] at this
    linarith
  have hXY := (abs_add_le X Y).trans (add_le_add bX bY)
  have hE' : |E - (X + Y)| ≤ w * (1 + (ε + w * (1 + ε))) * (|i| * Φ + s * φ) := by
    have := mul_le_mul_of_nonneg_left hXY w0
    linarith
  have t1 := abs_add_le (E - (X + Y)) ((X - i * Φ) + (Y - s * φ))
  rw [show E - (X + Y) + (X - i * Φ + (Y - s * φ)) = E - (i * Φ + s * φ) by ring] at t1
  have t2 := abs_add_le (X - i * Φ) (Y - s * φ)
  have hA : 0 ≤ |i| * Φ + s * φ := by positivity
  have hcoef : w * (1 + (ε + w * (1 + ε))) + (ε + w * (1 + ε)) ≤ 9 / 4 * ε + 5 / 2 * w := by
    nlinarith [mul_nonneg w0 e0, mul_nonneg (mul_nonneg w0 w0) e0, mul_nonneg e0 (show 0 ≤ 1 / 2 - w by linarith),
      mul_nonneg w0 (show 0 ≤ 1 / 2 - w by linarith), mul_nonneg (mul_nonneg w0 e0) (show 0 ≤ 1 / 2 - w by linarith)]
  calc |E - (i * Φ + s * φ)| ≤ (w * (1 + (ε + w * (1 + ε))) + (ε + w * (1 + ε))) * (|i| * Φ + s * φ) := by linarith
    _ ≤ _ := mul_le_mul_of_nonneg_right hcoef hA

/-- The density is at most `z ** 2 + 3` times the expected improvement of a standard normal value below `z`: the third moment of
the improvement is not negative. -/
theorem normPdf_le_unitEi (z : ℝ) : normPdf z ≤ (z ^ 2 + 3) * unitEi z := by
  have hE := fun t => (unitEi_pos t).le
  have hinv : ∀ y : ℝ, y ≤ -1 → 1 / y ≤ y * normPdf y ∧ 1 / y ≤ -normPdf y := by
    intro y hy
    have hq := sq_mul_normPdf_le y
    have hp := normPdf_pos y
    have h1 : 1 / y = -(1 / -y) := by rw [one_div_neg_eq_neg_one_div, neg_neg]
    have h2 : (-y) * normPdf y ≤ 1 / -y := by
      rw [le_div_iff₀ (by linarith)]; nlinarith
    refine ⟨by rw [h1]; linarith, ?_⟩
    rw [h1]
    nlinarith
  have small : ∀ {g : ℝ → ℝ}, Monotone g → (∀ y, y ≤ -1 → 1 / y ≤ g y) → ∀ t, 0 ≤ g t := by
    intro g hg hb t
    by_contra hn
    have hn : g t < 0 := not_le.1 hn
    set y := min t (min (-1) (2 / g t)) with hy
    have y1 : y ≤ -1 := (min_le_right _ _).trans (min_le_left _ _)
    have y2 : y ≤ 2 / g t := (min_le_right _ _).trans (min_le_right _ _)
    have h1 := (hb y y1).trans (hg (min_le_left _ _))
    have h2 : g t * y ≤ 1 := by
      have := mul_le_mul_of_nonpos_right h1 (show y ≤ 0 by linarith)
      rwa [one_div, inv_mul_cancel₀ (by linarith)] at this
    have h3 : 2 ≤ g t * y := by
      have := mul_le_mul_of_nonpos_left y2 hn.le
      rwa [mul_div_cancel₀ _ hn.ne] at this
    linarith
  have d2 : ∀ t, HasDerivAt (fun t => normCdf t + t * unitEi t) (2 * unitEi t) t := by
    intro t
    refine ((normCdf_hasDerivAt t).add ((hasDerivAt_id t).mul (unitEi_hasDerivAt t))).congr_deriv ?_
    simp only [id, unitEi]; ring
  have g2 : ∀ t, 0 ≤ normCdf t + t * unitEi t := by
    refine small (monotone_of_hasDerivAt_nonneg d2 fun t => mul_nonneg (by norm_num) (hE t)) fun y hy => ?_
    have h1 : unitEi y ≤ normPdf y := by
      unfold unitEi
      nlinarith [normCdf_nonneg y]
    have := normCdf_nonneg y
    nlinarith [(hinv y hy).1]
  have d3 : ∀ t, HasDerivAt (fun t => 2 * unitEi t + t * (normCdf t + t * unitEi t)) (3 * (normCdf t + t * unitEi t)) t := by
    intro t
    refine (((unitEi_hasDerivAt t).const_mul 2).add ((hasDerivAt_id t).mul (d2 t))).congr_deriv ?_
    simp only [id]; ring
  have g3 : ∀ t, 0 ≤ 2 * unitEi t + t * (normCdf t + t * unitEi t) := by
    refine small (monotone_of_hasDerivAt_nonneg d3 fun t => mul_nonneg (by norm_num) (g2 t)) fun y hy => ?_
    have h1 : -normPdf y ≤ y * normCdf y := by
      have := hE y
      unfold unitEi at this
      linarith
    have := hE y
    nlinarith [(hinv y hy).2, mul_nonneg (mul_self_nonneg y) (hE y)]
  have h := g3 z
  have e : normPdf z = unitEi z - z * normCdf z := by unfold unitEi; ring
  rw [e]
  nlinarith [hE z]

/-- The arithmetic of `C151_positive_partial`. -/
theorem positive_of_bounds {w ε s t z Φ φ U E : ℝ} (u0 : 0 < w) (u1 : w ≤ 1 / 2) (e0 : 0 ≤ ε) (hs : 0 < s) (hΦ : 0 ≤ Φ)
    (hφ : 0 < φ) (hq : t ≤ 0) (t2 : z - t ≤ w * -t) (hTe : -z * Φ ≤ φ) (hue : U = z * Φ + φ) (hm : φ ≤ (z ^ 2 + 3) * U)
    (hk : (z ^ 2 + 3) * (7 * ε + 10 * w) ≤ 1)
    (k2 : -((9 / 4 * ε + 5 / 2 * w) * (-(s * t) * Φ + s * φ)) ≤ E - (s * t * Φ + s * φ)) : 0 < E := by
  have ht2 : -t ≤ 2 * -z := by nlinarith
  have htΦ : -t * Φ ≤ 2 * φ := by
    have := mul_le_mul_of_nonneg_right ht2 hΦ
    linarith
  have hlow : U - 2 * w * φ ≤ t * Φ + φ := by
    have h1 := mul_le_mul_of_nonneg_right t2 hΦ
    have h2 := mul_le_mul_of_nonneg_left htΦ u0.le
    have h3 : w * -t * Φ = w * (-t * Φ) := by ring
    rw [hue]
    linarith
  have hpos : 0 < z ^ 2 + 3 := by positivity
  have hU : (7 * ε + 10 * w) * φ ≤ U := by
    have h1 := mul_le_mul_of_nonneg_right hk hφ.le
    have h2 : (z ^ 2 + 3) * ((7 * ε + 10 * w) * φ) ≤ (z ^ 2 + 3) * U := by linarith
    exact le_of_mul_le_mul_left h2 hpos
  have hb : -(s * t) * Φ + s * φ ≤ s * (3 * φ) := by
    have := mul_le_mul_of_nonneg_left htΦ hs.le
    linarith
  have hco : 0 ≤ 9 / 4 * ε + 5 / 2 * w := by positivity
  have hb' := mul_le_mul_of_nonneg_left hb hco
  have hlow' := mul_le_mul_of_nonneg_left hlow hs.le
  have hU' := mul_le_mul_of_nonneg_left hU hs.le
  have p1 : 0 ≤ ε * (s * φ) := by positivity
  have p2 : 0 < w * (s * φ) := by positivity
  linarith

/-- The improvement, as computed. -/
theorem improve_rounded (hp : 1 ≤ p) (y m : ℝ) :
    |rnd p (rnd p y - m) - (y - m)| ≤ 5 / 2 * (1 / 2 ^ p) * (|y| + |m|) := by
  obtain ⟨u0, u1⟩ := unit_le_half hp
  have h1 := rnd_err p y
  have h2 := rnd_err p (rnd p y - m)
  generalize rnd p (rnd p y - m) = i at *
  generalize rnd p y = a at *
  generalize (1 : ℝ) / 2 ^ p = w at *
  have h3 : |a - m| ≤ (1 + w) * |y| + |m| := by
    have b1 := abs_sub a m
    have b2 := abs_add_le (a - y) y
    rw [sub_add_cancel] at b2
    linarith
  have h4 := abs_add_le (i - (a - m)) (a - y)
  rw [show i - (a - m) + (a - y) = i - (y - m) by ring] at h4
  have h5 := mul_le_mul_of_nonneg_left h3 u0.le
  nlinarith [abs_nonneg y, abs_nonneg m, mul_nonneg (mul_nonneg u0.le (abs_nonneg y)) (show 0 ≤ 1 / 2 - w by linarith),
    mul_nonneg u0.le (abs_nonneg m)]

/-! ## Properties -/

/-- **C151, the value.** The expected improvement computed by `gaussian_ei` in floating-point arithmetic differs from the expectation
of the improvement below `y_opt - xi` under the predicted normal distribution by at most `6 ε + 9 / 2 ^ p` times the size of the
numbers involved, when scipy's `norm.cdf` and `norm.pdf` have relative error `ε`. -/
theorem C151_value (hp : 1 ≤ p) {ε : ℝ} (cdf pdf : Bin p → Bin p) (h : Accurate ε cdf pdf) (yOpt xi mu std : Bin p)
    (hs : 0 < std.1) :
    |(eiAt (binArith p) cdf pdf yOpt xi mu std).1 - expectedImprovement (yOpt.1 - xi.1) mu.1 std.1| ≤
      (6 * ε + 9 / 2 ^ p) * (|yOpt.1 - xi.1| + |mu.1| + std.1) := by
  obtain ⟨u0, u1⟩ := unit_le_half hp
  have hlt : (binArith p).ofInt 0 < std := by
    show ((binArith p).ofInt 0).1 < std.1
    rwa [bin_zero]
  rw [eiAt, if_pos hlt, scaled_unitEi _ _ hs]
  dsimp only
  set I := (binArith p).sub ((binArith p).sub yOpt xi) mu with hI
  set T := (binArith p).div I std with hT
  have hi : |I.1 - (yOpt.1 - xi.1 - mu.1)| ≤ 5 / 2 * (1 / 2 ^ p) * (|yOpt.1 - xi.1| + |mu.1|) :=
    improve_rounded hp (yOpt.1 - xi.1) mu.1
  have ht : |T.1 - I.1 / std.1| ≤ 1 / 2 ^ p * |I.1 / std.1| := rnd_err p _
  have hX : |((binArith p).mul I (cdf T)).1 - I.1 * (cdf T).1| ≤ 1 / 2 ^ p * |I.1 * (cdf T).1| := rnd_err p _
  have hY : |((binArith p).mul std (pdf T)).1 - std.1 * (pdf T).1| ≤ 1 / 2 ^ p * |std.1 * (pdf T).1| := rnd_err p _
  have hE : |((binArith p).add ((binArith p).mul I (cdf T)) ((binArith p).mul std (pdf T))).1 -
      (((binArith p).mul I (cdf T)).1 + ((binArith p).mul std (pdf T)).1)| ≤
      1 / 2 ^ p * |((binArith p).mul I (cdf T)).1 + ((binArith p).mul std (pdf T)).1| := rnd_err p _
  have k1 := two_products u0.le u1 h.nonneg hs.le (normCdf_nonneg T.1) (normPdf_pos T.1).le (h.cdf T) (h.pdf T)
    hX hY hE
  have hone : |I.1| * normCdf T.1 + std.1 * normPdf T.1 ≤ |I.1| + std.1 :=
    add_le_add (mul_le_of_le_one_right (abs_nonneg _) (normCdf_le_one _))
      (mul_le_of_le_one_right hs.le ((normPdf_le_half T.1).trans (by norm_num)))
  replace k1 := k1.trans (mul_le_mul_of_nonneg_left hone (by have := h.nonneg; positivity))
  have k2 := scaled_error u0.le u1 ht
  have k3 := unitEi_lip (I.1 / std.1) ((yOpt.1 - xi.1 - mu.1) / std.1)
  rw [← sub_div, abs_div, abs_of_pos hs, le_div_iff₀ hs] at k3
  have k2' : |I.1 * normCdf T.1 + std.1 * normPdf T.1 - std.1 * unitEi (I.1 / std.1)| ≤ 2 * (1 / 2 ^ p) * std.1 := by
    have e : I.1 * normCdf T.1 + std.1 * normPdf T.1 - std.1 * unitEi (I.1 / std.1) =
        std.1 * (I.1 / std.1 * normCdf T.1 + normPdf T.1 - unitEi (I.1 / std.1)) := by
      field_simp
    rw [e, abs_mul, abs_of_pos hs]
    nlinarith
  have k3' : |std.1 * unitEi (I.1 / std.1) - std.1 * unitEi ((yOpt.1 - xi.1 - mu.1) / std.1)| ≤
      |I.1 - (yOpt.1 - xi.1 - mu.1)| := by
    rw [← mul_sub, abs_mul, abs_of_pos hs, mul_comm]; exact k3
  have hIb : |I.1| ≤ 9 / 4 * (|yOpt.1 - xi.1| + |mu.1|) := by
    have b1 := abs_add_le (I.1 - (yOpt.1 - xi.1 - mu.1)) (yOpt.1 - xi.1 - mu.1)
    rw [sub_add_cancel] at b1
    have b2 := abs_sub (yOpt.1 - xi.1) mu.1
    nlinarith [abs_nonneg (yOpt.1 - xi.1), abs_nonneg mu.1]
  rw [show (9 : ℝ) / 2 ^ p = 9 * (1 / 2 ^ p) by ring]
  generalize ((binArith p).add ((binArith p).mul I (cdf T)) ((binArith p).mul std (pdf T))).1 = E at *
  generalize I.1 * normCdf T.1 + std.1 * normPdf T.1 = H at *
  generalize std.1 * unitEi (I.1 / std.1) = G at *
  generalize std.1 * unitEi ((yOpt.1 - xi.1 - mu.1) / std.1) = K at *
  have hB : 0 ≤ |yOpt.1 - xi.1| + |mu.1| := add_nonneg (abs_nonneg _) (abs_nonneg _)
  generalize |yOpt.1 - xi.1| + |mu.1| = B at *
  generalize (1 : ℝ) / 2 ^ p = w at *
  have t : |E - K| ≤ |E - H| + |H - G| + |G - K| := by
    have a := abs_add_le (E - H + (H - G)) (G - K)
    have b := abs_add_le (E - H) (H - G)
    rw [show E - H + (H - G) + (G - K) = E - K by ring] at a
    linarith
  have e0 := h.nonneg
  have hco : (9 / 4 * ε + 5 / 2 * w) * (|I.1| + std.1) ≤ (9 / 4 * ε + 5 / 2 * w) * (9 / 4 * B + std.1) :=
    mul_le_mul_of_nonneg_left (by linarith) (by positivity)
  nlinarith [mul_nonneg e0 hB, mul_nonneg e0 hs.le, mul_nonneg u0.le hB, mul_nonneg u0.le hs.le]

/-- Rounding the exact functions is accurate to `1 / 2 ^ 53`; an improvement over 3 is hoped for where 2 ± 1 is predicted. -/
example : ∃ (cdf pdf : Bin 53 → Bin 53) (yOpt xi mu std : Bin 53), Accurate (1 / 2 ^ 53) cdf pdf ∧ 0 < std.1 ∧
    yOpt.1 = 3 ∧ xi.1 = 0 ∧ mu.1 = 2 := by
  refine ⟨fun a => .near 53 (normCdf a.1), fun a => .near 53 (normPdf a.1), (binArith 53).ofInt 3, (binArith 53).ofInt 0,
    (binArith 53).ofInt 2, (binArith 53).ofInt 1, ⟨by positivity, fun a => ?_, fun a => ?_⟩, ?_, ?_, bin_zero 53, ?_⟩
  · have := rnd_err 53 (normCdf a.1)
    rwa [abs_of_nonneg (normCdf_nonneg _)] at this
  · have := rnd_err 53 (normPdf a.1)
    rwa [abs_of_nonneg (normPdf_pos _).le] at this
  · rw [bin_ofInt (by norm_num) (by norm_num)]; norm_num
  · rw [bin_ofInt (by norm_num) (by norm_num)]; norm_num
  · rw [bin_ofInt (by norm_num) (by norm_num)]; norm_num

/-- **C151, the choice.** The candidate with the largest computed expected improvement has, up to the errors of the two values, the
largest expectation of the improvement. -/
theorem C151_choice (hp : 1 ≤ p) {ε : ℝ} (cdf pdf : Bin p → Bin p) (h : Accurate ε cdf pdf) (yOpt xi : Bin p)
    (cands : List (Bin p × Bin p)) (hs : ∀ c ∈ cands, 0 < c.2.1) (c : Bin p × Bin p) (hc : c ∈ cands)
    (hmax : ∀ d ∈ cands, eiAt (binArith p) cdf pdf yOpt xi d.1 d.2 ≤ eiAt (binArith p) cdf pdf yOpt xi c.1 c.2) :
    ∀ d ∈ cands, expectedImprovement (yOpt.1 - xi.1) d.1.1 d.2.1 ≤ expectedImprovement (yOpt.1 - xi.1) c.1.1 c.2.1 +
      (6 * ε + 9 / 2 ^ p) * (2 * |yOpt.1 - xi.1| + |c.1.1| + |d.1.1| + c.2.1 + d.2.1) := by
  intro d hd
  have h1 := abs_le.1 (C151_value hp cdf pdf h yOpt xi c.1 c.2 (hs c hc))
  have h2 := abs_le.1 (C151_value hp cdf pdf h yOpt xi d.1 d.2 (hs d hd))
  have h3 : (eiAt (binArith p) cdf pdf yOpt xi d.1 d.2).1 ≤ (eiAt (binArith p) cdf pdf yOpt xi c.1 c.2).1 := hmax d hd
  linarith [h1.2, h2.1]

/-- Of any non-empty list of candidates one has the largest computed value. -/
example (cdf pdf : Bin p → Bin p) (yOpt xi : Bin p) (cands : List (Bin p × Bin p)) (hne : cands ≠ []) :
    ∃ c ∈ cands, ∀ d ∈ cands, eiAt (binArith p) cdf pdf yOpt xi d.1 d.2 ≤ eiAt (binArith p) cdf pdf yOpt xi c.1 c.2 := by
  obtain ⟨x, hx⟩ := List.exists_mem_of_ne_nil cands hne
  obtain ⟨c, hc, hmax⟩ := Set.exists_max_image {d | d ∈ cands} (fun d => eiAt (binArith p) cdf pdf yOpt xi d.1 d.2)
    (List.finite_toSet cands) ⟨x, hx⟩
  exact ⟨c, hc, hmax⟩

/-- **C151, PI.** The probability of improvement computed by `gaussian_pi` in floating-point arithmetic differs from the probability
of a value below `y_opt - xi` under the predicted normal distribution by at most `ε`, two roundings and the rounding error of the
improvement relative to the standard deviation. -/
theorem C151_pi_value (hp : 1 ≤ p) {ε : ℝ} (cdf pdf : Bin p → Bin p) (h : Accurate ε cdf pdf) (yOpt xi mu std : Bin p)
    (hs : 0 < std.1) :
    |(piAt (binArith p) cdf yOpt xi mu std).1 - improvementProbability (yOpt.1 - xi.1) mu.1 std.1| ≤
      ε + 2 / 2 ^ p * (1 + (|yOpt.1 - xi.1| + |mu.1|) / std.1) := by
  obtain ⟨u0, u1⟩ := unit_le_half hp
  have hlt : (binArith p).ofInt 0 < std := by
    show ((binArith p).ofInt 0).1 < std.1
    rwa [bin_zero]
  rw [piAt, if_pos hlt, improvementProbability_eq _ _ hs]
  set I := (binArith p).sub ((binArith p).sub yOpt xi) mu with hI
  set T := (binArith p).div I std with hT
  have hi : |I.1 - (yOpt.1 - xi.1 - mu.1)| ≤ 5 / 2 * (1 / 2 ^ p) * (|yOpt.1 - xi.1| + |mu.1|) :=
    improve_rounded hp (yOpt.1 - xi.1) mu.1
  have ht : |T.1 - I.1 / std.1| ≤ 1 / 2 ^ p * |I.1 / std.1| := rnd_err p _
  have k1 : |(cdf T).1 - normCdf T.1| ≤ ε := (h.cdf T).trans (mul_le_of_le_one_right h.nonneg (normCdf_le_one _))
  have k2 := scaled_error_cdf u0.le u1 ht
  have k3 := normCdf_lip (I.1 / std.1) ((yOpt.1 - xi.1 - mu.1) / std.1)
  rw [← sub_div, abs_div, abs_of_pos hs] at k3
  have k4 : 1 / 2 * (|I.1 - (yOpt.1 - xi.1 - mu.1)| / std.1) ≤
      5 / 4 * (1 / 2 ^ p) * ((|yOpt.1 - xi.1| + |mu.1|) / std.1) := by
    have := div_le_div_of_nonneg_right hi hs.le
    rw [mul_div_assoc] at this
    linarith
  have hB : 0 ≤ (|yOpt.1 - xi.1| + |mu.1|) / std.1 := by positivity
  rw [show (2 : ℝ) / 2 ^ p = 2 * (1 / 2 ^ p) by ring]
  have a := abs_add_le ((cdf T).1 - normCdf T.1 + (normCdf T.1 - normCdf (I.1 / std.1)))
    (normCdf (I.1 / std.1) - normCdf ((yOpt.1 - xi.1 - mu.1) / std.1))
  have b := abs_add_le ((cdf T).1 - normCdf T.1) (normCdf T.1 - normCdf (I.1 / std.1))
  rw [sub_add_sub_cancel, sub_add_sub_cancel] at a
  rw [sub_add_sub_cancel] at b
  have c := mul_nonneg u0.le hB
  nlinarith

/-- A standard deviation of 1 and a target of 3. -/
example : ∃ yOpt xi mu std : Bin 53, 0 < std.1 ∧ yOpt.1 - xi.1 = 3 ∧ mu.1 = 2 := by
  refine ⟨(binArith 53).ofInt 3, (binArith 53).ofInt 0, (binArith 53).ofInt 2, (binArith 53).ofInt 1, ?_, ?_, ?_⟩
  · rw [bin_ofInt (by norm_num) (by norm_num)]; norm_num
  · rw [bin_zero, bin_ofInt (by norm_num) (by norm_num)]; norm_num
  · rw [bin_ofInt (by norm_num) (by norm_num)]; norm_num

/-- **C151, sign.** The computed expected improvement is zero where the surrogate is certain; it is not negative where the predicted
mean is at most the (rounded) target, and there it is at least half the computed improvement, up to `ε` and rounding. -/
theorem C151_sign (hp : 1 ≤ p) {ε : ℝ} (cdf pdf : Bin p → Bin p) (h : Accurate ε cdf pdf) (he : ε ≤ 1)
    (yOpt xi mu std : Bin p) :
    (std.1 ≤ 0 → (eiAt (binArith p) cdf pdf yOpt xi mu std).1 = 0) ∧
    (mu.1 ≤ rnd p (yOpt.1 - xi.1) → 0 ≤ (eiAt (binArith p) cdf pdf yOpt xi mu std).1 ∧
      (0 < std.1 → rnd p (rnd p (rnd p (yOpt.1 - xi.1) - mu.1) * ((1 - ε) / 2)) ≤
        (eiAt (binArith p) cdf pdf yOpt xi mu std).1)) := by
  have hz : std.1 ≤ 0 → (eiAt (binArith p) cdf pdf yOpt xi mu std).1 = 0 := by
    intro hs
    have : ¬ (binArith p).ofInt 0 < std := by
      show ¬ ((binArith p).ofInt 0).1 < std.1
      rw [bin_zero]; exact not_lt.2 hs
    rw [eiAt, if_neg this, bin_zero]
  refine ⟨hz, fun hm => ?_⟩
  have main : 0 < std.1 → 0 ≤ rnd p (rnd p (rnd p (yOpt.1 - xi.1) - mu.1) * ((1 - ε) / 2)) ∧
      rnd p (rnd p (rnd p (yOpt.1 - xi.1) - mu.1) * ((1 - ε) / 2)) ≤ (eiAt (binArith p) cdf pdf yOpt xi mu std).1 := by
    intro hs
    have hlt : (binArith p).ofInt 0 < std := by
      show ((binArith p).ofInt 0).1 < std.1
      rwa [bin_zero]
    rw [eiAt, if_pos hlt]
    dsimp only
    set I := (binArith p).sub ((binArith p).sub yOpt xi) mu with hI
    set T := (binArith p).div I std with hT
    have hI0 : 0 ≤ I.1 := rnd_nonneg hp (sub_nonneg.2 hm)
    have hT0 : 0 ≤ T.1 := rnd_nonneg hp (div_nonneg hI0 hs.le)
    have hΦ : 1 / 2 ≤ normCdf T.1 := normCdf_zero ▸ normCdf_strictMono.monotone hT0
    have hc : (1 - ε) / 2 ≤ (cdf T).1 := by
      have := (abs_le.1 (h.cdf T)).1
      nlinarith
    have hd : 0 ≤ (pdf T).1 := by
      have := (abs_le.1 (h.pdf T)).1
      nlinarith [normPdf_pos T.1]
    have hX : rnd p (I.1 * ((1 - ε) / 2)) ≤ ((binArith p).mul I (cdf T)).1 :=
      rnd_mono hp (mul_le_mul_of_nonneg_left hc hI0)
    have hY : 0 ≤ ((binArith p).mul std (pdf T)).1 := rnd_nonneg hp (mul_nonneg hs.le hd)
    refine ⟨rnd_nonneg hp (mul_nonneg hI0 (by linarith)), hX.trans ?_⟩
    have := rnd_mono hp (show ((binArith p).mul I (cdf T)).1 ≤
      ((binArith p).mul I (cdf T)).1 + ((binArith p).mul std (pdf T)).1 by linarith)
    rwa [rnd_of_isBinary hp ((binArith p).mul I (cdf T)).2] at this
  refine ⟨?_, fun hs => (main hs).2⟩
  by_cases hs : 0 < std.1
  · exact (main hs).1.trans (main hs).2
  · rw [hz (not_lt.1 hs)]

example : ∃ yOpt xi mu : Bin 53, mu.1 ≤ rnd 53 (yOpt.1 - xi.1) ∧ yOpt.1 = 3 ∧ mu.1 = 2 := by
  have h3 : ((binArith 53).ofInt 3).1 = 3 := by rw [bin_ofInt (by norm_num) (by norm_num)]; norm_num
  have h2 : ((binArith 53).ofInt 2).1 = 2 := by rw [bin_ofInt (by norm_num) (by norm_num)]; norm_num
  refine ⟨(binArith 53).ofInt 3, (binArith 53).ofInt 0, (binArith 53).ofInt 2, ?_, h3, h2⟩
  rw [bin_zero, sub_zero, rnd_of_isBinary (by norm_num) ((binArith 53).ofInt 3).2, h3, h2]
  norm_num

/-- **C151, positive (partial).** At every uncertain candidate whose mean is at most `k` standard deviations above the target, where
`(k ** 2 + 3) (7 ε + 10 / 2 ** p) ≤ 1`, the computed expected improvement is positive: in doubles with `ε = 2 ** -53` these are 23
million standard deviations (`k` is measured by the computed quotient).

Missing: candidates that are farther away.  (In IEEE arithmetic `norm.pdf` underflows long before.) -/
theorem C151_positive_partial (hp : 1 ≤ p) {ε : ℝ} (cdf pdf : Bin p → Bin p) (h : Accurate ε cdf pdf) (yOpt xi mu std : Bin p)
    (hs : 0 < std.1)
    (hk : (rnd p (rnd p (rnd p (yOpt.1 - xi.1) - mu.1) / std.1) ^ 2 + 3) * (7 * ε + 10 / 2 ^ p) ≤ 1) :
    0 < (eiAt (binArith p) cdf pdf yOpt xi mu std).1 := by
  obtain ⟨u0, u1⟩ := unit_le_half hp
  have hlt : (binArith p).ofInt 0 < std := by
    show ((binArith p).ofInt 0).1 < std.1
    rwa [bin_zero]
  rw [eiAt, if_pos hlt]
  dsimp only
  set I := (binArith p).sub ((binArith p).sub yOpt xi) mu with hI
  set T := (binArith p).div I std with hT
  have hTv : T.1 = rnd p (I.1 / std.1) := rfl
  have hk' : (T.1 ^ 2 + 3) * (7 * ε + 10 * (1 / 2 ^ p)) ≤ 1 := by
    rw [mul_one_div]; exact hk
  have ht : |T.1 - I.1 / std.1| ≤ 1 / 2 ^ p * |I.1 / std.1| := rnd_err p _
  have hX : |((binArith p).mul I (cdf T)).1 - I.1 * (cdf T).1| ≤ 1 / 2 ^ p * |I.1 * (cdf T).1| := rnd_err p _
  have hY : |((binArith p).mul std (pdf T)).1 - std.1 * (pdf T).1| ≤ 1 / 2 ^ p * |std.1 * (pdf T).1| := rnd_err p _
  have hE : |((binArith p).add ((binArith p).mul I (cdf T)) ((binArith p).mul std (pdf T))).1 -
      (((binArith p).mul I (cdf T)).1 + ((binArith p).mul std (pdf T)).1)| ≤
      1 / 2 ^ p * |((binArith p).mul I (cdf T)).1 + ((binArith p).mul std (pdf T)).1| := rnd_err p _
  have k1 := two_products u0.le u1 h.nonneg hs.le (normCdf_nonneg T.1) (normPdf_pos T.1).le (h.cdf T) (h.pdf T) hX hY hE
  have k2 := (abs_le.1 k1).1
  have e0 := h.nonneg
  have hT2 := sq_nonneg T.1
  have hΦ := normCdf_nonneg T.1
  have hφ := normPdf_pos T.1
  have hm := normPdf_le_unitEi T.1
  have hE0 := unitEi_pos T.1
  have hsφ : 0 < std.1 * normPdf T.1 := mul_pos hs hφ
  by_cases hi : 0 ≤ I.1
  · rw [abs_of_nonneg hi] at k2
    have hH : 0 < I.1 * normCdf T.1 + std.1 * normPdf T.1 := add_pos_of_nonneg_of_pos (mul_nonneg hi hΦ) hsφ
    have hco : 9 / 4 * ε + 5 / 2 * (1 / 2 ^ p) ≤ 1 / 2 := by nlinarith [mul_nonneg hT2 e0, mul_nonneg hT2 u0.le]
    nlinarith
  · have hi : I.1 < 0 := not_le.1 hi
    have hT0 : T.1 ≤ 0 := by
      have := rnd_mono hp (div_nonpos_of_nonpos_of_nonneg hi.le hs.le)
      rwa [rnd_zero] at this
    have hq : I.1 / std.1 ≤ 0 := div_nonpos_of_nonpos_of_nonneg hi.le hs.le
    have hIe : I.1 = std.1 * (I.1 / std.1) := by field_simp
    rw [abs_of_nonpos hq] at ht
    rw [abs_of_nonpos hi.le] at k2
    obtain ⟨t1, t2⟩ := abs_le.1 ht
    have hTe : -T.1 * normCdf T.1 ≤ normPdf T.1 := by
      have := hE0.le
      unfold unitEi at this
      linarith
    have hue : unitEi T.1 = T.1 * normCdf T.1 + normPdf T.1 := rfl
    generalize ((binArith p).add ((binArith p).mul I (cdf T)) ((binArith p).mul std (pdf T))).1 = E at *
    generalize I.1 / std.1 = t at *
    rw [hIe] at k2
    generalize T.1 = z at *
    generalize normCdf z = Φ at *
    generalize normPdf z = φ at *
    generalize unitEi z = U at *
    generalize std.1 = s at *
    generalize (1 : ℝ) / 2 ^ p = w at *
    exact positive_of_bounds u0 u1 e0 hs hΦ hφ hq t2 hTe hue hm hk' k2

/-- A mean 5 standard deviations above the target. -/
example : ∃ yOpt xi mu std : Bin 53, 0 < std.1 ∧
    (rnd 53 (rnd 53 (rnd 53 (yOpt.1 - xi.1) - mu.1) / std.1) ^ 2 + 3) * (7 * (1 / 2 ^ 53) + 10 / 2 ^ 53) ≤ 1 ∧ mu.1 = 5 ∧
    yOpt.1 = 0 := by
  have h5 : ((binArith 53).ofInt 5).1 = 5 := by rw [bin_ofInt (by norm_num) (by norm_num)]; norm_num
  have h1 : ((binArith 53).ofInt 1).1 = 1 := by rw [bin_ofInt (by norm_num) (by norm_num)]; norm_num
  have b5 : IsBinary 53 (5 : ℝ) := ⟨5, 0, by norm_num, by norm_num⟩
  refine ⟨(binArith 53).ofInt 0, (binArith 53).ofInt 0, (binArith 53).ofInt 5, (binArith 53).ofInt 1, by rw [h1]; norm_num, ?_,
    h5, bin_zero 53⟩
  rw [bin_zero, sub_zero, rnd_zero, h5, h1, zero_sub, div_one, rnd_neg, rnd_of_isBinary (by norm_num) b5, rnd_neg,
    rnd_of_isBinary (by norm_num) b5]
  norm_num

/-- **C151, link to the acquisition function.** In exact arithmetic this is `gaussian_ei`, candidate by candidate. -/
theorem C151_exact (q : Pred) (hm : q.muDim = 1) (hs : q.stdDim = 1) (hl : q.mu.length = q.std.length) (yOpt xi : ℝ) :
    gaussianEi q yOpt xi = .ok (List.zipWith (eiAt exact normCdf normPdf yOpt xi) q.mu q.std) := by
  rw [gaussianEi_eq q hm hs hl]
  have : eiAt exact normCdf normPdf yOpt xi = fun m s => if 0 < s then
      (yOpt - xi - m) * normCdf ((yOpt - xi - m) / s) + s * normPdf ((yOpt - xi - m) / s) else 0 := by
    funext m s
    simp [eiAt, exact]
  rw [this]

example : ∃ q : Pred, q.muDim = 1 ∧ q.stdDim = 1 ∧ q.mu.length = q.std.length ∧ q.mu ≠ [] :=
  ⟨{ mu := [1, 2], std := [0, 3] }, rfl, rfl, rfl, by simp⟩

/-- **C151 is false of `xi`.** `xi` is subtracted from the best value before anything else, so with objective values of size
`2 ** 60` it has no effect in doubles: at every candidate and whatever `norm.cdf` and `norm.pdf` are, expected improvement with
`xi = 1` is expected improvement with `xi = 0`, although the expectations differ. -/
theorem C151_refuted_xi : ∃ yOpt one zero : Bin 53, yOpt.1 = -2 ^ 60 ∧ one.1 = 1 ∧ zero.1 = 0 ∧
    (∀ cdf pdf mu std, eiAt (binArith 53) cdf pdf yOpt one mu std = eiAt (binArith 53) cdf pdf yOpt zero mu std) ∧
    ∀ mu std : ℝ, 0 < std →
      expectedImprovement (yOpt.1 - one.1) mu std < expectedImprovement (yOpt.1 - zero.1) mu std := by
  have rp : (1 : ℕ) ≤ 53 := by norm_num
  have b1 : IsBinary 53 (1 : ℝ) := ⟨1, 0, by norm_num, by norm_num⟩
  have b0 : IsBinary 53 (0 : ℝ) := ⟨0, 0, by norm_num, by norm_num⟩
  have bm : IsBinary 53 (-2 ^ 60 : ℝ) := ⟨-1, 60, by norm_num, by norm_num⟩
  refine ⟨⟨-2 ^ 60, bm⟩, ⟨1, b1⟩, ⟨0, b0⟩, rfl, rfl, rfl, fun cdf pdf mu std => ?_, fun mu std hs => ?_⟩
  · have e : (binArith 53).sub ⟨-2 ^ 60, bm⟩ ⟨1, b1⟩ = (binArith 53).sub ⟨-2 ^ 60, bm⟩ ⟨0, b0⟩ := by
      apply Subtype.ext
      show rnd 53 (-2 ^ 60 - 1) = rnd 53 (-2 ^ 60 - 0)
      rw [sub_zero, rnd_of_isBinary rp bm, show (-2 ^ 60 - 1 : ℝ) = -(2 ^ 60 + 1) by ring, rnd_neg,
        rnd_coarse (x := (2 : ℝ) ^ 60 + 1) (2 ^ 52) (by norm_num) (by norm_num) (by norm_num) (by norm_num)]
      norm_num
    unfold eiAt
    rw [e]
  · rw [scaled_unitEi _ _ hs, scaled_unitEi _ _ hs]
    refine mul_lt_mul_of_pos_left (unitEi_strictMono ?_) hs
    gcongr
    norm_num

end Skopt

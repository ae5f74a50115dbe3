import Verif.Props.GpOrder
import Mathlib.Analysis.SpecialFunctions.Pow.Asymptotics
import Mathlib.Analysis.Normed.Group.Constructions

/-!
# C110: far away from all observations the Gaussian process knows nothing
-/

namespace Skopt

open Filter Topology

variable {n d : Nat}

/-! ## Specification -/

/-- The covariance of two points stays bounded when one of them moves. -/
def Steady : Kernel d → Prop
  | .rbf _ | .const _ | .white _ | .expSine _ _ => True
  | .matern _ .half | .matern _ .threeHalves | .matern _ .fiveHalves => True
  | .rq a _ => 0 < a
  | .hamming ls => ∀ i, 0 ≤ ls i
  | .sum a b | .prod a b => Steady a ∧ Steady b
  | _ => False

/-- The covariance of two points vanishes when they are far from each other. -/
def Fading : Kernel d → Prop
  | .rbf ls => ∀ i, ls i ≠ 0
  | .matern ls .half | .matern ls .threeHalves | .matern ls .fiveHalves => ∀ i, ls i ≠ 0
  | .rq a l => 0 < a ∧ l ≠ 0
  | .white _ => True
  | .sum a b => Fading a ∧ Fading b
  | .prod a b => Fading a ∧ (Steady b ∨ Fading b) ∨ Steady a ∧ Fading b
  | .expo a p => Fading a ∧ 0 < p
  | _ => False

/-! ## Lemmas -/

/-- Points far from the origin. -/
def farAway (d : Nat) : Filter (Fin d → ℝ) := comap (fun x => ‖x‖) atTop

theorem kdist_lower (ls x y : Fin d → ℝ) (h : ∀ i, ls i ≠ 0) : ‖x - y‖ ≤ ‖ls‖ * kdist ls x y := by
  have h0 : 0 ≤ kdist ls x y := Real.sqrt_nonneg _
  refine (pi_norm_le_iff_of_nonneg (mul_nonneg (norm_nonneg _) h0)).2 fun j => ?_
  have h1 : |kdiff ls x y j| ≤ kdist ls x y := by
    refine Real.abs_le_sqrt ?_
    exact Finset.single_le_sum (f := fun i => kdiff ls x y i ^ 2) (fun i _ => sq_nonneg _) (Finset.mem_univ j)
  have h2 : (x - y) j = ls j * kdiff ls x y j := by
    simp only [kdiff, Pi.sub_apply]
    field_simp [h j]
  rw [h2, norm_mul, Real.norm_eq_abs (kdiff ls x y j)]
  exact mul_le_mul (norm_le_pi_norm ls j) h1 (abs_nonneg _) (norm_nonneg _)

theorem kdist_far (ls y : Fin d → ℝ) (h : ∀ i, ls i ≠ 0) : Tendsto (fun x => kdist ls x y) (farAway d) atTop := by
  have h1 : Tendsto (fun x : Fin d → ℝ => (‖x‖ - ‖y‖) / (‖ls‖ + 1)) (farAway d) atTop :=
    ((tendsto_atTop_add_const_right _ (-‖y‖) tendsto_comap)).atTop_div_const (by positivity)
  refine tendsto_atTop_mono (fun x => ?_) h1
  have h0 : 0 ≤ kdist ls x y := Real.sqrt_nonneg _
  rw [div_le_iff₀ (by positivity)]
  have := kdist_lower ls x y h
  have := norm_sub_norm_le x y
  nlinarith

theorem kdistSq_far (ls y : Fin d → ℝ) (h : ∀ i, ls i ≠ 0) : Tendsto (fun x => kdistSq ls x y) (farAway d) atTop := by
  have := (tendsto_pow_atTop (n := 2) two_ne_zero).comp (kdist_far ls y h)
  refine this.congr fun x => ?_
  exact Real.sq_sqrt (Finset.sum_nonneg fun i _ => sq_nonneg _)

theorem steady_bounded (k : Kernel d) (h : Steady k) (y : Fin d → ℝ) : ∃ B, ∀ x, |k.value x y| ≤ B := by
  induction k with
  | rbf ls =>
    refine ⟨1, fun x => ?_⟩
    have : 0 ≤ kdistSq ls x y := Finset.sum_nonneg fun i _ => sq_nonneg _
    simp only [Kernel.value]
    rw [abs_of_pos (Real.exp_pos _), Real.exp_le_one_iff]
    linarith
  | matern ls nu =>
    cases nu with
    | other f => exact h.elim
    | half =>
      refine ⟨1, fun x => ?_⟩
      have : 0 ≤ kdist ls x y := Real.sqrt_nonneg _
      simp only [Kernel.value, Nu.value]
      rw [abs_of_pos (Real.exp_pos _), Real.exp_le_one_iff]
      linarith
    | threeHalves =>
      refine ⟨1, fun x => ?_⟩
      have h0 : 0 ≤ Real.sqrt 3 * kdist ls x y := mul_nonneg (Real.sqrt_nonneg _) (Real.sqrt_nonneg _)
      simp only [Kernel.value, Nu.value]
      rw [abs_of_nonneg (by positivity), Real.exp_neg, ← div_eq_mul_inv, div_le_one (Real.exp_pos _)]
      have := Real.add_one_le_exp (Real.sqrt 3 * kdist ls x y)
      linarith
    | fiveHalves =>
      refine ⟨1, fun x => ?_⟩
      have h0 : 0 ≤ Real.sqrt 5 * kdist ls x y := mul_nonneg (Real.sqrt_nonneg _) (Real.sqrt_nonneg _)
      simp only [Kernel.value, Nu.value]
      rw [abs_of_nonneg (by positivity), Real.exp_neg, ← div_eq_mul_inv, div_le_one (Real.exp_pos _)]
      have h1 := Real.quadratic_le_exp_of_nonneg h0
      have h2 : (Real.sqrt 5 * kdist ls x y) ^ 2 = 5 * kdist ls x y ^ 2 := by
        rw [mul_pow, Real.sq_sqrt (by norm_num)]
      have := sq_nonneg (kdist ls x y)
      linarith
  | rq a l =>
    refine ⟨1, fun x => ?_⟩
    have ha : 0 < a := h
    have h0 : 0 ≤ kdistSq (fun _ => l) x y := Finset.sum_nonneg fun i _ => sq_nonneg _
    have h1 : 1 ≤ 1 + kdistSq (fun _ => l) x y / (2 * a) := by
      have : 0 ≤ kdistSq (fun _ => l) x y / (2 * a) := by positivity
      linarith
    simp only [Kernel.value]
    rw [abs_of_nonneg (Real.rpow_nonneg (zero_le_one.trans h1) _)]
    exact Real.rpow_le_one_of_one_le_of_nonpos h1 (by linarith)
  | const c => exact ⟨|c|, fun x => le_rfl⟩
  | white v => exact ⟨0, fun x => by simp [Kernel.value]⟩
  | expSine l p =>
    refine ⟨1, fun x => ?_⟩
    simp only [Kernel.value]
    rw [abs_of_pos (Real.exp_pos _), Real.exp_le_one_iff]
    have := sq_nonneg (Real.sin (Real.pi * kdist (fun _ => 1) x y / p) / l)
    linarith
  | hamming ls =>
    refine ⟨1, fun x => ?_⟩
    simp only [Kernel.value]
    rw [abs_of_pos (Real.exp_pos _), Real.exp_le_one_iff, neg_nonpos]
    refine Finset.sum_nonneg fun i _ => mul_nonneg (h i) ?_
    split <;> norm_num
  | sum a b iha ihb =>
    obtain ⟨A, hA⟩ := iha h.1
    obtain ⟨B, hB⟩ := ihb h.2
    exact ⟨A + B, fun x => (abs_add_le _ _).trans (add_le_add (hA x) (hB x))⟩
  | prod a b iha ihb =>
    obtain ⟨A, hA⟩ := iha h.1
    obtain ⟨B, hB⟩ := ihb h.2
    refine ⟨A * B, fun x => ?_⟩
    simp only [Kernel.value]
    rw [abs_mul]
    exact mul_le_mul (hA x) (hB x) (abs_nonneg _) ((abs_nonneg _).trans (hA x))
  | _ => exact h.elim

theorem fading_far (k : Kernel d) (h : Fading k) (y : Fin d → ℝ) :
    Tendsto (fun x => k.value x y) (farAway d) (𝓝 0) := by
  have hexp : ∀ (c : ℝ) (m : Nat), 0 < c → Tendsto (fun r : ℝ => r ^ m * Real.exp (-(c * r))) atTop (𝓝 0) := by
    intro c m hc
    have h1 := (Real.tendsto_pow_mul_exp_neg_atTop_nhds_zero m).comp (tendsto_id.const_mul_atTop hc)
    have h2 := h1.const_mul ((c ^ m)⁻¹)
    rw [mul_zero] at h2
    refine h2.congr fun r => ?_
    simp only [Function.comp, id, mul_pow]
    field_simp
  induction k with
  | rbf ls =>
    have h1 : Tendsto (fun x => (1 / 2) * kdistSq ls x y) (farAway d) atTop :=
      (kdistSq_far ls y h).const_mul_atTop (by norm_num)
    refine (Real.tendsto_exp_neg_atTop_nhds_zero.comp h1).congr fun x => ?_
    simp [Kernel.value]
  | matern ls nu =>
    cases nu with
    | half => exact Real.tendsto_exp_neg_atTop_nhds_zero.comp (kdist_far ls y h)
    | threeHalves =>
      have h3 : (0 : ℝ) < Real.sqrt 3 := by positivity
      have := (hexp _ 0 h3).add ((hexp _ 1 h3).const_mul (Real.sqrt 3))
      rw [mul_zero, add_zero] at this
      refine (this.comp (kdist_far ls y h)).congr fun x => ?_
      simp only [Function.comp, Kernel.value, Nu.value]
      ring
    | fiveHalves =>
      have h5 : (0 : ℝ) < Real.sqrt 5 := by positivity
      have := ((hexp _ 0 h5).add ((hexp _ 1 h5).const_mul (Real.sqrt 5))).add ((hexp _ 2 h5).const_mul (5 / 3))
      rw [mul_zero, mul_zero, add_zero, add_zero] at this
      refine (this.comp (kdist_far ls y h)).congr fun x => ?_
      simp only [Function.comp, Kernel.value, Nu.value]
      ring
    | other f => exact h.elim
  | rq a l =>
    obtain ⟨ha, hl⟩ := h
    have h1 : Tendsto (fun x => 1 + kdistSq (fun _ => l) x y / (2 * a)) (farAway d) atTop :=
      tendsto_atTop_add_const_left _ _
        ((kdistSq_far (fun _ => l) y fun _ => hl).atTop_div_const (by positivity))
    exact (tendsto_rpow_neg_atTop ha).comp h1
  | white v => exact tendsto_const_nhds
  | sum a b iha ihb =>
    have := (iha h.1).add (ihb h.2)
    rw [add_zero] at this
    exact this
  | prod a b iha ihb =>
    simp only [Kernel.value]
    rcases h with ⟨ha, hb | hb⟩ | ⟨ha, hb⟩
    · obtain ⟨B, hB⟩ := steady_bounded b hb y
      refine squeeze_zero_norm (fun x => ?_) (by simpa using ((iha ha).norm.mul_const B))
      rw [norm_mul]
      exact mul_le_mul_of_nonneg_left (hB x) (norm_nonneg _)
    · simpa using (iha ha).mul (ihb hb)
    · obtain ⟨B, hB⟩ := steady_bounded a ha y
      refine squeeze_zero_norm (fun x => ?_) (by simpa using ((ihb hb).norm.const_mul B))
      rw [norm_mul]
      exact mul_le_mul_of_nonneg_right (hB x) (norm_nonneg _)
  | expo a p iha =>
    have := (Real.continuousAt_rpow_const 0 p (.inr h.2.le)).tendsto.comp (iha h.1)
    rw [Real.zero_rpow h.2.ne'] at this
    exact this
  | _ => exact h.elim

theorem Steady.diag_const {k : Kernel d} (h : Steady k) : ∃ c, ∀ x, k.diag x = c := by
  induction k with
  | sum a b iha ihb =>
    obtain ⟨A, hA⟩ := iha h.1
    obtain ⟨B, hB⟩ := ihb h.2
    exact ⟨A + B, fun x => by simp only [Kernel.diag, hA, hB]⟩
  | prod a b iha ihb =>
    obtain ⟨A, hA⟩ := iha h.1
    obtain ⟨B, hB⟩ := ihb h.2
    exact ⟨A * B, fun x => by simp only [Kernel.diag, hA, hB]⟩
  | const c => exact ⟨c, fun x => rfl⟩
  | white c => exact ⟨c, fun x => rfl⟩
  | rbf _ => exact ⟨1, fun x => rfl⟩
  | matern _ _ => exact ⟨1, fun x => rfl⟩
  | rq _ _ => exact ⟨1, fun x => rfl⟩
  | expSine _ _ => exact ⟨1, fun x => rfl⟩
  | hamming _ => exact ⟨1, fun x => rfl⟩
  | _ => exact h.elim

theorem Fading.diag_const {k : Kernel d} (h : Fading k) : ∃ c, ∀ x, k.diag x = c := by
  induction k with
  | sum a b iha ihb =>
    obtain ⟨A, hA⟩ := iha h.1
    obtain ⟨B, hB⟩ := ihb h.2
    exact ⟨A + B, fun x => by simp only [Kernel.diag, hA, hB]⟩
  | prod a b iha ihb =>
    have h1 : ∃ c, ∀ x, a.diag x = c := by
      rcases h with ⟨ha, _⟩ | ⟨ha, _⟩
      · exact iha ha
      · exact ha.diag_const
    have h2 : ∃ c, ∀ x, b.diag x = c := by
      rcases h with ⟨_, hb | hb⟩ | ⟨_, hb⟩
      · exact hb.diag_const
      · exact ihb hb
      · exact ihb hb
    obtain ⟨A, hA⟩ := h1
    obtain ⟨B, hB⟩ := h2
    exact ⟨A * B, fun x => by simp only [Kernel.diag, hA, hB]⟩
  | expo a p iha =>
    obtain ⟨A, hA⟩ := iha h.1
    exact ⟨A ^ p, fun x => by simp only [Kernel.diag, hA]⟩
  | white c => exact ⟨c, fun x => rfl⟩
  | rbf _ => exact ⟨1, fun x => rfl⟩
  | matern _ _ => exact ⟨1, fun x => rfl⟩
  | rq _ _ => exact ⟨1, fun x => rfl⟩
  | _ => exact h.elim

theorem far_radius {p : (Fin d → ℝ) → Prop} (h : ∀ᶠ x in farAway d, p x) : ∃ R, ∀ x, (∃ j, R ≤ |x j|) → p x := by
  obtain ⟨s, hs, hsub⟩ := h
  obtain ⟨R, hR⟩ := mem_atTop_sets.1 hs
  refine ⟨R, fun x ⟨j, hj⟩ => hsub (hR _ ?_)⟩
  exact hj.trans (norm_le_pi_norm x j)

/-! ## C110 -/

/-- **C110.** With a kernel whose covariances vanish at large distances, the prediction goes back to what is known
without observations as one coordinate of the point grows: the mean to the average of the observed values (to zero
without normalisation), the standard deviation to that of the prior times that of the observed values. -/
theorem C110_far_from_observations (g : Gp n d) (h : Fading g.kernel) (norm : Bool) (y : Fin n → ℝ)
    (hn : NormalisedBy norm y g.yMean g.yStd) (eps : ℝ) (he : 0 < eps) :
    ∃ R, ∀ x, (∃ j, R ≤ |x j|) →
      |g.mean x - (if norm then (∑ i, y i) / n else 0)| < eps ∧
        |g.std x - Real.sqrt (g.kernel.diag x) * abs g.yStd| < eps := by
  have hmean : g.yMean = if norm then (∑ i, y i) / n else 0 := by
    cases norm
    · exact hn.1
    · exact hn.1
  have hk : ∀ i, Tendsto (fun x => g.kTrans x i) (farAway d) (𝓝 0) := fun i => fading_far _ h _
  have h1 : Tendsto g.mean (farAway d) (𝓝 g.yMean) := by
    have := ((tendsto_finsetSum Finset.univ fun i _ => (hk i).mul_const (g.alpha i)).const_mul g.yStd).add_const g.yMean
    simp only [zero_mul, Finset.sum_const_zero, mul_zero, zero_add] at this
    exact this
  obtain ⟨c, hc⟩ := h.diag_const
  have h2 : Tendsto g.rawVar (farAway d) (𝓝 c) := by
    have := (tendsto_finsetSum Finset.univ fun i _ => tendsto_finsetSum Finset.univ fun j _ =>
      ((hk i).mul (hk j)).mul_const (g.Kinv i j)).const_sub c
    simp only [zero_mul, Finset.sum_const_zero, sub_zero] at this
    refine this.congr fun x => ?_
    unfold Gp.rawVar
    rw [hc]
  have h3 : Tendsto g.std (farAway d) (𝓝 (Real.sqrt c * |g.yStd|)) := by
    have e : ∀ v : ℝ, (if v < 0 then 0 else v) = max v 0 := by
      intro v
      split
      · exact (max_eq_right (by linarith)).symm
      · exact (max_eq_left (by linarith)).symm
    have := (((h2.max (tendsto_const_nhds (x := (0 : ℝ)))).mul_const (g.yStd ^ 2))).sqrt
    have e2 : Real.sqrt (max c 0 * g.yStd ^ 2) = Real.sqrt c * |g.yStd| := by
      rw [Real.sqrt_mul (le_max_right _ _), Real.sqrt_sq_eq_abs]
      congr 1
      rcases le_total c 0 with h0 | h0
      · rw [max_eq_right h0, Real.sqrt_zero, Real.sqrt_eq_zero_of_nonpos h0]
      · rw [max_eq_left h0]
    rw [e2] at this
    refine this.congr fun x => ?_
    unfold Gp.std
    rw [e]
  have e1 := (Metric.tendsto_nhds.1 h1) eps he
  have e3 := (Metric.tendsto_nhds.1 h3) eps he
  refine far_radius ?_
  filter_upwards [e1, e3] with x a b
  rw [← hmean, hc]
  exact ⟨by simpa [Real.dist_eq] using a, by simpa [Real.dist_eq] using b⟩

/-- The default kernel of the optimizer with noise: a constant times a Matérn kernel, plus white noise. -/
example (c v : ℝ) (ls : Fin 2 → ℝ) (h : ∀ i, ls i ≠ 0) :
    Fading (.sum (.prod (.const c) (.matern ls .fiveHalves)) (.white v)) :=
  ⟨.inr ⟨trivial, h⟩, trivial⟩

/-- One observation, the value 3 at the origin: far away the mean is close to 3 and the standard deviation close to 1. -/
example : ∃ R, ∀ x : Fin 1 → ℝ, (∃ j, R ≤ |x j|) →
    |({ kernel := .rbf fun _ => 2, X := ![![0]], L := !![1], alpha := ![0], yMean := 3, yStd := 1 } :
      Gp 1 1).mean x - 3| < 1 / 100 ∧
    |({ kernel := .rbf fun _ => 2, X := ![![0]], L := !![1], alpha := ![0], yMean := 3, yStd := 1 } :
      Gp 1 1).std x - 1| < 1 / 100 := by
  obtain ⟨R, h⟩ := C110_far_from_observations (n := 1) (d := 1)
    { kernel := .rbf fun _ => 2, X := ![![0]], L := !![1], alpha := ![0], yMean := 3, yStd := 1 }
    (fun _ => two_ne_zero) true ![3] (by norm_num [NormalisedBy]) (1 / 100) (by norm_num)
  refine ⟨R, fun x hx => ?_⟩
  simpa [Kernel.diag] using h x hx

end Skopt

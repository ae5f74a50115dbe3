import Verif.Props.Hamming
import Mathlib.Analysis.Matrix.Order
import Mathlib.Analysis.SpecialFunctions.Exponential
import Mathlib.MeasureTheory.Integral.Gamma
import Mathlib.MeasureTheory.Integral.IntegralEqImproper

/-!
# Covariance functions

Closure properties of `PositiveKernel` (sums, products, exponentials, limits, mixtures).
-/

namespace Skopt

open MeasureTheory Set

variable {T U : Type}

theorem PositiveKernel.symm {k : T → T → ℝ} (h : PositiveKernel k) (x y : T) : k x y = k y x := h.1 x y

theorem PositiveKernel.matrix {k : T → T → ℝ} (h : PositiveKernel k) {n : Nat} (pts : Fin n → T) :
    (Matrix.of fun i j => k (pts i) (pts j)).PosSemidef := by
  rw [Matrix.posSemidef_iff_dotProduct_mulVec]
  refine ⟨?_, fun c => ?_⟩
  · ext i j
    simp [h.symm (pts j) (pts i)]
  · have := h.2 n pts c
    simp only [dotProduct, Matrix.mulVec, Matrix.of_apply, Pi.star_apply, star_trivial, Finset.mul_sum]
    refine this.trans (le_of_eq ?_)
    exact Finset.sum_congr rfl fun i _ => Finset.sum_congr rfl fun j _ => by ring

theorem positiveKernel_of_matrix {k : T → T → ℝ} (hs : ∀ x y, k x y = k y x)
    (h : ∀ (n : Nat) (pts : Fin n → T), (Matrix.of fun i j => k (pts i) (pts j)).PosSemidef) : PositiveKernel k := by
  refine ⟨hs, fun n pts c => ?_⟩
  have := (h n pts).dotProduct_mulVec_nonneg c
  simp only [dotProduct, Matrix.mulVec, Matrix.of_apply, Pi.star_apply, star_trivial, Finset.mul_sum] at this
  refine this.trans (le_of_eq ?_)
  exact Finset.sum_congr rfl fun i _ => Finset.sum_congr rfl fun j _ => by ring

theorem PositiveKernel.add {k l : T → T → ℝ} (hk : PositiveKernel k) (hl : PositiveKernel l) :
    PositiveKernel fun x y => k x y + l x y := by
  refine ⟨fun x y => congrArg₂ _ (hk.symm x y) (hl.symm x y), fun n pts c => ?_⟩
  simp only [mul_add, Finset.sum_add_distrib]
  exact add_nonneg (hk.2 n pts c) (hl.2 n pts c)

theorem PositiveKernel.mul {k l : T → T → ℝ} (hk : PositiveKernel k) (hl : PositiveKernel l) :
    PositiveKernel fun x y => k x y * l x y := by
  refine positiveKernel_of_matrix (fun x y => by rw [hk.symm, hl.symm]) fun n pts => ?_
  exact (hk.matrix pts).hadamard (hl.matrix pts)

theorem PositiveKernel.const {a : ℝ} (ha : 0 ≤ a) : PositiveKernel fun _ _ : T => a := by
  refine ⟨fun _ _ => rfl, fun n pts c => ?_⟩
  have : ∑ i, ∑ j, c i * c j * a = (∑ i, c i) * (∑ j, c j) * a := by
    rw [Finset.sum_mul_sum, Finset.sum_mul]
    simp only [Finset.sum_mul]
  rw [this]
  exact mul_nonneg (mul_self_nonneg _) ha

/-- One feature. -/
theorem PositiveKernel.feature (f : T → ℝ) : PositiveKernel fun x y => f x * f y := by
  refine ⟨fun _ _ => mul_comm _ _, fun n pts c => ?_⟩
  have : ∑ i, ∑ j, c i * c j * (f (pts i) * f (pts j)) = (∑ i, c i * f (pts i)) * ∑ j, c j * f (pts j) := by
    rw [Finset.sum_mul_sum]
    exact Finset.sum_congr rfl fun i _ => Finset.sum_congr rfl fun j _ => by ring
  rw [this]
  exact mul_self_nonneg _

theorem PositiveKernel.finsum {ι : Type} (s : Finset ι) {k : ι → T → T → ℝ} (h : ∀ i ∈ s, PositiveKernel (k i)) :
    PositiveKernel fun x y => ∑ i ∈ s, k i x y := by
  classical
  induction s using Finset.induction_on with
  | empty => simpa using PositiveKernel.const (T := T) le_rfl
  | insert i s hi ih =>
    simp only [Finset.sum_insert hi]
    exact (h i (Finset.mem_insert_self _ _)).add (ih fun j hj => h j (Finset.mem_insert_of_mem hj))

theorem PositiveKernel.pow {k : T → T → ℝ} (hk : PositiveKernel k) (m : Nat) : PositiveKernel fun x y => k x y ^ m := by
  induction m with
  | zero => simpa using PositiveKernel.const (T := T) zero_le_one
  | succ m ih =>
    simp only [pow_succ]
    exact ih.mul hk

theorem PositiveKernel.lim {k : ℕ → T → T → ℝ} {l : T → T → ℝ} (hk : ∀ m, PositiveKernel (k m))
    (h : ∀ x y, Filter.Tendsto (fun m => k m x y) Filter.atTop (nhds (l x y))) : PositiveKernel l := by
  refine ⟨fun x y => ?_, fun n pts c => ?_⟩
  · refine tendsto_nhds_unique (h x y) ?_
    have : (fun m => k m x y) = fun m => k m y x := funext fun m => (hk m).symm x y
    rw [this]
    exact h y x
  · have ht : Filter.Tendsto (fun m => ∑ i, ∑ j, c i * c j * k m (pts i) (pts j)) Filter.atTop
        (nhds (∑ i, ∑ j, c i * c j * l (pts i) (pts j))) := by
      refine tendsto_finsetSum _ fun i _ => tendsto_finsetSum _ fun j _ => ?_
      exact (h _ _).const_mul _
    exact ge_of_tendsto' ht fun m => (hk m).2 n pts c

theorem PositiveKernel.exp {k : T → T → ℝ} (hk : PositiveKernel k) : PositiveKernel fun x y => Real.exp (k x y) := by
  refine PositiveKernel.lim (k := fun m x y => ∑ i ∈ Finset.range m, (1 / (i.factorial : ℝ)) * k x y ^ i) (fun m => ?_)
    fun x y => ?_
  · exact PositiveKernel.finsum _ fun i _ =>
      (PositiveKernel.const (by positivity)).mul (hk.pow i)
  · have := NormedSpace.expSeries_div_hasSum_exp (𝔸 := ℝ) (k x y)
    rw [← Real.exp_eq_exp_ℝ] at this
    have := this.tendsto_sum_nat
    refine this.congr fun m => ?_
    exact Finset.sum_congr rfl fun i _ => by ring

theorem PositiveKernel.comp {k : U → U → ℝ} (hk : PositiveKernel k) (f : T → U) :
    PositiveKernel fun x y => k (f x) (f y) :=
  ⟨fun _ _ => hk.symm _ _, fun n pts c => hk.2 n (fun i => f (pts i)) c⟩

theorem PositiveKernel.congr {k l : T → T → ℝ} (hk : PositiveKernel k) (h : ∀ x y, k x y = l x y) :
    PositiveKernel l := by
  have : k = l := funext fun x => funext fun y => h x y
  rwa [← this]

/-- A mixture. -/
theorem PositiveKernel.integral {k : ℝ → T → T → ℝ} {s : Set ℝ} (hs : MeasurableSet s)
    (hk : ∀ t ∈ s, PositiveKernel (k t)) (hi : ∀ x y, IntegrableOn (fun t => k t x y) s) :
    PositiveKernel fun x y => ∫ t in s, k t x y := by
  refine ⟨fun x y => setIntegral_congr_fun hs fun t ht => (hk t ht).symm x y, fun n pts c => ?_⟩
  have : ∑ i, ∑ j, c i * c j * ∫ t in s, k t (pts i) (pts j) =
      ∫ t in s, ∑ i, ∑ j, c i * c j * k t (pts i) (pts j) := by
    rw [integral_finsetSum _ fun i _ => integrable_finsetSum _ fun j _ => (hi _ _).const_mul _]
    refine Finset.sum_congr rfl fun i _ => ?_
    rw [integral_finsetSum _ fun j _ => (hi _ _).const_mul _]
    refine Finset.sum_congr rfl fun j _ => ?_
    rw [integral_const_mul]
  rw [this]
  exact setIntegral_nonneg hs fun t ht => (hk t ht).2 n pts c

/-- A function of the squared distance that is a covariance function for every embedding of the points. -/
def Radial (φ : ℝ → ℝ) : Prop :=
  ∀ (T : Type) (d : Nat) (f : T → Fin d → ℝ), PositiveKernel fun x y => φ (∑ i, (f x i - f y i) ^ 2)

theorem radial_exp {a : ℝ} (ha : 0 ≤ a) : Radial fun s => Real.exp (-(a * s)) := by
  intro T d f
  have h : PositiveKernel fun x y : T => 2 * a * ∑ i, f x i * f y i :=
    (PositiveKernel.const (by positivity)).mul (PositiveKernel.finsum _ fun i _ => PositiveKernel.feature fun x => f x i)
  refine ((PositiveKernel.feature fun x => Real.exp (-(a * ∑ i, f x i ^ 2))).mul h.exp).congr fun x y => ?_
  rw [← Real.exp_add, ← Real.exp_add]
  congr 1
  have : ∑ i, (f x i - f y i) ^ 2 = ∑ i, f x i ^ 2 - 2 * ∑ i, f x i * f y i + ∑ i, f y i ^ 2 := by
    rw [Finset.mul_sum, ← Finset.sum_sub_distrib, ← Finset.sum_add_distrib]
    exact Finset.sum_congr rfl fun i _ => by ring
  rw [this]
  ring

theorem Radial.lim {φ : ℕ → ℝ → ℝ} {ψ : ℝ → ℝ} (h : ∀ m, Radial (φ m))
    (ht : ∀ s, 0 ≤ s → Filter.Tendsto (fun m => φ m s) Filter.atTop (nhds (ψ s))) : Radial ψ := by
  intro T d f
  exact PositiveKernel.lim (fun m => h m T d f) fun x y => ht _ (Finset.sum_nonneg fun i _ => sq_nonneg _)

theorem Radial.congr {φ ψ : ℝ → ℝ} (h : Radial φ) (he : ∀ s, 0 ≤ s → φ s = ψ s) : Radial ψ := by
  intro T d f
  exact (h T d f).congr fun x y => he _ (Finset.sum_nonneg fun i _ => sq_nonneg _)

theorem Radial.mul {φ ψ : ℝ → ℝ} (h : Radial φ) (h' : Radial ψ) : Radial fun s => φ s * ψ s := by
  intro T d f
  exact (h T d f).mul (h' T d f)

theorem Radial.const {a : ℝ} (ha : 0 ≤ a) : Radial fun _ => a := by
  intro T d f
  exact PositiveKernel.const ha

theorem Radial.exp {φ : ℝ → ℝ} (h : Radial φ) : Radial fun s => Real.exp (φ s) := by
  intro T d f
  exact (h T d f).exp

theorem Radial.integral {φ : ℝ → ℝ → ℝ} {s : Set ℝ} (hs : MeasurableSet s) (h : ∀ t ∈ s, Radial (φ t))
    (hi : ∀ u, 0 ≤ u → IntegrableOn (fun t => φ t u) s) : Radial fun u => ∫ t in s, φ t u := by
  intro T d f
  exact PositiveKernel.integral hs (fun t ht => h t ht T d f) fun x y =>
    hi _ (Finset.sum_nonneg fun i _ => sq_nonneg _)

/-- Powers with negative exponents are mixtures of Gaussians. -/
theorem radial_rpow {a c b : ℝ} (ha : 0 < a) (hc : 0 < c) (hb : 0 ≤ b) : Radial fun s => (c + b * s) ^ (-a) := by
  have hg : 0 < Real.Gamma a := Real.Gamma_pos_of_pos ha
  have hint : ∀ s, 0 ≤ s → ∫ t in Ioi (0 : ℝ), t ^ (a - 1) * Real.exp (-((c + b * s) * t)) =
      (c + b * s) ^ (-a) * Real.Gamma a := by
    intro s hs
    have hr : 0 < c + b * s := by positivity
    rw [Real.integral_rpow_mul_exp_neg_mul_Ioi ha hr, one_div, Real.inv_rpow hr.le, Real.rpow_neg hr.le]
  have hR : Radial fun s => ∫ t in Ioi (0 : ℝ), t ^ (a - 1) * Real.exp (-((c + b * s) * t)) := by
    refine Radial.integral measurableSet_Ioi (fun t ht => ?_) fun s hs => ?_
    · have ht : 0 < t := ht
      have h1 : Radial fun s => (t ^ (a - 1) * Real.exp (-(c * t))) * Real.exp (-(b * t * s)) :=
        (Radial.const (by positivity)).mul (radial_exp (by positivity))
      refine h1.congr fun s _ => ?_
      rw [mul_assoc, ← Real.exp_add]
      congr 2
      ring
    · by_contra hn
      have h0 := integral_undef hn
      rw [hint s hs] at h0
      have hr : 0 < c + b * s := by positivity
      exact (mul_pos (Real.rpow_pos_of_pos hr (-a)) hg).ne' h0
  refine ((Radial.const (inv_nonneg.2 hg.le)).mul hR).congr fun s hs => ?_
  rw [hint s hs]
  field_simp

/-- The exponential of minus the distance. -/
theorem radial_exp_sqrt {t : ℝ} (ht : 0 < t) : Radial fun s => Real.exp (-Real.sqrt (s + t)) := by
  -- `√s = 2/π ∫ s / (s + v²) dv`, cut off at `m`
  have hcut : ∀ m : ℕ, Radial fun s => Real.exp (-(2 / Real.pi * (Real.sqrt (s + t) *
      Real.arctan ((m : ℝ) / Real.sqrt (s + t))))) := by
    intro m
    have hq : Radial fun s => ∫ v in Ioc (0 : ℝ) m, v ^ 2 * (v ^ 2 + t + 1 * s) ^ (-(1 : ℝ)) := by
      refine Radial.integral measurableSet_Ioc (fun v _ => ?_) fun s hs => ?_
      · exact (Radial.const (sq_nonneg v)).mul (radial_rpow one_pos (by positivity) zero_le_one)
      · refine Continuous.integrableOn_Ioc ?_
        refine Continuous.mul (by fun_prop) (Continuous.rpow_const (by fun_prop) fun v => Or.inl ?_)
        positivity
    have h1 := (Radial.const (Real.exp_pos (-(2 / Real.pi * m))).le).mul
      ((Radial.const (by positivity : (0 : ℝ) ≤ 2 / Real.pi)).mul hq).exp
    refine h1.congr fun s hs => ?_
    have hst : 0 < s + t := by positivity
    have hsq : 0 < Real.sqrt (s + t) := Real.sqrt_pos.2 hst
    have hF : ∫ v in Ioc (0 : ℝ) m, v ^ 2 * (v ^ 2 + t + 1 * s) ^ (-(1 : ℝ)) =
        m - Real.sqrt (s + t) * Real.arctan ((m : ℝ) / Real.sqrt (s + t)) := by
      rw [← intervalIntegral.integral_of_le (Nat.cast_nonneg m)]
      have hd : ∀ v ∈ uIcc (0 : ℝ) m, HasDerivAt (fun v => v - Real.sqrt (s + t) * Real.arctan (v / Real.sqrt (s + t)))
          (v ^ 2 * (v ^ 2 + t + 1 * s) ^ (-(1 : ℝ))) v := by
        intro v _
        have h := (hasDerivAt_id v).sub (((Real.hasDerivAt_arctan (v / Real.sqrt (s + t))).comp v
          ((hasDerivAt_id v).div_const (Real.sqrt (s + t)))).const_mul (Real.sqrt (s + t)))
        refine h.congr_deriv ?_
        rw [Real.rpow_neg_one, div_pow, Real.sq_sqrt hst.le]
        have : v ^ 2 + t + 1 * s ≠ 0 := by positivity
        have h2 : s + t + v ^ 2 ≠ 0 := by positivity
        field_simp
        ring
      rw [intervalIntegral.integral_eq_sub_of_hasDerivAt hd]
      · simp
      · refine Continuous.intervalIntegrable ?_ _ _
        refine Continuous.mul (by fun_prop) (Continuous.rpow_const (by fun_prop) fun v => Or.inl ?_)
        positivity
    rw [hF, ← Real.exp_add]
    congr 1
    ring
  refine Radial.lim hcut fun s hs => ?_
  have hst : 0 < s + t := by positivity
  have hsq : 0 < Real.sqrt (s + t) := Real.sqrt_pos.2 hst
  have h1 : Filter.Tendsto (fun m : ℕ => (m : ℝ) / Real.sqrt (s + t)) Filter.atTop Filter.atTop :=
    Filter.Tendsto.atTop_div_const hsq tendsto_natCast_atTop_atTop
  have h2 := (Real.tendsto_arctan_atTop.mono_right nhdsWithin_le_nhds).comp h1
  have h3 := ((h2.const_mul (Real.sqrt (s + t))).const_mul (2 / Real.pi)).neg
  refine (Real.continuous_exp.tendsto _).comp ?_
  have he : -(2 / Real.pi * (Real.sqrt (s + t) * (Real.pi / 2))) = -Real.sqrt (s + t) := by
    have := Real.pi_pos
    field_simp
  rw [he] at h3
  exact h3

theorem radial_shift_zero {φ : ℝ → ℝ} (hφ : ContinuousOn φ (Ici 0)) (h : ∀ t, 0 < t → Radial fun s => φ (s + t)) :
    Radial φ := by
  refine Radial.lim (φ := fun m s => φ (s + 1 / ((m : ℝ) + 1))) (fun m => h _ (by positivity)) fun s hs => ?_
  have h1 : Filter.Tendsto (fun m : ℕ => s + 1 / ((m : ℝ) + 1)) Filter.atTop (nhdsWithin s (Ici 0)) := by
    rw [tendsto_nhdsWithin_iff]
    constructor
    · have := (tendsto_one_div_add_atTop_nhds_zero_nat (𝕜 := ℝ)).const_add s
      rwa [add_zero] at this
    · exact Filter.Eventually.of_forall fun m => by
        show (0 : ℝ) ≤ s + 1 / ((m : ℝ) + 1)
        positivity
  exact (hφ s hs).tendsto.comp h1

/-- The value of the Matérn kernels as functions of the squared distance. -/
noncomputable def matern12 (s : ℝ) : ℝ := Real.exp (-Real.sqrt s)

noncomputable def matern32 (s : ℝ) : ℝ := (1 + Real.sqrt s) * Real.exp (-Real.sqrt s)

noncomputable def matern52 (s : ℝ) : ℝ := (1 + Real.sqrt s + s / 3) * Real.exp (-Real.sqrt s)

theorem radial_matern12 : Radial matern12 := by
  refine radial_shift_zero ?_ fun t ht => radial_exp_sqrt ht
  unfold matern12
  fun_prop

/-- `∫ e^{-√(s+t)} dt` -/
theorem radial_matern32_shift {t₀ : ℝ} (ht₀ : 0 < t₀) : Radial fun s => matern32 (s + t₀) := by
  have hd : ∀ s, 0 ≤ s → ∀ t ∈ Ici (0 : ℝ), HasDerivAt (fun t => -(2 * matern32 (s + t₀ + t))) (matern12 (s + t₀ + t)) t := by
    intro s hs t ht
    have ht : 0 ≤ t := ht
    have hp : 0 < s + t₀ + t := by positivity
    have h1 : HasDerivAt (fun t => Real.sqrt (s + t₀ + t)) (1 / (2 * Real.sqrt (s + t₀ + t))) t :=
      ((hasDerivAt_id t).const_add (s + t₀)).sqrt hp.ne'
    have h2 := (((h1.const_add 1).mul h1.neg.exp).const_mul 2).neg
    refine h2.congr_deriv ?_
    have := Real.sqrt_pos.2 hp
    simp only [Pi.neg_apply, matern12]
    field_simp
    ring
  have hlim : ∀ s, Filter.Tendsto (fun t => -(2 * matern32 (s + t₀ + t))) Filter.atTop (nhds 0) := by
    intro s
    have h1 : Filter.Tendsto (fun u : ℝ => -(2 * ((1 + u) * Real.exp (-u)))) Filter.atTop (nhds 0) := by
      have a := Real.tendsto_pow_mul_exp_neg_atTop_nhds_zero 1
      have b := Real.tendsto_pow_mul_exp_neg_atTop_nhds_zero 0
      have c := ((b.add a).const_mul 2).neg
      simp only [pow_zero, pow_one, add_zero, mul_zero, neg_zero] at c
      refine c.congr fun u => ?_
      ring
    exact h1.comp (Real.tendsto_sqrt_atTop.comp (Filter.tendsto_atTop_add_const_left _ (s + t₀) Filter.tendsto_id))
  have hn : ∀ s, ∀ t ∈ Ioi (0 : ℝ), 0 ≤ matern12 (s + t₀ + t) := fun s t _ => (Real.exp_pos _).le
  have hR : Radial fun s => ∫ t in Ioi (0 : ℝ), matern12 (s + t₀ + t) := by
    refine Radial.integral measurableSet_Ioi (fun t ht => ?_) fun s hs => ?_
    · have ht : 0 < t := ht
      exact (radial_exp_sqrt (t := t₀ + t) (by positivity)).congr fun s _ => by rw [matern12, add_assoc]
    · exact integrableOn_Ioi_deriv_of_nonneg' (hd s hs) (hn s) (hlim s)
  refine ((Radial.const (by norm_num : (0 : ℝ) ≤ 1 / 2)).mul hR).congr fun s hs => ?_
  rw [integral_Ioi_of_hasDerivAt_of_nonneg' (hd s hs) (hn s) (hlim s), add_zero]
  ring

theorem radial_matern32 : Radial matern32 :=
  radial_shift_zero (by unfold matern32; fun_prop) fun _ h => radial_matern32_shift h

/-- `∫ (1 + √(s+t)) e^{-√(s+t)} dt` -/
theorem radial_matern52 : Radial matern52 := by
  refine radial_shift_zero (by unfold matern52; fun_prop) fun t₀ ht₀ => ?_
  have hd : ∀ s, 0 ≤ s → ∀ t ∈ Ici (0 : ℝ), HasDerivAt (fun t => -(6 * matern52 (s + t₀ + t))) (matern32 (s + t₀ + t)) t := by
    intro s hs t ht
    have ht : 0 ≤ t := ht
    have hp : 0 < s + t₀ + t := by positivity
    have h0 : HasDerivAt (fun t => s + t₀ + t) 1 t := (hasDerivAt_id t).const_add (s + t₀)
    have h1 : HasDerivAt (fun t => Real.sqrt (s + t₀ + t)) (1 / (2 * Real.sqrt (s + t₀ + t))) t :=
      h0.sqrt hp.ne'
    have h2 := ((((h1.const_add 1).add (h0.div_const 3)).mul h1.neg.exp).const_mul 6).neg
    refine h2.congr_deriv ?_
    have hq := Real.sqrt_pos.2 hp
    have hs2 : s + t₀ + t = Real.sqrt (s + t₀ + t) ^ 2 := (Real.sq_sqrt hp.le).symm
    simp only [Pi.neg_apply, Pi.add_apply, matern32]
    generalize Real.sqrt (s + t₀ + t) = q at hq hs2 ⊢
    rw [hs2]
    field_simp
    ring
  have hlim : ∀ s, 0 ≤ s → Filter.Tendsto (fun t => -(6 * matern52 (s + t₀ + t))) Filter.atTop (nhds 0) := by
    intro s hs
    have h1 : Filter.Tendsto (fun u : ℝ => -(6 * ((1 + u + u ^ 2 / 3) * Real.exp (-u)))) Filter.atTop (nhds 0) := by
      have a := Real.tendsto_pow_mul_exp_neg_atTop_nhds_zero 1
      have b := Real.tendsto_pow_mul_exp_neg_atTop_nhds_zero 0
      have a2 := (Real.tendsto_pow_mul_exp_neg_atTop_nhds_zero 2).div_const 3
      have c := (((b.add a).add a2).const_mul 6).neg
      simp only [pow_zero, pow_one, add_zero, mul_zero, neg_zero, zero_div] at c
      refine c.congr fun u => ?_
      ring
    have h2 := h1.comp (Real.tendsto_sqrt_atTop.comp
      (Filter.tendsto_atTop_add_const_left _ (s + t₀) Filter.tendsto_id))
    refine h2.congr' ?_
    filter_upwards [Filter.eventually_ge_atTop 0] with t ht
    have hp : 0 ≤ s + t₀ + t := by positivity
    simp only [Function.comp, id, Real.sq_sqrt hp, matern52]
  have hn : ∀ s, ∀ t ∈ Ioi (0 : ℝ), 0 ≤ matern32 (s + t₀ + t) := fun s t _ =>
    mul_nonneg (by have := Real.sqrt_nonneg (s + t₀ + t); linarith) (Real.exp_pos _).le
  have hR : Radial fun s => ∫ t in Ioi (0 : ℝ), matern32 (s + t₀ + t) := by
    refine Radial.integral measurableSet_Ioi (fun t ht => ?_) fun s hs => ?_
    · have ht : 0 < t := ht
      exact (radial_matern32_shift (t₀ := t₀ + t) (by positivity)).congr fun s _ => by rw [add_assoc]
    · exact integrableOn_Ioi_deriv_of_nonneg' (hd s hs) (hn s) (hlim s hs)
  refine ((Radial.const (by norm_num : (0 : ℝ) ≤ 1 / 6)).mul hR).congr fun s hs => ?_
  rw [integral_Ioi_of_hasDerivAt_of_nonneg' (hd s hs) (hn s) (hlim s hs), add_zero]
  ring

end Skopt

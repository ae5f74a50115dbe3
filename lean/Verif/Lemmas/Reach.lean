import Verif.Props.SamplingMany
import Mathlib.Analysis.SpecialFunctions.Pow.Continuity

/-!
# Lemmas: samples come close to every member of a space
-/

namespace Skopt

open MeasureTheory

/-- Close values of a dimension: numbers less than `δ` apart for a `Real`, equal values for the others. -/
def Close (δ : ℝ) : Dim ℝ → Val ℝ → Val ℝ → Prop
  | .real _, v, w => ∃ x y, v = .num x ∧ w = .num y ∧ |x - y| < δ
  | _, v, w => v = w

/-- Two points of the space that are close in every coordinate. -/
def Near (δ : ℝ) (dims : List (Dim ℝ)) (p q : Point ℝ) : Prop :=
  q.length = p.length ∧
    ∀ (i : Nat) d v w, dims[i]? = some d → p[i]? = some v → q[i]? = some w → Close δ d v w

/-- Prior probabilities, where given: one for each category, none negative, with sum one. -/
def ProperPrior : Dim ℝ → Prop
  | .cat c => ∀ ws, c.prior = some ws → ws.length = c.cats.length ∧ (∀ w ∈ ws, 0 ≤ w) ∧ ws.sum = 1
  | _ => True

/-- The prior does not rule the value out. -/
def Drawable : Dim ℝ → Val ℝ → Prop
  | .cat c, v => c.transform = .normalize ∨ ∃ i w, c.cats[i]? = some v ∧ PriorProb c i w ∧ 0 < w
  | _, _ => True

theorem uniformOn_pos {a b c e : ℝ} (hab : a < b) (h1 : a ≤ c) (h2 : c < e) (h3 : e ≤ b) :
    0 < uniformOn a b (Set.Ioo c e) := by
  rw [uniformOn_eq (c := c) (d := e) hab]
  · rw [ENNReal.ofReal_pos]
    exact div_pos (by linarith) (by linarith)
  · rintro u ⟨g1, g2⟩
    exact ⟨⟨by linarith, by linarith⟩, g1, g2⟩
  · rintro u ⟨_, g1, g2⟩
    exact ⟨g1.le, g2.le⟩

/-- A continuous function of a uniform number comes close to each of its values with positive probability. -/
theorem uniform_near {a b : ℝ} (hab : a < b) {g : ℝ → ℝ} (hg : ContinuousOn g (Set.Icc a b)) {u₀ : ℝ} (h1 : a ≤ u₀)
    (h2 : u₀ ≤ b) {δ : ℝ} (hδ : 0 < δ) : ∃ H, MeasurableSet H ∧ 0 < uniformOn a b H ∧
      ∀ u ∈ H, a ≤ u ∧ u ≤ b ∧ |g u - g u₀| < δ := by
  obtain ⟨η, hη, h⟩ := Metric.continuousWithinAt_iff.1 (hg u₀ ⟨h1, h2⟩) δ hδ
  have hc : max a (u₀ - η) < min b (u₀ + η) := by
    rw [max_lt_iff, lt_min_iff, lt_min_iff]
    constructor <;> constructor <;> linarith
  refine ⟨Set.Ioo (max a (u₀ - η)) (min b (u₀ + η)), measurableSet_Ioo,
    uniformOn_pos hab (le_max_left _ _) hc (min_le_left _ _), ?_⟩
  rintro u ⟨g1, g2⟩
  rw [max_lt_iff] at g1
  rw [lt_min_iff] at g2
  refine ⟨g1.1.le, g2.1.le, ?_⟩
  have := h (x := u) ⟨g1.1.le, g2.1.le⟩ (by rw [Real.dist_eq, abs_lt]; constructor <;> linarith)
  rwa [Real.dist_eq] at this

theorem npClip_close {l h x z δ : ℝ} (h1 : l ≤ x) (h2 : x ≤ h) (hz : |z - x| < δ) :
    |npClip l h z - x| < δ ∧ l ≤ npClip l h z ∧ npClip l h z ≤ h := by
  have hm : npClip l h z = min (max z l) h := rfl
  rw [hm]
  rw [abs_lt] at hz ⊢
  have hpos : 0 < δ := by linarith [hz.1, hz.2]
  refine ⟨⟨?_, ?_⟩, le_min (le_max_right _ _) (h1.trans h2), min_le_right _ _⟩
  · rcases le_total (max z l) h with g | g
    · rw [min_eq_left g]; have := le_max_left z l; linarith
    · rw [min_eq_right g]; linarith
  · have := min_le_left (max z l) h
    rcases le_total z l with g | g
    · rw [max_eq_right g] at *; linarith
    · rw [max_eq_left g] at *; linarith

theorem round_clip {l h k : ℤ} {z : ℝ} (h1 : l ≤ k) (h2 : k ≤ h) (hz : |z - k| < 1 / 2) :
    roundHalfEven (npClip (l : ℝ) h z) = k := by
  obtain ⟨g, -, -⟩ := npClip_close (l := (l : ℝ)) (h := h) (by exact_mod_cast h1) (by exact_mod_cast h2) hz
  rw [abs_lt] at g
  exact round_eq_of_near (by linarith) (by linarith)

theorem rpow_lgb {b x : ℝ} (hb : 1 < b) (hx : 0 < x) : b ^ lgb b x = x := by
  rw [lgb_eq]
  exact Real.rpow_logb (by linarith) (by linarith) hx

theorem rpow_continuous {b : ℝ} (hb : b ≠ 0) : Continuous fun u : ℝ => b ^ u :=
  continuous_iff_continuousAt.2 fun _ => Real.continuousAt_const_rpow hb

theorem affine_back {p q c : ℝ} (hpq : p < q) : (c - p) / (q - p) * (q - p) + p = c := by
  rw [div_mul_cancel₀ _ (by linarith)]
  ring

/-- What a sample has to do with the numbers the distribution draws: close to every value of the dimension that the
prior does not rule out, with positive probability. -/
theorem Dim.reach {d : Dim ℝ} (hv : ValidDim exact d) (hi : Invertible (0 : ℝ) 1 d)
    (hdt : ∀ v, Legal exact d v → Representable d v) {v : Val ℝ} (hl : Legal exact d v) (hp : Drawable d v) {δ : ℝ}
    (hδ : 0 < δ) : ∃ H, MeasurableSet H ∧ 0 < d.rawLaw H ∧
      ∀ u ∈ H, ∃ w, d.rvs exact (rawOf u) = .ok [w] ∧ Close δ d v w := by
  cases d with
  | real r =>
    obtain ⟨l, h, prior, b, tr, nm, cast⟩ := r
    obtain ⟨hlt, htr, -⟩ := hv
    obtain ⟨x, rfl, h1, h2⟩ := hl
    simp only at hlt htr h1 h2
    have hcast : ∀ z, l ≤ z → z ≤ h → cast z = z := fun z g1 g2 => hdt (.num z) ⟨z, rfl, g1, g2⟩
    have fin : ∀ z, |z - x| < δ → Close δ (.real ⟨l, h, prior, b, tr, nm, cast⟩) (.num x) (.num (cast (npClip l h z))) := by
      intro z hz
      obtain ⟨g1, g2, g3⟩ := npClip_close h1 h2 hz
      rw [hcast _ g2 g3]
      exact ⟨x, _, rfl, rfl, by rwa [abs_sub_comm]⟩
    cases prior with
    | uniform =>
      rcases htr with rfl | rfl
      · obtain ⟨H, m, pos, hH⟩ := uniform_near hlt (g := fun u => u) continuousOn_id h1 h2 hδ
        exact ⟨H, m, pos, fun u hu => ⟨_, realUniform_identity .., fin _ (hH u hu).2.2⟩⟩
      · obtain ⟨H, m, pos, hH⟩ := uniform_near one_pos (g := fun u => u * (h - l) + l) (by fun_prop)
          (u₀ := (x - l) / (h - l)) (div_nonneg (by linarith) (by linarith)) ((div_le_one (by linarith)).2 (by linarith)) hδ
        simp only [affine_back hlt] at hH
        exact ⟨H, m, pos, fun u hu => ⟨_, realUniform_normalize _ _ _ _ _ _ (hH u hu).1 (hH u hu).2.1,
          fin _ (hH u hu).2.2⟩⟩
    | logUniform =>
      obtain ⟨hl0, hb⟩ := hi rfl
      simp only at hl0 hb
      have hx0 : 0 < x := by linarith
      have hlg := lgb_lt hb hl0 hlt
      have hlx := lgb_le hb hl0 h1
      have hxh := lgb_le hb hx0 h2
      have hb0 : (0 : ℝ) < b := by linarith
      rcases htr with rfl | rfl
      · obtain ⟨H, m, pos, hH⟩ := uniform_near hlg (g := fun u => b ^ u)
          ((rpow_continuous hb0.ne').continuousOn) hlx hxh hδ
        simp only [rpow_lgb hb hx0] at hH
        exact ⟨H, m, pos, fun u hu => ⟨_, realLog_identity .., fin _ (hH u hu).2.2⟩⟩
      · obtain ⟨H, m, pos, hH⟩ := uniform_near one_pos (g := fun u => b ^ (u * (lgb b h - lgb b l) + lgb b l))
          (((rpow_continuous hb0.ne').comp (by fun_prop)).continuousOn)
          (u₀ := (lgb b x - lgb b l) / (lgb b h - lgb b l)) (div_nonneg (by linarith) (by linarith))
          ((div_le_one (by linarith)).2 (by linarith)) hδ
        simp only [affine_back hlg, rpow_lgb hb hx0] at hH
        exact ⟨H, m, pos, fun u hu => ⟨_, realLog_normalize _ _ _ _ _ _ (hH u hu).1 (hH u hu).2.1,
          fin _ (hH u hu).2.2⟩⟩
  | int r =>
    obtain ⟨lo, hi', prior, b, tr, nm, wrap⟩ := r
    obtain ⟨l, h, hlt, rfl, rfl, -, -, htr, hwrap⟩ := hv
    obtain ⟨k, rfl, h1, h2⟩ := hl
    simp only [exact] at h1 h2 hi htr hwrap ⊢
    have k1 : l ≤ k := by exact_mod_cast h1
    have k2 : k ≤ h := by exact_mod_cast h2
    have hlt' : (l : ℝ) < h := by exact_mod_cast hlt
    have half : (0 : ℝ) < 1 / 2 := by norm_num
    have fin : ∀ z : ℝ, |z - k| < 1 / 2 →
        (Val.num (k : ℝ)) = .num ((wrap (roundHalfEven (npClip (l : ℝ) h z)) : ℤ) : ℝ) := by
      intro z hz
      rw [round_clip k1 k2 hz, hwrap k k1 k2]
    cases prior with
    | uniform =>
      rcases htr with rfl | rfl
      · refine ⟨{(k : ℝ)}, measurableSet_singleton _, ?_, ?_⟩
        · show 0 < randintLaw ⌊(l : ℝ)⌋ ⌊(h : ℝ)⌋ _
          rw [Int.floor_intCast, Int.floor_intCast]
          unfold randintLaw
          rw [Measure.finsetSum_apply]
          refine lt_of_lt_of_le ?_ (Finset.single_le_sum (fun _ _ => zero_le) (Finset.mem_Icc.2 ⟨k1, k2⟩))
          rw [Measure.smul_apply, Measure.dirac_apply_of_mem (Set.mem_singleton _), smul_eq_mul, mul_one,
            ENNReal.ofReal_pos]
          exact div_pos one_pos (by linarith)
        · rintro u rfl
          exact ⟨_, intUniform_identity .., fin _ (by simp)⟩
      · obtain ⟨H, m, pos, hH⟩ := uniform_near one_pos (g := fun u => u * ((h : ℝ) - l) + l) (by fun_prop)
          (u₀ := ((k : ℝ) - l) / (h - l)) (div_nonneg (by linarith) (by linarith))
          ((div_le_one (by linarith)).2 (by linarith)) half
        simp only [affine_back hlt'] at hH
        refine ⟨H, m, pos, fun u hu => ⟨_, intUniform_normalize _ _ _ _ _ _ (hH u hu).1 (hH u hu).2.1, ?_⟩⟩
        have := (hH u hu).2.2
        rw [abs_lt] at this
        rw [round_eq_of_near (x := u * ((h : ℝ) - l) + l) (k := k) (by linarith) (by linarith)]
        exact fin _ (by simp)
    | logUniform =>
      obtain ⟨hl0, hb⟩ := hi rfl
      have hk0 : (0 : ℝ) < k := by linarith
      have hlg := lgb_lt hb hl0 hlt'
      have hlx := lgb_le hb hl0 h1
      have hxh := lgb_le hb hk0 h2
      have hb0 : (0 : ℝ) < b := by linarith
      rcases htr with rfl | rfl
      · obtain ⟨H, m, pos, hH⟩ := uniform_near hlg (g := fun u => b ^ u)
          ((rpow_continuous hb0.ne').continuousOn) hlx hxh half
        simp only [rpow_lgb hb hk0] at hH
        exact ⟨H, m, pos, fun u hu => ⟨_, intLog_identity .., fin _ (hH u hu).2.2⟩⟩
      · obtain ⟨H, m, pos, hH⟩ := uniform_near one_pos (g := fun u => b ^ (u * (lgb b h - lgb b l) + lgb b l))
          (((rpow_continuous hb0.ne').comp (by fun_prop)).continuousOn)
          (u₀ := (lgb b k - lgb b l) / (lgb b h - lgb b l)) (div_nonneg (by linarith) (by linarith))
          ((div_le_one (by linarith)).2 (by linarith)) half
        simp only [affine_back hlg, rpow_lgb hb hk0] at hH
        exact ⟨H, m, pos, fun u hu => ⟨_, intLog_normalize _ _ _ _ _ _ (hH u hu).1 (hH u hu).2.1,
          fin _ (hH u hu).2.2⟩⟩
  | cat c =>
    by_cases ht : c.transform = .normalize
    · have hnd := hv.2.1
      have hv' : v ∈ labelKeys c.cats := mem_labelKeys.2 hl
      obtain ⟨k, hk, rfl⟩ := List.getElem_of_mem hv'
      have hk' : k < c.cats.length := by rwa [labelKeys_length hnd] at hk
      have hkn : (k : ℝ) ≤ (c.cats.length : ℝ) - 1 := by
        have : (k : ℝ) + 1 ≤ c.cats.length := by exact_mod_cast hk'
        linarith
      have hlaw : (Dim.cat c).rawLaw = uniformOn 0 1 := by simp [Dim.rawLaw, ht]
      rw [hlaw]
      have hu₀ : (k : ℝ) / ((c.cats.length : ℝ) - 1) * ((c.cats.length : ℝ) - 1) = k := by
        rcases eq_or_ne ((c.cats.length : ℝ) - 1) 0 with h0 | h0
        · have : (k : ℝ) = 0 := le_antisymm (by linarith) (Nat.cast_nonneg k)
          rw [h0, mul_zero, this]
        · exact div_mul_cancel₀ _ h0
      have hn0 : (0 : ℝ) ≤ (c.cats.length : ℝ) - 1 := (Nat.cast_nonneg k).trans hkn
      obtain ⟨H, m, pos, hH⟩ := uniform_near one_pos (g := fun u => u * ((c.cats.length : ℝ) - 1)) (by fun_prop)
        (u₀ := (k : ℝ) / ((c.cats.length : ℝ) - 1)) (div_nonneg (Nat.cast_nonneg k) hn0) (div_le_one_of_le₀ hkn hn0)
        (show (0 : ℝ) < 1 / 2 by norm_num)
      rw [hu₀] at hH
      refine ⟨H, m, pos, fun u hu => ?_⟩
      obtain ⟨i, g1, g2, g3⟩ := catNormalize_rvs c ht hv u (hH u hu).1 (hH u hu).2.1
      have := (hH u hu).2.2
      rw [abs_lt] at this
      rw [round_eq_of_near (k := (k : ℤ)) (by push_cast; linarith) (by push_cast; linarith)] at g1
      obtain rfl : i = k := by exact_mod_cast g1
      refine ⟨_, g3, ?_⟩
      show _ = _
      rw [getD_lt hk]
    · rcases hp with h | ⟨i, w, hiv, hpw, hw⟩
      · exact absurd h ht
      have hwi : c.weights[i]? = some w := by
        unfold PriorProb at hpw
        unfold CatDim.weights
        cases h : c.prior with
        | none =>
          rw [h] at hpw
          obtain ⟨h1, rfl⟩ := hpw
          rw [Option.getD_none, List.getElem?_replicate, if_pos h1]
        | some ws => rw [h] at hpw; exact hpw
      obtain ⟨hil, rfl⟩ := List.getElem?_eq_some_iff.1 hwi
      have hlaw : (Dim.cat c).rawLaw = discreteLaw c.weights := by
        cases hc : c.transform <;> simp [Dim.rawLaw, hc] at ht ⊢
      refine ⟨{(i : ℝ)}, measurableSet_singleton _, ?_, ?_⟩
      · rw [hlaw]
        unfold discreteLaw
        rw [Measure.finsetSum_apply]
        refine lt_of_lt_of_le ?_ (Finset.single_le_sum (fun _ _ => zero_le)
          (Finset.mem_univ (⟨i, hil⟩ : Fin c.weights.length)))
        rw [Measure.smul_apply, Measure.dirac_apply_of_mem (Set.mem_singleton _), smul_eq_mul, mul_one,
          ENNReal.ofReal_pos]
        exact hw
      · rintro u rfl
        refine ⟨v, ?_, rfl⟩
        have : Dim.rvs exact (.cat c) (rawOf (i : ℝ)) = mapE (fun i => pyGet c.cats i) [i] := by
          cases hc : c.transform <;> simp [Dim.rvs, rawOf, hc] at ht ⊢
        rw [this]
        simp [mapE, pyGet, hiv]

theorem uniformOn_prob {a b : ℝ} (hab : a < b) : IsProbabilityMeasure (uniformOn a b) :=
  ProbabilityTheory.cond_isProbabilityMeasure_of_finite (by rw [Real.volume_Icc, ne_eq, ENNReal.ofReal_eq_zero]; linarith)
    (by rw [Real.volume_Icc]; exact ENNReal.ofReal_ne_top)

/-- The distributions behind the samples are probability distributions. -/
theorem Dim.rawLaw_prob {d : Dim ℝ} (hv : ValidDim exact d) (hi : Invertible (0 : ℝ) 1 d) (hp : ProperPrior d) :
    IsProbabilityMeasure d.rawLaw := by
  cases d with
  | real r =>
    obtain ⟨l, h, prior, b, tr, nm, cast⟩ := r
    obtain ⟨hlt, htr, -⟩ := hv
    simp only at hlt htr
    rcases htr with rfl | rfl
    · cases prior with
      | uniform => exact uniformOn_prob hlt
      | logUniform => obtain ⟨hl0, hb⟩ := hi rfl; exact uniformOn_prob (lgb_lt hb hl0 hlt)
    · exact uniformOn_prob one_pos
  | int r =>
    obtain ⟨lo, hi', prior, b, tr, nm, wrap⟩ := r
    obtain ⟨l, h, hlt, rfl, rfl, -, -, htr, hwrap⟩ := hv
    simp only [exact] at hi htr hwrap ⊢
    have hlt' : (l : ℝ) < h := by exact_mod_cast hlt
    rcases htr with rfl | rfl
    · cases prior with
      | uniform =>
        constructor
        show randintLaw ⌊(l : ℝ)⌋ ⌊(h : ℝ)⌋ _ = _
        rw [Int.floor_intCast, Int.floor_intCast]
        unfold randintLaw
        rw [Measure.finsetSum_apply]
        simp only [Measure.smul_apply, measure_univ, smul_eq_mul, mul_one, Finset.sum_const, Int.card_Icc, nsmul_eq_mul]
        rw [show (((h + 1 - l).toNat : ℕ) : ENNReal) = ENNReal.ofReal ((h : ℝ) - l + 1) by
          rw [← ENNReal.ofReal_natCast]
          congr 1
          have : (((h + 1 - l).toNat : ℤ) : ℝ) = ((h + 1 - l : ℤ) : ℝ) := by
            rw [Int.toNat_of_nonneg (by omega)]
          push_cast at this
          linarith, ← ENNReal.ofReal_mul (by linarith), mul_one_div_cancel (by linarith), ENNReal.ofReal_one]
      | logUniform => obtain ⟨hl0, hb⟩ := hi rfl; exact uniformOn_prob (lgb_lt hb hl0 hlt')
    · exact uniformOn_prob one_pos
  | cat c =>
    by_cases ht : c.transform = .normalize
    · have hlaw : (Dim.cat c).rawLaw = uniformOn 0 1 := by simp [Dim.rawLaw, ht]
      rw [hlaw]
      exact uniformOn_prob one_pos
    · have hlaw : (Dim.cat c).rawLaw = discreteLaw c.weights := by
        cases hc : c.transform <;> simp [Dim.rawLaw, hc] at ht ⊢
      have hpos : 0 < c.cats.length := List.length_pos_iff.2 hv.1
      have hw : (∀ w ∈ c.weights, 0 ≤ w) ∧ c.weights.sum = 1 := by
        unfold CatDim.weights
        cases h : c.prior with
        | none =>
          rw [Option.getD_none]
          refine ⟨fun w hw => ?_, ?_⟩
          · rw [List.eq_of_mem_replicate hw]; positivity
          · rw [List.sum_replicate, nsmul_eq_mul, mul_one_div_cancel (by positivity)]
        | some ws => exact (hp ws h).2
      rw [hlaw]
      constructor
      unfold discreteLaw
      rw [Measure.finsetSum_apply]
      simp only [Measure.smul_apply, measure_univ, smul_eq_mul, mul_one]
      rw [← ENNReal.ofReal_sum_of_nonneg (f := fun i : Fin c.weights.length => c.weights[i]) (fun i _ => hw.1 _ (List.getElem_mem _))]
      rw [← ENNReal.ofReal_one]
      congr 1
      rw [← hw.2]
      exact Fin.sum_univ_getElem c.weights

end Skopt

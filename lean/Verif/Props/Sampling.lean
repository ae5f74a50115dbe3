import Verif.Model.Sampling
import Verif.Lemmas.Generator
import Verif.Props.SpaceMembership
import Mathlib.Analysis.SpecialFunctions.Log.Base

/-!
# C75: random samples follow the prior
-/

namespace Skopt

open MeasureTheory

/-- The probability that a single sample drawn from the dimension is one of the given values. -/
noncomputable def chance (d : Dim ℝ) (S : Set (Val ℝ)) : ENNReal :=
  d.rawLaw {u | ∃ v, Dim.rvs exact d (rawOf u) = .ok [v] ∧ v ∈ S}

theorem uniformOn_eq {a b c d : ℝ} {S : Set ℝ} (hab : a < b) (h1 : Set.Ioo c d ⊆ Set.Icc a b ∩ S)
    (h2 : Set.Icc a b ∩ S ⊆ Set.Icc c d) : uniformOn a b S = ENNReal.ofReal ((d - c) / (b - a)) := by
  have hv : volume (Set.Icc a b ∩ S) = ENNReal.ofReal (d - c) := by
    refine le_antisymm ?_ ?_
    · rw [← Real.volume_Icc]
      exact measure_mono h2
    · rw [← Real.volume_Ioo]
      exact measure_mono h1
  unfold uniformOn
  rw [ProbabilityTheory.cond_apply measurableSet_Icc, hv, Real.volume_Icc, ENNReal.ofReal_div_of_pos (by linarith),
    ENNReal.div_eq_inv_mul]

/-- Unfolds the decoding of a single number. -/
local macro "decode" "[" ts:Lean.Parser.Tactic.simpLemma,* "]" : tactic =>
  `(tactic| simp only [Dim.rvs, rawOf, Dim.inverse, RealDim.inverse, RealDim.transformer, IntDim.inverse,
    IntDim.transformer, Transformer.inverse, pipelineInverse, List.reverse_cons, List.reverse_nil, List.nil_append,
    List.cons_append, pipelineInverseLoop, Stage.inverse, Normalize.inverse, logNInverse, List.map_cons, List.map_nil,
    mapE, scalarRow, Val.toNum, ok_bind, List.any_cons, List.any_nil, exact, Int.cast_one, Int.cast_zero,
    decide_false, Bool.or_self, Bool.false_eq_true, if_false, if_true, $ts,*])

section
variable (l h b : ℝ) (nm : Option String) (cast : ℝ → ℝ) (wrap : ℤ → ℤ) (u : ℝ)

theorem realUniform_normalize (h0 : 0 ≤ u) (h1 : u ≤ 1) :
    Dim.rvs exact (.real ⟨l, h, .uniform, b, .normalize, nm, cast⟩) (rawOf u) =
      .ok [.num (cast (npClip l h (u * (h - l) + l)))] := by
  have e1 : ¬ (1 + 1 / 10 ^ 8 : ℝ) < u := by norm_num; linarith
  have e2 : ¬ u < (0 - 1 / 10 ^ 8 : ℝ) := by norm_num; linarith
  decode [e1, e2]

theorem realUniform_identity :
    Dim.rvs exact (.real ⟨l, h, .uniform, b, .identity, nm, cast⟩) (rawOf u) =
      .ok [.num (cast (npClip l h u))] := by
  decode []

theorem realLog_normalize (h0 : 0 ≤ u) (h1 : u ≤ 1) :
    Dim.rvs exact (.real ⟨l, h, .logUniform, b, .normalize, nm, cast⟩) (rawOf u) =
      .ok [.num (cast (npClip l h (b ^ (u * (lgb b h - lgb b l) + lgb b l))))] := by
  have e1 : ¬ (1 + 1 / 10 ^ 8 : ℝ) < u := by norm_num; linarith
  have e2 : ¬ u < (0 - 1 / 10 ^ 8 : ℝ) := by norm_num; linarith
  decode [e1, e2, lgb]

theorem realLog_identity :
    Dim.rvs exact (.real ⟨l, h, .logUniform, b, .identity, nm, cast⟩) (rawOf u) =
      .ok [.num (cast (npClip l h (b ^ u)))] := by
  decode []

theorem intUniform_normalize (h0 : 0 ≤ u) (h1 : u ≤ 1) :
    Dim.rvs exact (.int ⟨l, h, .uniform, b, .normalize, nm, wrap⟩) (rawOf u) =
      .ok [.num (wrap (roundHalfEven (npClip l h (roundHalfEven (u * (h - l) + l) : ℝ))) : ℤ)] := by
  have e1 : ¬ (1 + 1 / 10 ^ 8 : ℝ) < u := by norm_num; linarith
  have e2 : ¬ u < (0 - 1 / 10 ^ 8 : ℝ) := by norm_num; linarith
  decode [e1, e2]

theorem intUniform_identity :
    Dim.rvs exact (.int ⟨l, h, .uniform, b, .identity, nm, wrap⟩) (rawOf u) =
      .ok [.num (wrap (roundHalfEven (npClip l h u)) : ℤ)] := by
  decode []

theorem intLog_normalize (h0 : 0 ≤ u) (h1 : u ≤ 1) :
    Dim.rvs exact (.int ⟨l, h, .logUniform, b, .normalize, nm, wrap⟩) (rawOf u) =
      .ok [.num (wrap (roundHalfEven (npClip l h (b ^ (u * (lgb b h - lgb b l) + lgb b l)))) : ℤ)] := by
  have e1 : ¬ (1 + 1 / 10 ^ 8 : ℝ) < u := by norm_num; linarith
  have e2 : ¬ u < (0 - 1 / 10 ^ 8 : ℝ) := by norm_num; linarith
  decode [e1, e2, lgb]

theorem intLog_identity :
    Dim.rvs exact (.int ⟨l, h, .logUniform, b, .identity, nm, wrap⟩) (rawOf u) =
      .ok [.num (wrap (roundHalfEven (npClip l h (b ^ u))) : ℤ)] := by
  decode []

end

theorem chance_of_interval {d : Dim ℝ} {S : Set (Val ℝ)} {a b c e : ℝ} (hlaw : d.rawLaw = uniformOn a b)
    (hab : a < b) (hac : a ≤ c) (heb : e ≤ b)
    (hin : ∀ u, c < u → u < e → ∃ v, Dim.rvs exact d (rawOf u) = .ok [v] ∧ v ∈ S)
    (hout : ∀ u v, a ≤ u → u ≤ b → Dim.rvs exact d (rawOf u) = .ok [v] → v ∈ S → c ≤ u ∧ u ≤ e) :
    chance d S = ENNReal.ofReal ((e - c) / (b - a)) := by
  unfold chance
  rw [hlaw]
  refine uniformOn_eq hab ?_ ?_
  · rintro u ⟨h1, h2⟩
    exact ⟨⟨by linarith, by linarith⟩, hin u h1 h2⟩
  · rintro u ⟨⟨h1, h2⟩, v, h3, h4⟩
    exact hout u v h1 h2 h3 h4

/-- The numbers between two bounds. -/
def interval (x y : ℝ) : Set (Val ℝ) := {v | ∃ z, v = .num z ∧ x ≤ z ∧ z ≤ y}

/-- **C75 (Real, uniform).** With either transform a sample of `Real(low, high)` falls into any subinterval with
probability proportional to its length. -/
theorem C75_real_uniform (l h b : ℝ) (hlt : l < h) (nm : Option String) (cast : ℝ → ℝ) (hc : ∀ x, cast x = x)
    (t : TKind) (ht : t = .normalize ∨ t = .identity) (x y : ℝ) (h1 : l ≤ x) (h2 : y ≤ h) :
    chance (.real ⟨l, h, .uniform, b, t, nm, cast⟩) (interval x y) = ENNReal.ofReal ((y - x) / (h - l)) := by
  have hpos : 0 < h - l := by linarith
  rcases ht with rfl | rfl
  · have hval : ∀ u, 0 ≤ u → u ≤ 1 → npClip l h (u * (h - l) + l) = u * (h - l) + l := by
      intro u hu0 hu1
      refine npClip_of_mem ?_ ?_
      · have := mul_nonneg hu0 hpos.le
        linarith
      · have := mul_le_mul_of_nonneg_right hu1 hpos.le
        linarith
    have e : (y - x) / (h - l) = ((y - l) / (h - l) - (x - l) / (h - l)) / (1 - 0) := by
      field_simp
      ring
    have hx0 : 0 ≤ (x - l) / (h - l) := div_nonneg (by linarith) hpos.le
    have hy1 : (y - l) / (h - l) ≤ 1 := (div_le_one hpos).2 (by linarith)
    rw [e]
    refine chance_of_interval rfl one_pos hx0 hy1 ?_ ?_
    · intro u hu1 hu2
      have g1 : 0 ≤ u := by linarith
      have g2 : u ≤ 1 := by linarith
      refine ⟨_, realUniform_normalize l h b nm cast u g1 g2, _, rfl, ?_, ?_⟩ <;> rw [hc, hval u g1 g2]
      · have := (div_lt_iff₀ hpos).1 hu1
        linarith
      · have := (lt_div_iff₀ hpos).1 hu2
        linarith
    · rintro u v g1 g2 hr ⟨z, rfl, hz1, hz2⟩
      rw [realUniform_normalize l h b nm cast u g1 g2, hc, hval u g1 g2] at hr
      simp only [Except.ok.injEq, List.cons.injEq, Val.num.injEq, and_true] at hr
      subst hr
      exact ⟨(div_le_iff₀ hpos).2 (by linarith), (le_div_iff₀ hpos).2 (by linarith)⟩
  · refine chance_of_interval rfl hlt h1 h2 ?_ ?_
    · intro u hu1 hu2
      refine ⟨_, realUniform_identity l h b nm cast u, _, rfl, ?_, ?_⟩ <;>
        rw [hc, npClip_of_mem (by linarith) (by linarith)] <;> linarith
    · rintro u v g1 g2 hr ⟨z, rfl, hz1, hz2⟩
      rw [realUniform_identity l h b nm cast u, hc, npClip_of_mem g1 g2] at hr
      simp only [Except.ok.injEq, List.cons.injEq, Val.num.injEq, and_true] at hr
      subst hr
      exact ⟨hz1, hz2⟩

theorem lgb_eq {b : ℝ} (x : ℝ) : lgb b x = Real.logb b x := by
  unfold lgb Real.logb
  have : Real.log 10 ≠ 0 := by
    have := Real.log_pos (show (1 : ℝ) < 10 by norm_num)
    exact this.ne'
  field_simp

theorem lgb_diff {b : ℝ} (hb : 1 < b) (x y l h : ℝ) :
    (Real.log y - Real.log x) / (Real.log h - Real.log l) = (lgb b y - lgb b x) / (lgb b h - lgb b l) := by
  have : Real.log b ≠ 0 := (Real.log_pos hb).ne'
  simp only [lgb_eq, Real.logb]
  rw [← sub_div, ← sub_div, div_div_div_cancel_right₀ this]

theorem lgb_lt {b x y : ℝ} (hb : 1 < b) (hx : 0 < x) (hxy : x < y) : lgb b x < lgb b y := by
  rw [lgb_eq, lgb_eq]
  exact Real.logb_lt_logb hb hx hxy

theorem lgb_le {b x y : ℝ} (hb : 1 < b) (hx : 0 < x) (hxy : x ≤ y) : lgb b x ≤ lgb b y := by
  rw [lgb_eq, lgb_eq]
  exact Real.logb_le_logb_of_le hb hx hxy

theorem lgb_le_iff {b x u : ℝ} (hb : 1 < b) (hx : 0 < x) : lgb b x ≤ u ↔ x ≤ b ^ u := by
  rw [lgb_eq, Real.logb_le_iff_le_rpow hb hx]

theorem le_lgb_iff {b x u : ℝ} (hb : 1 < b) (hx : 0 < x) : u ≤ lgb b x ↔ b ^ u ≤ x := by
  rw [lgb_eq, Real.le_logb_iff_rpow_le hb hx]

/-- The image of an affine map of the unit interval onto `[p, q]`. -/
theorem affine_range {p q u : ℝ} (hpq : p < q) (h0 : 0 ≤ u) (h1 : u ≤ 1) :
    p ≤ u * (q - p) + p ∧ u * (q - p) + p ≤ q := by
  have h : 0 < q - p := by linarith
  have := mul_nonneg h0 h.le
  have := mul_le_mul_of_nonneg_right h1 h.le
  constructor <;> linarith

theorem affine_le {p q u c : ℝ} (hpq : p < q) : c ≤ u * (q - p) + p ↔ (c - p) / (q - p) ≤ u := by
  rw [div_le_iff₀ (by linarith)]
  constructor <;> intro h <;> linarith

theorem le_affine {p q u c : ℝ} (hpq : p < q) : u * (q - p) + p ≤ c ↔ u ≤ (c - p) / (q - p) := by
  rw [le_div_iff₀ (by linarith)]
  constructor <;> intro h <;> linarith

theorem affine_diff {p q c e : ℝ} : ((e - p) / (q - p) - (c - p) / (q - p)) / (1 - 0) = (e - c) / (q - p) := by
  rw [← sub_div, sub_zero, div_one]
  congr 1
  ring

/-- **C75 (Real, log-uniform).** With either transform and any base greater than one, the logarithm of a sample of
`Real(low, high, prior="log-uniform")` is uniformly distributed. -/
theorem C75_real_log_uniform (l h b : ℝ) (hl : 0 < l) (hlt : l < h) (hb : 1 < b) (nm : Option String) (cast : ℝ → ℝ)
    (hc : ∀ x, cast x = x) (t : TKind) (ht : t = .normalize ∨ t = .identity) (x y : ℝ) (h1 : l ≤ x) (hxy : x ≤ y)
    (h2 : y ≤ h) :
    chance (.real ⟨l, h, .logUniform, b, t, nm, cast⟩) (interval x y) =
      ENNReal.ofReal ((Real.log y - Real.log x) / (Real.log h - Real.log l)) := by
  have hx : 0 < x := by linarith
  have hlg := lgb_lt hb hl hlt
  rw [lgb_diff hb]
  have hclip : ∀ w, lgb b l ≤ w → w ≤ lgb b h → npClip l h (b ^ w) = b ^ w := fun w g1 g2 =>
    npClip_of_mem ((lgb_le_iff hb hl).1 g1) ((le_lgb_iff hb (by linarith)).1 g2)
  have hlx := lgb_le hb hl h1
  have hyh := lgb_le hb (by linarith : 0 < y) h2
  rcases ht with rfl | rfl
  · rw [← affine_diff]
    refine chance_of_interval rfl one_pos (div_nonneg (by linarith) (by linarith))
      ((div_le_one (by linarith)).2 (by linarith)) ?_ ?_
    · intro u hu1 hu2
      have hp : (0 : ℝ) ≤ (lgb b x - lgb b l) / (lgb b h - lgb b l) := div_nonneg (by linarith) (by linarith)
      have hq : (lgb b y - lgb b l) / (lgb b h - lgb b l) ≤ 1 := (div_le_one (by linarith)).2 (by linarith)
      have g1 : 0 ≤ u := by linarith
      have g2 : u ≤ 1 := by linarith
      obtain ⟨r1, r2⟩ := affine_range hlg g1 g2
      refine ⟨_, realLog_normalize l h b nm cast u g1 g2, _, rfl, ?_, ?_⟩ <;> rw [hc, hclip _ r1 r2]
      · exact (lgb_le_iff hb hx).1 ((affine_le hlg).2 hu1.le)
      · exact (le_lgb_iff hb (by linarith)).1 ((le_affine hlg).2 hu2.le)
    · rintro u v g1 g2 hr ⟨z, rfl, hz1, hz2⟩
      obtain ⟨r1, r2⟩ := affine_range hlg g1 g2
      rw [realLog_normalize l h b nm cast u g1 g2, hc, hclip _ r1 r2] at hr
      simp only [Except.ok.injEq, List.cons.injEq, Val.num.injEq, and_true] at hr
      subst hr
      exact ⟨(affine_le hlg).1 ((lgb_le_iff hb hx).2 hz1), (le_affine hlg).1 ((le_lgb_iff hb (by linarith)).2 hz2)⟩
  · refine chance_of_interval rfl hlg hlx hyh ?_ ?_
    · intro u hu1 hu2
      refine ⟨_, realLog_identity l h b nm cast u, _, rfl, ?_, ?_⟩ <;>
        rw [hc, hclip _ (by linarith) (by linarith)]
      · exact (lgb_le_iff hb hx).1 hu1.le
      · exact (le_lgb_iff hb (by linarith)).1 hu2.le
    · rintro u v g1 g2 hr ⟨z, rfl, hz1, hz2⟩
      rw [realLog_identity l h b nm cast u, hc, hclip _ g1 g2] at hr
      simp only [Except.ok.injEq, List.cons.injEq, Val.num.injEq, and_true] at hr
      subst hr
      exact ⟨(lgb_le_iff hb hx).2 hz1, (le_lgb_iff hb (by linarith)).2 hz2⟩

theorem round_eq_of_near {x : ℝ} {k : ℤ} (h1 : (k : ℝ) - 1 / 2 < x) (h2 : x < k + 1 / 2) : roundHalfEven x = k := by
  have a := roundHalfEven_le x
  have b := le_roundHalfEven x
  have c1 : (roundHalfEven x : ℝ) < k + 1 := by linarith
  have c2 : (k : ℝ) - 1 < roundHalfEven x := by linarith
  have d1 : roundHalfEven x < k + 1 := by exact_mod_cast c1
  have d2 : k - 1 < roundHalfEven x := by exact_mod_cast c2
  omega

/-- The integer `k` as a value. -/
def single (k : ℤ) : Set (Val ℝ) := {v | v = .num (k : ℝ)}

/-- **C75 (Integer, uniform, identity).** A sample of `Integer(low, high)` with the identity transform is each of the
integers with the same probability. -/
theorem C75_integer_uniform_partial (l h : ℤ) (b : ℝ) (nm : Option String) (k : ℤ) (h1 : l ≤ k) (h2 : k ≤ h) :
    chance (.int ⟨l, h, .uniform, b, .identity, nm, id⟩) (single k) = ENNReal.ofReal (1 / ((h : ℝ) - l + 1)) := by
  have hval : ∀ j : ℤ, l ≤ j → j ≤ h → Dim.rvs exact (.int ⟨(l : ℝ), h, .uniform, b, .identity, nm, id⟩)
      (rawOf (j : ℝ)) = .ok [.num (j : ℝ)] := by
    intro j g1 g2
    rw [intUniform_identity, npClip_of_mem (by exact_mod_cast g1) (by exact_mod_cast g2), roundHalfEven_intCast]
    rfl
  unfold chance
  show randintLaw ⌊(l : ℝ)⌋ ⌊(h : ℝ)⌋ _ = _
  rw [Int.floor_intCast, Int.floor_intCast]
  unfold randintLaw
  rw [Measure.finsetSum_apply, Finset.sum_eq_single k]
  · rw [Measure.smul_apply, Measure.dirac_apply_of_mem, smul_eq_mul, mul_one]
    exact ⟨_, hval k h1 h2, rfl⟩
  · intro j hj hne
    rw [Finset.mem_Icc] at hj
    rw [Measure.smul_apply, smul_eq_mul]
    have : Measure.dirac (j : ℝ) {u | ∃ v, Dim.rvs exact (.int ⟨(l : ℝ), h, .uniform, b, .identity, nm, id⟩)
        (rawOf u) = .ok [v] ∧ v ∈ single k} = 0 := by
      rw [Measure.dirac_apply, Set.indicator_of_notMem]
      rintro ⟨v, hv, hk⟩
      rw [hval j hj.1 hj.2] at hv
      simp only [Except.ok.injEq, List.cons.injEq, and_true] at hv
      subst hv
      simp only [single, Set.mem_ofPred_eq, Val.num.injEq, Int.cast_inj] at hk
      exact hne hk
    rw [this, mul_zero]
  · intro hk
    exact absurd (Finset.mem_Icc.2 ⟨h1, h2⟩) hk

/-- What a sample of `Integer(low, high)` with the normalizing transform is: the two bounds have only half the
probability of the integers in between. -/
theorem integer_normalize_chance (l h : ℤ) (hlt : l < h) (b : ℝ) (nm : Option String) (k : ℤ) (h1 : l ≤ k)
    (h2 : k ≤ h) :
    chance (.int ⟨l, h, .uniform, b, .normalize, nm, id⟩) (single k) =
      ENNReal.ofReal ((min ((k : ℝ) + 1 / 2) h - max ((k : ℝ) - 1 / 2) l) / ((h : ℝ) - l)) := by
  have hR : (l : ℝ) < h := by exact_mod_cast hlt
  have hk1 : (l : ℝ) ≤ k := by exact_mod_cast h1
  have hk2 : (k : ℝ) ≤ h := by exact_mod_cast h2
  have hval : ∀ u, 0 ≤ u → u ≤ 1 → Dim.rvs exact (.int ⟨(l : ℝ), h, .uniform, b, .normalize, nm, id⟩) (rawOf u) =
      .ok [.num ((roundHalfEven (u * ((h : ℝ) - l) + l) : ℤ) : ℝ)] := by
    intro u g1 g2
    obtain ⟨r1, r2⟩ := affine_range hR g1 g2
    have q1 : (l : ℝ) ≤ (roundHalfEven (u * ((h : ℝ) - l) + l) : ℤ) := by
      have := roundHalfEven_mono r1
      rw [roundHalfEven_intCast] at this
      exact_mod_cast this
    have q2 : ((roundHalfEven (u * ((h : ℝ) - l) + l) : ℤ) : ℝ) ≤ h := by
      have := roundHalfEven_mono r2
      rw [roundHalfEven_intCast] at this
      exact_mod_cast this
    rw [intUniform_normalize _ _ _ _ _ u g1 g2, npClip_of_mem q1 q2, roundHalfEven_intCast]
    rfl
  rw [← affine_diff]
  have hc0 : 0 ≤ (max ((k : ℝ) - 1 / 2) l - l) / ((h : ℝ) - l) :=
    div_nonneg (by linarith [le_max_right ((k : ℝ) - 1 / 2) l]) (by linarith)
  have he1 : (min ((k : ℝ) + 1 / 2) h - l) / ((h : ℝ) - l) ≤ 1 :=
    (div_le_one (by linarith)).2 (by linarith [min_le_right ((k : ℝ) + 1 / 2) h])
  refine chance_of_interval rfl one_pos hc0 he1 ?_ ?_
  · intro u hu1 hu2
    refine ⟨_, hval u (by linarith) (by linarith), ?_⟩
    have a1 : max ((k : ℝ) - 1 / 2) l < u * ((h : ℝ) - l) + l := by
      by_contra hn
      exact absurd ((le_affine hR).1 (not_lt.1 hn)) (not_le.2 hu1)
    have a2 : u * ((h : ℝ) - l) + l < min ((k : ℝ) + 1 / 2) h := by
      by_contra hn
      exact absurd ((affine_le hR).1 (not_lt.1 hn)) (not_le.2 hu2)
    rw [round_eq_of_near (lt_of_le_of_lt (le_max_left _ _) a1) (lt_of_lt_of_le a2 (min_le_left _ _))]
    rfl
  · rintro u v g1 g2 hr hk
    rw [hval u g1 g2] at hr
    simp only [Except.ok.injEq, List.cons.injEq, and_true] at hr
    subst hr
    simp only [single, Set.mem_ofPred_eq, Val.num.injEq, Int.cast_inj] at hk
    obtain ⟨r1, r2⟩ := affine_range hR g1 g2
    have b1 := roundHalfEven_le (u * ((h : ℝ) - l) + l)
    have b2 := le_roundHalfEven (u * ((h : ℝ) - l) + l)
    rw [hk] at b1 b2
    exact ⟨(affine_le hR).1 (max_le (by linarith) r1), (le_affine hR).1 (le_min (by linarith) r2)⟩

/-- **C75 is false for `Integer` with the normalizing transform** (the one a Gaussian process surrogate sets): a sample
of `Integer(0, 2)` is 0 with probability 1/4 and 1 with probability 1/2, not 1/3 each. -/
theorem C75_refuted_integer_normalize (b : ℝ) (nm : Option String) :
    chance (.int ⟨(0 : ℤ), (2 : ℤ), .uniform, b, .normalize, nm, id⟩) (single 0) = ENNReal.ofReal (1 / 4) ∧
    chance (.int ⟨(0 : ℤ), (2 : ℤ), .uniform, b, .normalize, nm, id⟩) (single 1) = ENNReal.ofReal (1 / 2) := by
  constructor
  · rw [integer_normalize_chance 0 2 (by norm_num) b nm 0 (by norm_num) (by norm_num)]
    congr 1
    norm_num
  · rw [integer_normalize_chance 0 2 (by norm_num) b nm 1 (by norm_num) (by norm_num)]
    congr 1
    norm_num

/-- **C75 is false for `Integer` with the normalizing transform, in general**: with three or more integers the bounds
are too rare. -/
theorem C75_refuted_integer_normalize_bounds (l h : ℤ) (hlt : l + 1 < h) (b : ℝ) (nm : Option String) :
    chance (.int ⟨l, h, .uniform, b, .normalize, nm, id⟩) (single l) < ENNReal.ofReal (1 / ((h : ℝ) - l + 1)) ∧
    chance (.int ⟨l, h, .uniform, b, .normalize, nm, id⟩) (single h) < ENNReal.ofReal (1 / ((h : ℝ) - l + 1)) := by
  have hR : (l : ℝ) + 1 < h := by exact_mod_cast hlt
  have key : 1 / (2 * ((h : ℝ) - l)) < 1 / ((h : ℝ) - l + 1) := by
    apply one_div_lt_one_div_of_lt <;> linarith
  constructor
  · rw [integer_normalize_chance l h (by omega) b nm l le_rfl (by omega)]
    rw [ENNReal.ofReal_lt_ofReal_iff (one_div_pos.2 (by linarith))]
    rw [min_eq_left (by linarith), max_eq_right (by linarith)]
    convert key using 1
    field_simp
    ring
  · rw [integer_normalize_chance l h (by omega) b nm h (by omega) le_rfl]
    rw [ENNReal.ofReal_lt_ofReal_iff (one_div_pos.2 (by linarith))]
    rw [min_eq_right (by linarith), max_eq_left (by linarith)]
    convert key using 1
    field_simp
    ring

/-- **C75 (Integer, log-uniform).** With either transform a sample of `Integer(low, high, prior="log-uniform")` is the
integer nearest to a log-uniform number between the bounds. -/
theorem C75_integer_log_uniform (l h : ℤ) (hl : 0 < l) (hlt : l < h) (b : ℝ) (hb : 1 < b) (nm : Option String)
    (t : TKind) (ht : t = .normalize ∨ t = .identity) (k : ℤ) (h1 : l ≤ k) (h2 : k ≤ h) :
    chance (.int ⟨l, h, .logUniform, b, t, nm, id⟩) (single k) =
      ENNReal.ofReal ((Real.log (min ((k : ℝ) + 1 / 2) h) - Real.log (max ((k : ℝ) - 1 / 2) l)) /
        (Real.log h - Real.log l)) := by
  have hR : (l : ℝ) < h := by exact_mod_cast hlt
  have hl1 : (0 : ℝ) < l := by exact_mod_cast hl
  have hh0 : (0 : ℝ) < h := by linarith
  have hk1 : (l : ℝ) ≤ k := by exact_mod_cast h1
  have hk2 : (k : ℝ) ≤ h := by exact_mod_cast h2
  have hlg := lgb_lt hb hl1 hR
  have hmax : (l : ℝ) ≤ max ((k : ℝ) - 1 / 2) l := le_max_right _ _
  have hmin : min ((k : ℝ) + 1 / 2) h ≤ (h : ℝ) := min_le_right _ _
  have hmax0 : 0 < max ((k : ℝ) - 1 / 2) l := by linarith
  have hmin0 : 0 < min ((k : ℝ) + 1 / 2) h := lt_min (by linarith) hh0
  have hcl := lgb_le hb hl1 hmax
  have heh := lgb_le hb hmin0 hmin
  rw [lgb_diff hb]
  have hclip : ∀ w, lgb b l ≤ w → w ≤ lgb b h → npClip (l : ℝ) h (b ^ w) = b ^ w := fun w g1 g2 =>
    npClip_of_mem ((lgb_le_iff hb hl1).1 g1) ((le_lgb_iff hb hh0).1 g2)
  have near : ∀ w, lgb b (max ((k : ℝ) - 1 / 2) l) < w → w < lgb b (min ((k : ℝ) + 1 / 2) h) →
      roundHalfEven (b ^ w) = k := by
    intro w g1 g2
    refine round_eq_of_near ?_ ?_
    · by_contra hn
      have := (le_lgb_iff hb hmax0).2 (le_trans (not_lt.1 hn) (le_max_left _ _))
      linarith
    · by_contra hn
      have := (lgb_le_iff hb hmin0).2 (le_trans (min_le_left _ _) (not_lt.1 hn))
      linarith
  have far : ∀ w, lgb b l ≤ w → w ≤ lgb b h → roundHalfEven (b ^ w) = k →
      lgb b (max ((k : ℝ) - 1 / 2) l) ≤ w ∧ w ≤ lgb b (min ((k : ℝ) + 1 / 2) h) := by
    intro w g1 g2 hk
    have b1 := roundHalfEven_le (b ^ w)
    have b2 := le_roundHalfEven (b ^ w)
    rw [hk] at b1 b2
    exact ⟨(lgb_le_iff hb hmax0).2 (max_le (by linarith) ((lgb_le_iff hb hl1).1 g1)),
      (le_lgb_iff hb hmin0).2 (le_min (by linarith) ((le_lgb_iff hb hh0).1 g2))⟩
  rcases ht with rfl | rfl
  · rw [← affine_diff]
    have hc0 : 0 ≤ (lgb b (max ((k : ℝ) - 1 / 2) l) - lgb b l) / (lgb b h - lgb b l) :=
      div_nonneg (by linarith) (by linarith)
    have he1 : (lgb b (min ((k : ℝ) + 1 / 2) h) - lgb b l) / (lgb b h - lgb b l) ≤ 1 :=
      (div_le_one (by linarith)).2 (by linarith)
    refine chance_of_interval rfl one_pos hc0 he1 ?_ ?_
    · intro u hu1 hu2
      have g1 : 0 ≤ u := by linarith
      have g2 : u ≤ 1 := by linarith
      obtain ⟨r1, r2⟩ := affine_range hlg g1 g2
      refine ⟨_, intLog_normalize _ _ b nm id u g1 g2, ?_⟩
      rw [hclip _ r1 r2, near]
      · rfl
      · by_contra hn
        exact absurd ((le_affine hlg).1 (not_lt.1 hn)) (not_le.2 hu1)
      · by_contra hn
        exact absurd ((affine_le hlg).1 (not_lt.1 hn)) (not_le.2 hu2)
    · rintro u v g1 g2 hr hk
      obtain ⟨r1, r2⟩ := affine_range hlg g1 g2
      rw [intLog_normalize _ _ b nm id u g1 g2, hclip _ r1 r2] at hr
      simp only [Except.ok.injEq, List.cons.injEq, and_true] at hr
      subst hr
      simp only [single, Set.mem_ofPred_eq, Val.num.injEq, Int.cast_inj] at hk
      obtain ⟨f1, f2⟩ := far _ r1 r2 hk
      exact ⟨(affine_le hlg).1 f1, (le_affine hlg).1 f2⟩
  · refine chance_of_interval rfl hlg hcl heh ?_ ?_
    · intro u hu1 hu2
      refine ⟨_, intLog_identity _ _ b nm id u, ?_⟩
      rw [hclip _ (by linarith) (by linarith), near u hu1 hu2]
      rfl
    · rintro u v g1 g2 hr hk
      rw [intLog_identity _ _ b nm id u, hclip _ g1 g2] at hr
      simp only [Except.ok.injEq, List.cons.injEq, and_true] at hr
      subst hr
      simp only [single, Set.mem_ofPred_eq, Val.num.injEq, Int.cast_inj] at hk
      exact far _ g1 g2 hk

/-- The probability of the `i`-th category according to the `prior` argument: the given one, or the same for all. -/
def PriorProb (c : CatDim ℝ) (i : Nat) (w : ℝ) : Prop :=
  match c.prior with
  | some ws => ws[i]? = some w
  | none => i < c.cats.length ∧ w = 1 / c.cats.length

/-- **C75 (Categorical).** With every transform but the normalizing one, a sample of a `Categorical` without repeated
categories is the `i`-th category with the `i`-th prior probability. -/
theorem C75_categorical_partial (c : CatDim ℝ) (ht : c.transform ≠ .normalize) (hnd : c.cats.Nodup)
    (hlen : ∀ ws, c.prior = some ws → ws.length = c.cats.length) (i : Nat) (v : Val ℝ) (w : ℝ)
    (hv : c.cats[i]? = some v) (hp : PriorProb c i w) :
    chance (.cat c) {v} = ENNReal.ofReal w := by
  have hw : c.weights[i]? = some w := by
    unfold PriorProb at hp
    unfold CatDim.weights
    cases h : c.prior with
    | none =>
      rw [h] at hp
      obtain ⟨h1, rfl⟩ := hp
      rw [Option.getD_none, List.getElem?_replicate, if_pos h1]
    | some ws => rw [h] at hp; exact hp
  have hlen : c.weights.length = c.cats.length := by
    unfold CatDim.weights
    cases h : c.prior with
    | none => rw [Option.getD_none, List.length_replicate]
    | some ws => exact hlen ws h
  obtain ⟨hi, rfl⟩ := List.getElem?_eq_some_iff.1 hw
  have hlaw : (Dim.cat c).rawLaw = discreteLaw c.weights := by
    cases hc : c.transform <;> simp [Dim.rawLaw, hc] at ht ⊢
  have hrvs : ∀ j : Nat, Dim.rvs exact (.cat c) (rawOf (j : ℝ)) = mapE (fun i => pyGet c.cats i) [j] := by
    intro j
    cases hc : c.transform <;> simp [Dim.rvs, rawOf, hc] at ht ⊢
  unfold chance
  rw [hlaw]
  unfold discreteLaw
  rw [Measure.finsetSum_apply, Finset.sum_eq_single (⟨i, hi⟩ : Fin c.weights.length)]
  · rw [Measure.smul_apply, Measure.dirac_apply_of_mem, smul_eq_mul, mul_one]
    · rfl
    · refine ⟨v, ?_, rfl⟩
      rw [hrvs]
      simp [mapE, pyGet, hv]
  · intro j _ hne
    rw [Measure.smul_apply, smul_eq_mul, Measure.dirac_apply, Set.indicator_of_notMem, mul_zero]
    rintro ⟨v', hv', hk⟩
    rw [Set.mem_singleton_iff] at hk
    subst hk
    rw [hrvs] at hv'
    have hj : j.val < c.cats.length := by rw [← hlen]; exact j.isLt
    simp only [mapE, pyGet, List.getElem?_eq_getElem hj, Except.ok.injEq, List.cons.injEq, and_true] at hv'
    obtain ⟨hi', hvi⟩ := List.getElem?_eq_some_iff.1 hv
    rw [← hvi] at hv'
    have := (List.Nodup.getElem_inj_iff hnd).1 hv'
    exact hne (Fin.ext this)
  · intro h
    exact absurd (Finset.mem_univ _) h

/-- **C75 is false for `Categorical` with the normalizing transform** (the one a Gaussian process surrogate sets): the
prior has no influence on the samples. -/
theorem C75_refuted_categorical_prior_ignored (cats : List (Val ℝ)) (p q : Option (List ℝ)) (nm : Option String)
    (str : Val ℝ → String) (cs : String → Except PyErr (Val ℝ)) (S : Set (Val ℝ)) :
    chance (.cat ⟨cats, p, .normalize, nm, str, cs⟩) S = chance (.cat ⟨cats, q, .normalize, nm, str, cs⟩) S := rfl

/-- The category drawn by a `Categorical` with the normalizing transform: the number is scaled to the labels and
rounded. -/
theorem catNormalize_rvs (c : CatDim ℝ) (ht : c.transform = .normalize) (hv : ValidDim exact (.cat c)) (u : ℝ)
    (h0 : 0 ≤ u) (h1 : u ≤ 1) :
    ∃ i : Nat, ((i : ℤ) = roundHalfEven (u * ((c.cats.length : ℝ) - 1))) ∧ i < c.cats.length ∧
      Dim.rvs exact (.cat c) (rawOf u) = .ok [(labelKeys c.cats).getD i (.obj 0)] := by
  obtain ⟨hne, hnd, hh⟩ := hv
  have hpos : 0 < c.cats.length := List.length_pos_iff.2 hne
  have hn : (0 : ℝ) ≤ (c.cats.length : ℝ) - 1 := by
    have : (1 : ℝ) ≤ c.cats.length := by exact_mod_cast hpos
    linarith
  have hr0 : 0 ≤ roundHalfEven (u * ((c.cats.length : ℝ) - 1)) := by
    have := roundHalfEven_mono (mul_nonneg h0 hn)
    have h0' := roundHalfEven_intCast (K := ℝ) 0
    rw [Int.cast_zero] at h0'
    rwa [h0'] at this
  have hr1 : roundHalfEven (u * ((c.cats.length : ℝ) - 1)) ≤ (c.cats.length : ℤ) - 1 := by
    have := roundHalfEven_mono (mul_le_of_le_one_left hn h1)
    have e : ((c.cats.length : ℝ) - 1) = (((c.cats.length : ℤ) - 1 : ℤ) : ℝ) := by push_cast; rfl
    rw [e, roundHalfEven_intCast] at this
    rwa [e]
  obtain ⟨i, hi⟩ := Int.eq_ofNat_of_zero_le hr0
  have hi' : (i : ℤ) = roundHalfEven (u * ((c.cats.length : ℝ) - 1)) := hi.symm
  have hlt : i < c.cats.length := by omega
  refine ⟨i, hi', hlt, ?_⟩
  have e1 : ¬ (1 + 1 / 10 ^ 8 : ℝ) < u := by norm_num; linarith
  have e2 : ¬ u < (0 - 1 / 10 ^ 8 : ℝ) := by norm_num; linarith
  have hdec := LabelEnc.decode_near hnd hh (LabelEnc.fit_valid exact hnd hh) (is := [i]) (xs := [(i : ℝ)])
    (by simpa using hlt) (by simp)
  have hmem : (labelKeys c.cats).getD i (.obj 0) ∈ c.cats := by
    rw [← mem_labelKeys, getD_lt (by rw [labelKeys_length hnd]; exact hlt)]
    exact List.getElem_mem _
  have hnp : npArray exact [(labelKeys c.cats).getD i (.obj 0)] = .ok [(labelKeys c.cats).getD i (.obj 0)] :=
    (hh.subset (by simpa using hmem)).npArray
  have hround : ((roundHalfEven (u * ((((c.cats.length : ℤ) - 1 : ℤ) : ℝ) - 0) + 0) : ℤ) : ℝ) = (i : ℝ) := by
    rw [show u * ((((c.cats.length : ℤ) - 1 : ℤ) : ℝ) - 0) + 0 = u * ((c.cats.length : ℝ) - 1) by push_cast; ring,
      ← hi']
    simp
  simp only [Dim.rvs, ht, rawOf, Dim.inverse, CatDim.inverse, CatDim.transformer, LabelEnc.fit_valid exact hnd hh,
    ok_bind, Transformer.inverse, pipelineInverse, List.reverse_cons, List.reverse_nil, List.nil_append,
    List.cons_append, pipelineInverseLoop, Stage.inverse, Normalize.inverse, List.map_cons, List.map_nil, mapE,
    scalarRow, Val.toNum, List.any_cons, List.any_nil]
  have e1' : ¬ (exact.add (exact.ofInt 1) exact.eps < u) := by simpa [exact] using e1
  have e2' : ¬ (u < exact.sub (exact.ofInt 0) exact.eps) := by simpa [exact] using e2
  have hround' : exact.ofInt (exact.round (exact.add (exact.mul u (exact.sub (exact.ofInt ((c.cats.length : ℤ) - 1))
      (exact.ofInt 0))) (exact.ofInt 0))) = (i : ℝ) := by
    simpa [exact] using hround
  simp only [e1', e2', decide_false, Bool.or_self, Bool.false_eq_true, if_false, if_true, hround', ok_bind,
    List.map_cons, List.map_nil, mapE, Val.toNum]
  rw [hdec]
  exact hnp

/-- What a sample of a normalized `Categorical` is: in label order the two outer categories have half the probability
of the others, whatever the prior. -/
theorem categorical_normalize_chance (c : CatDim ℝ) (ht : c.transform = .normalize) (hv : ValidDim exact (.cat c))
    (h2 : 2 ≤ c.cats.length) (k : Nat) (hk : k < c.cats.length) :
    chance (.cat c) {(labelKeys c.cats).getD k (.obj 0)} =
      ENNReal.ofReal ((min ((k : ℝ) + 1 / 2) ((c.cats.length : ℝ) - 1) - max ((k : ℝ) - 1 / 2) 0) /
        ((c.cats.length : ℝ) - 1)) := by
  have hnd := hv.2.1
  have hn : (0 : ℝ) < (c.cats.length : ℝ) - 1 := by
    have : (2 : ℝ) ≤ c.cats.length := by exact_mod_cast h2
    linarith
  have hk' : (k : ℝ) ≤ (c.cats.length : ℝ) - 1 := by
    have : (k : ℝ) + 1 ≤ c.cats.length := by exact_mod_cast hk
    linarith
  have hlaw : (Dim.cat c).rawLaw = uniformOn 0 1 := by simp [Dim.rawLaw, ht]
  have key := chance_of_interval (d := .cat c) (S := {(labelKeys c.cats).getD k (.obj 0)})
    (c := max ((k : ℝ) - 1 / 2) 0 / ((c.cats.length : ℝ) - 1))
    (e := min ((k : ℝ) + 1 / 2) ((c.cats.length : ℝ) - 1) / ((c.cats.length : ℝ) - 1)) hlaw one_pos
    (div_nonneg (le_max_right _ _) hn.le) ((div_le_one hn).2 (min_le_right _ _)) ?_ ?_
  · rw [key]
    congr 1
    rw [sub_zero, div_one, ← sub_div]
  · intro u g1 g2
    have u0 : 0 ≤ u := le_trans (div_nonneg (le_max_right _ _) hn.le) g1.le
    have u1 : u ≤ 1 := le_trans g2.le ((div_le_one hn).2 (min_le_right _ _))
    obtain ⟨i, hi, hlt, hr⟩ := catNormalize_rvs c ht hv u u0 u1
    rw [div_lt_iff₀ hn] at g1
    rw [lt_div_iff₀ hn] at g2
    have := round_eq_of_near (k := (k : ℤ)) (x := u * ((c.cats.length : ℝ) - 1))
      (by push_cast; exact lt_of_le_of_lt (le_max_left _ _) g1)
      (by push_cast; exact lt_of_lt_of_le g2 (min_le_left _ _))
    rw [this] at hi
    have : i = k := by exact_mod_cast hi
    subst this
    exact ⟨_, hr, rfl⟩
  · intro u v u0 u1 hr hS
    obtain ⟨i, hi, hlt, hr'⟩ := catNormalize_rvs c ht hv u u0 u1
    rw [hr'] at hr
    simp only [Except.ok.injEq, List.cons.injEq, and_true] at hr
    rw [Set.mem_singleton_iff] at hS
    rw [← hr, getD_lt (by rw [labelKeys_length hnd]; exact hlt), getD_lt (by rw [labelKeys_length hnd]; exact hk)] at hS
    have hik : i = k := (List.Nodup.getElem_inj_iff (labelKeys_nodup hnd)).1 hS
    subst hik
    have b1 := roundHalfEven_le (u * ((c.cats.length : ℝ) - 1))
    have b2 := le_roundHalfEven (u * ((c.cats.length : ℝ) - 1))
    rw [← hi] at b1 b2
    push_cast at b1 b2
    rw [div_le_iff₀ hn, le_div_iff₀ hn]
    refine ⟨max_le (by linarith) (mul_nonneg u0 hn.le), le_min (by linarith) ?_⟩
    exact mul_le_of_le_one_left hn.le u1

/-- **C75 is false for `Categorical` with the normalizing transform**, witness: with two categories each is drawn with
probability one half, although the prior may say that one of them never occurs. -/
theorem C75_refuted_categorical_normalize :
    ∃ c : CatDim ℝ, c.cats = [.str "a", .str "b"] ∧ c.prior = some [1, 0] ∧ c.transform = .normalize ∧
      chance (.cat c) {.str "b"} = ENNReal.ofReal (1 / 2) := by
  have hv : ValidDim exact (.cat ⟨[Val.str "a", Val.str "b"], some [1, 0], .normalize, none, fun _ => "", fun _ =>
      .error .valueError⟩) := by
    refine ⟨by simp, by simp, ?_⟩
    simp [Homogeneous, Val.isStr, Val.isSeq, Val.isNum]
  refine ⟨⟨[.str "a", .str "b"], some [1, 0], .normalize, none, fun _ => "", fun _ => .error .valueError⟩, rfl, rfl,
    rfl, ?_⟩
  have hb : Val.str "b" ∈ labelKeys [(Val.str "a" : Val ℝ), Val.str "b"] := by rw [mem_labelKeys]; simp
  obtain ⟨k, hk, hkb⟩ := List.getElem_of_mem hb
  have hk2 : k < 2 := by
    have := labelKeys_length hv.2.1
    simp only at this
    rw [this] at hk
    exact hk
  have := categorical_normalize_chance _ rfl hv le_rfl k hk2
  simp only at this
  rw [getD_lt hk, hkb] at this
  rw [this]
  congr 1
  have : k = 0 ∨ k = 1 := by omega
  rcases this with rfl | rfl <;> norm_num

instance uniformOn_finite (a b : ℝ) : IsFiniteMeasure (uniformOn a b) := by
  unfold uniformOn
  infer_instance

instance randintLaw_finite (l h : ℤ) : IsFiniteMeasure (randintLaw l h) := by
  refine ⟨?_⟩
  unfold randintLaw
  rw [Measure.finsetSum_apply]
  refine ENNReal.sum_lt_top.2 fun k _ => ?_
  rw [Measure.smul_apply, smul_eq_mul]
  exact ENNReal.mul_lt_top ENNReal.ofReal_lt_top (measure_lt_top _ _)

instance discreteLaw_finite (ws : List ℝ) : IsFiniteMeasure (discreteLaw ws) := by
  refine ⟨?_⟩
  unfold discreteLaw
  rw [Measure.finsetSum_apply]
  refine ENNReal.sum_lt_top.2 fun k _ => ?_
  rw [Measure.smul_apply, smul_eq_mul]
  exact ENNReal.mul_lt_top ENNReal.ofReal_lt_top (measure_lt_top _ _)

instance rawLaw_finite (d : Dim ℝ) : IsFiniteMeasure d.rawLaw := by
  cases d with
  | real r => cases h1 : r.transform <;> cases h2 : r.prior <;> simp only [Dim.rawLaw, h1, h2] <;> infer_instance
  | int r => cases h1 : r.transform <;> cases h2 : r.prior <;> simp only [Dim.rawLaw, h1, h2] <;> infer_instance
  | cat c => cases h1 : c.transform <;> simp only [Dim.rawLaw, h1] <;> infer_instance

theorem transpose_singletons {α : Type} {p : List α} (hp : p ≠ []) :
    transposeListArray (p.map fun v => [v]) = .ok [p] := by
  obtain ⟨v, q, rfl⟩ := List.exists_cons_of_ne_nil hp
  simp only [transposeListArray, List.map_cons, List.length_singleton, List.range_one]
  rw [mapE_eq_ok]
  refine .cons ?_ .nil
  have : mapE (fun col : List α => pyGet col 0) ([v] :: q.map fun v => [v]) = .ok (v :: q) := by
    rw [mapE_eq_ok]
    refine .cons rfl ?_
    rw [List.forall₂_map_left_iff]
    exact List.forall₂_same.2 fun _ _ => rfl
  exact this

/-- One sample of a space is made of one sample of each dimension. -/
theorem space_rvs_single {dims : List (Dim ℝ)} {raws : List (RawDraw ℝ)} (hne : dims.zip raws ≠ [])
    (hv : ∀ d ∈ dims, ValidDim exact d) (h1 : ∀ r ∈ raws, r.nums.length = 1 ∧ r.idxs.length = 1) (p : Point ℝ) :
    Space.rvs exact dims raws = .ok [p] ↔
      List.Forall₂ (fun (q : Dim ℝ × RawDraw ℝ) v => Dim.rvs exact q.1 q.2 = .ok [v]) (dims.zip raws) p := by
  unfold Space.rvs
  constructor
  · intro h
    obtain ⟨cols, hc, ht⟩ := bind_eq_ok.1 h
    rw [mapE_eq_ok] at hc
    obtain ⟨q, rfl, hq⟩ : ∃ q : Point ℝ, cols = q.map (fun v => [v]) ∧
        List.Forall₂ (fun (q : Dim ℝ × RawDraw ℝ) v => Dim.rvs exact q.1 q.2 = .ok [v]) (dims.zip raws) q := by
      have hz : ∀ z ∈ dims.zip raws, ValidDim exact z.1 ∧ z.2.nums.length = 1 ∧ z.2.idxs.length = 1 := fun z hz =>
        ⟨hv _ (List.of_mem_zip (b := z.2) hz).1, h1 _ (List.of_mem_zip (a := z.1) hz).2⟩
      clear h ht hne
      generalize dims.zip raws = zs at hc hz
      induction hc with
      | nil => exact ⟨[], rfl, .nil⟩
      | @cons z col zs cols h _ ih =>
        obtain ⟨q, rfl, hq⟩ := ih fun z hz' => hz z (List.mem_cons_of_mem _ hz')
        obtain ⟨g1, g2⟩ := hz z List.mem_cons_self
        have hl := Dim.rvs_length g1 g2 h
        obtain ⟨v, rfl⟩ := List.length_eq_one_iff.1 hl
        exact ⟨v :: q, rfl, .cons h hq⟩
    have hqne : q ≠ [] := by
      rintro rfl
      exact hne (List.forall₂_nil_right_iff.1 hq)
    rw [transpose_singletons hqne] at ht
    simp only [Except.ok.injEq, List.cons.injEq, and_true] at ht
    exact ht ▸ hq
  · intro hq
    have hqne : p ≠ [] := by
      rintro rfl
      exact hne (List.forall₂_nil_right_iff.1 hq)
    have : mapE (fun p => Dim.rvs exact p.1 p.2) (dims.zip raws) = .ok (p.map fun v => [v]) := by
      rw [mapE_eq_ok, List.forall₂_map_right_iff]
      exact hq
    rw [this, ok_bind, transpose_singletons hqne]

/-- The probability that one sample of the space has every coordinate among the given values of its dimension, when the
numbers behind the coordinates are drawn independently. -/
noncomputable def spaceChance (dims : List (Dim ℝ)) (S : Fin dims.length → Set (Val ℝ)) : ENNReal :=
  Measure.pi (fun i : Fin dims.length => (dims[i]).rawLaw)
    {u | ∃ p, Space.rvs exact dims (List.ofFn fun i => rawOf (u i)) = .ok [p] ∧
      ∀ (i : Fin dims.length) v, p[i.val]? = some v → v ∈ S i}

/-- **C75 (spaces).** The coordinates of a sample of the space are independent, each with the distribution of a sample
of its dimension. -/
theorem C75_coordinates_independent (dims : List (Dim ℝ)) (hne : dims ≠ []) (hv : ∀ d ∈ dims, ValidDim exact d)
    (S : Fin dims.length → Set (Val ℝ)) :
    spaceChance dims S = ∏ i, chance dims[i] (S i) := by
  unfold spaceChance chance
  rw [← Measure.pi_pi]
  congr 1
  ext u
  rw [Set.mem_univ_pi]
  simp only [Set.mem_ofPred_eq]
  have hz : dims.zip (List.ofFn fun i => rawOf (u i)) ≠ [] := by
    intro h
    have := congrArg List.length h
    simp at this
    exact hne this
  have hraw : ∀ r ∈ List.ofFn (fun i => rawOf (u i)), r.nums.length = 1 ∧ r.idxs.length = 1 := by
    intro r hr
    obtain ⟨i, rfl⟩ := (List.mem_ofFn' _ _).1 hr
    exact ⟨rfl, rfl⟩
  have hiff : ∀ p : Point ℝ, Space.rvs exact dims (List.ofFn fun i => rawOf (u i)) = .ok [p] ↔
      ∃ hl : p.length = dims.length, ∀ i : Fin dims.length,
        Dim.rvs exact dims[i] (rawOf (u i)) = .ok [p[i.val]] := by
    intro p
    rw [space_rvs_single hz hv hraw, List.forall₂_iff_get]
    simp only [List.length_zip, List.length_ofFn, min_self, List.get_eq_getElem, List.getElem_zip, List.getElem_ofFn]
    constructor
    · rintro ⟨hl, h⟩
      exact ⟨hl.symm, fun i => h i.val i.isLt (by omega)⟩
    · rintro ⟨hl, h⟩
      exact ⟨hl.symm, fun i h1 _ => h ⟨i, h1⟩⟩
  constructor
  · rintro ⟨p, hp, hS⟩ i
    obtain ⟨hl, h⟩ := (hiff p).1 hp
    exact ⟨_, h i, hS i _ (List.getElem?_eq_getElem _)⟩
  · intro h
    choose v hv1 hv2 using h
    refine ⟨List.ofFn v, (hiff _).2 ⟨by simp, fun i => ?_⟩, fun i w hw => ?_⟩
    · rw [hv1 i]
      simp
    · simp only [List.getElem?_ofFn, Fin.is_lt, dif_pos, Option.some.injEq] at hw
      exact hw ▸ hv2 i

/-! ### Examples -/

/-- `Real(0, 10)`: one sample in five falls between 2 and 4. -/
example : chance (.real ⟨0, 10, .uniform, 10, .normalize, none, id⟩) (interval 2 4) = ENNReal.ofReal (1 / 5) := by
  rw [C75_real_uniform 0 10 10 (by norm_num) none id (fun _ => rfl) .normalize (.inl rfl) 2 4 (by norm_num)
    (by norm_num)]
  norm_num

/-- `Real(1, 100, prior="log-uniform")`: every other sample is at most 10. -/
example : chance (.real ⟨1, 100, .logUniform, 10, .identity, none, id⟩) (interval 1 10) = ENNReal.ofReal (1 / 2) := by
  rw [C75_real_log_uniform 1 100 10 (by norm_num) (by norm_num) (by norm_num) none id (fun _ => rfl) .identity
    (.inr rfl) 1 10 le_rfl (by norm_num) (by norm_num)]
  congr 1
  rw [show (100 : ℝ) = 10 ^ 2 by norm_num, Real.log_pow, Real.log_one]
  have : Real.log 10 ≠ 0 := (Real.log_pos (by norm_num)).ne'
  field_simp
  norm_num

/-- `Integer(1, 4)`: every fourth sample is a 3. -/
example : chance (.int ⟨(1 : ℤ), (4 : ℤ), .uniform, 10, .identity, none, id⟩) (single 3) = ENNReal.ofReal (1 / 4) := by
  rw [C75_integer_uniform_partial 1 4 10 none 3 (by norm_num) (by norm_num)]
  norm_num

/-- `Integer(1, 4, prior="log-uniform")`: the chance of a 1 is that of a number below 3/2. -/
example : chance (.int ⟨(1 : ℤ), (4 : ℤ), .logUniform, 10, .normalize, none, id⟩) (single 1) =
    ENNReal.ofReal (Real.log (3 / 2) / Real.log 4) := by
  rw [C75_integer_log_uniform 1 4 (by norm_num) (by norm_num) 10 (by norm_num) none .normalize (.inl rfl) 1 (by norm_num)
    (by norm_num)]
  congr 1
  norm_num

/-- A `Categorical` with the prior 3/4, 1/4. -/
noncomputable def coin : CatDim ℝ :=
  ⟨[.str "a", .str "b"], some [3 / 4, 1 / 4], .onehot, none, fun _ => "", fun _ => .error .valueError⟩

example : chance (.cat coin) {.str "b"} = ENNReal.ofReal (1 / 4) :=
  C75_categorical_partial coin (by simp [coin]) (by simp [coin]) (by simp [coin]) 1 _ _ rfl rfl

/-- A space of a `Real` and a `Categorical`. -/
noncomputable def coinDims : List (Dim ℝ) := [.real ⟨0, 10, .uniform, 10, .normalize, none, id⟩, .cat coin]

theorem coinDims_valid : ∀ d ∈ coinDims, ValidDim exact d := by
  intro d hd
  simp only [coinDims, List.mem_cons, List.not_mem_nil, or_false] at hd
  rcases hd with rfl | rfl
  · exact ⟨by norm_num, .inr rfl, fun x h1 h2 => ⟨h1, h2⟩⟩
  · exact ⟨by simp [coin], by simp [coin], by simp [coin, Homogeneous, Val.isStr, Val.isSeq, Val.isNum]⟩

/-- A number between 2 and 4 together with the second category: one sample in twenty. -/
example : spaceChance coinDims (fun i => if i.val = 0 then interval 2 4 else {.str "b"}) =
    ENNReal.ofReal (1 / 5) * ENNReal.ofReal (1 / 4) := by
  rw [C75_coordinates_independent coinDims (by simp [coinDims]) coinDims_valid]
  rw [show (∏ i : Fin coinDims.length, chance coinDims[i] (if i.val = 0 then interval 2 4 else {.str "b"})) =
    ∏ i : Fin 2, chance coinDims[i] (if i.val = 0 then interval 2 4 else {.str "b"}) from rfl, Fin.prod_univ_two]
  congr 1
  · show chance (.real ⟨0, 10, .uniform, 10, .normalize, none, id⟩) (interval 2 4) = _
    rw [C75_real_uniform 0 10 10 (by norm_num) none id (fun _ => rfl) .normalize (.inl rfl) 2 4 (by norm_num)
      (by norm_num)]
    norm_num
  · show chance (.cat coin) {.str "b"} = _
    exact C75_categorical_partial coin (by simp [coin]) (by simp [coin]) (by simp [coin]) 1 _ _ rfl rfl

end Skopt

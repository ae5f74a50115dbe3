import Verif.Props.ObjectiveUnitsEi
import Verif.Props.BestCandidate

/-!
# C127: `kappa` and `xi` trade exploitation for exploration
-/

namespace Skopt

open Set Filter Topology

/-! ## Specification -/

/-- Of the candidates at which the surrogate has predicted `p`, the one at position `i` is suggested: it has predicted
mean `m` and predicted standard deviation `s`, the acquisition function gives values for all of them, and position `i`
holds the first smallest of these values. -/
def Suggests (p : Pred) (yOpt : ℝ) (acq : AcqFunc) (xi : ℝ) (kappa : Kappa) (i : Nat) (m s : ℝ) : Prop :=
  p.mu[i]? = some m ∧ p.std[i]? = some s ∧ ∃ vals, gaussianAcquisition (.one p) yOpt acq xi kappa = .ok vals ∧
    npArgmin (vals.map Flt.fin) = .ok i

/-- One mean and one non-negative standard deviation for every candidate, as one-dimensional arrays. -/
structure WellFormed (p : Pred) : Prop where
  muDim : p.muDim = 1
  stdDim : p.stdDim = 1
  length : p.mu.length = p.std.length
  nonneg : ∀ s ∈ p.std, 0 ≤ s

/-! ## Helpers -/

theorem unitEi_strictMono : StrictMono unitEi :=
  strictMono_of_deriv_pos fun z => by rw [(unitEi_hasDerivAt z).deriv]; exact normCdf_pos z

theorem scaled_unitEi (c m : ℝ) {s : ℝ} (hs : 0 < s) : expectedImprovement c m s = s * unitEi ((c - m) / s) := by
  rw [expectedImprovement_eq _ _ hs, unitEi]
  field_simp

theorem unitEi_pos (z : ℝ) : 0 < unitEi z := by
  have h := expectedImprovement_pos z 0 one_pos
  rw [scaled_unitEi _ _ one_pos] at h
  simpa using h

/-- The derivative of the expected improvement by the margin. -/
theorem ei_margin_deriv (y m : ℝ) {s : ℝ} (hs : 0 < s) (x : ℝ) :
    HasDerivAt (fun x => expectedImprovement (y - x) m s) (-normCdf ((y - x - m) / s)) x := by
  have e : (fun x => expectedImprovement (y - x) m s) = fun x => s * unitEi ((y - x - m) / s) := by
    funext x
    rw [scaled_unitEi _ _ hs]
  rw [e]
  have h1 : HasDerivAt (fun x : ℝ => (y - x - m) / s) (-1 / s) x :=
    (((hasDerivAt_id x).const_sub y).sub_const m).div_const s
  have h2 := ((unitEi_hasDerivAt ((y - x - m) / s)).comp x h1).const_mul s
  refine h2.congr_deriv ?_
  field_simp

/-- The more uncertain of two candidates overtakes the other one as the margin grows, and never falls behind again. -/
theorem ei_crossing (y m m' : ℝ) {s s' : ℝ} (hs : 0 < s) (hss : s < s') {x x' : ℝ} (hx : x < x')
    (h : expectedImprovement (y - x) m s ≤ expectedImprovement (y - x) m' s') :
    expectedImprovement (y - x') m s < expectedImprovement (y - x') m' s' := by
  have hs' := hs.trans hss
  have steep : ∀ t, expectedImprovement (y - t) m s = expectedImprovement (y - t) m' s' →
      -normCdf ((y - t - m) / s) < -normCdf ((y - t - m') / s') := by
    intro t ht
    rw [scaled_unitEi _ _ hs, scaled_unitEi _ _ hs'] at ht
    have h1 : unitEi ((y - t - m') / s') < unitEi ((y - t - m) / s) := by
      by_contra hc
      push Not at hc
      have h2 : s * unitEi ((y - t - m) / s) < s' * unitEi ((y - t - m) / s) :=
        mul_lt_mul_of_pos_right hss (unitEi_pos _)
      have h3 := mul_le_mul_of_nonneg_left hc hs'.le
      linarith
    have := normCdf_strictMono (unitEi_strictMono.lt_iff_lt.1 h1)
    linarith
  have le := image_le_of_deriv_right_lt_deriv_boundary (a := x) (b := x')
    (fun t _ => (ei_margin_deriv y m hs t).continuousAt.continuousWithinAt)
    (fun t _ => (ei_margin_deriv y m hs t).hasDerivWithinAt) h (ei_margin_deriv y m' hs')
    fun t _ ht => steep t ht
  refine lt_of_le_of_ne (le ⟨hx.le, le_rfl⟩) fun he => ?_
  have hd := (ei_margin_deriv y m' hs' x').sub (ei_margin_deriv y m hs x')
  have hpos : 0 < -normCdf ((y - x' - m') / s') - -normCdf ((y - x' - m) / s) := by
    have := steep x' he
    linarith
  have h1 := (hasDerivAt_iff_tendsto_slope.1 hd).eventually (lt_mem_nhds hpos)
  have h2 : ∀ᶠ t in 𝓝[<] x', t ∈ Ioo x x' := Ioo_mem_nhdsLT hx
  have h3 := h1.filter_mono (nhdsWithin_mono x' (fun t (ht : t < x') => ht.ne) : 𝓝[<] x' ≤ 𝓝[≠] x')
  obtain ⟨t, ht1, ht2, ht3⟩ := (h3.and h2).exists
  rw [slope_def_field] at ht1
  simp only [Pi.sub_apply] at ht1
  rw [he, sub_self, sub_zero] at ht1
  have h4 := le ⟨ht2.le, ht3.le⟩
  have h5 := div_nonpos_of_nonneg_of_nonpos (sub_nonneg.2 h4) (sub_nonpos.2 ht3.le)
  linarith

/-- A smaller mean and no smaller uncertainty give a larger expected improvement. -/
theorem ei_dominates (c : ℝ) {m m' s s' : ℝ} (hs : 0 < s) (hss : s ≤ s') (hm : m' < m) :
    expectedImprovement c m s < expectedImprovement c m' s' := by
  have hs' := hs.trans_le hss
  have h1 : expectedImprovement c m s' < expectedImprovement c m' s' := by
    rw [scaled_unitEi _ _ hs', scaled_unitEi _ _ hs']
    exact mul_lt_mul_of_pos_left (unitEi_strictMono (by gcongr)) hs'
  rcases hss.eq_or_lt with rfl | hlt
  · exact h1
  refine lt_of_le_of_lt ?_ h1
  have hv := gaussianEi_eq ⟨[m, m], [s', s], 1, 1⟩ rfl rfl rfl c 0
  have := (C53_ei_monotone ⟨[m, m], [s', s], 1, 1⟩ rfl rfl rfl c 0 _ hv).2 0 1 m m s' s _ _ rfl rfl rfl rfl rfl rfl
    le_rfl hss
  simp only [if_pos hs, if_pos hs'] at this
  rw [expectedImprovement_eq _ _ hs, expectedImprovement_eq _ _ hs']
  simpa using this

theorem suggests_zipWith {p : Pred} {yOpt xi : ℝ} {acq : AcqFunc} {kappa : Kappa} {i : Nat} {m s : ℝ}
    (h : Suggests p yOpt acq xi kappa i m s) {f : ℝ → ℝ → ℝ}
    (hv : gaussianAcquisition (.one p) yOpt acq xi kappa = .ok (List.zipWith f p.mu p.std)) :
    (∀ (j : Nat) (m' s' : ℝ), p.mu[j]? = some m' → p.std[j]? = some s' → f m s ≤ f m' s') ∧
    ∀ (j : Nat) (m' s' : ℝ), j < i → p.mu[j]? = some m' → p.std[j]? = some s' → f m s < f m' s' := by
  obtain ⟨h1, h2, vals, h3, h4⟩ := h
  rw [hv] at h3
  injection h3 with h3
  subst h3
  rw [npArgmin_fin] at h4
  obtain ⟨hi, h5, h6⟩ := npArgmin_spec h4
  have hat : ∀ (j : Nat) (m' s' : ℝ), p.mu[j]? = some m' → p.std[j]? = some s' →
      (List.zipWith f p.mu p.std)[j]? = some (f m' s') := by
    intro j m' s' h7 h8
    rw [List.getElem?_zipWith, h7, h8]
  have e := hat i m s h1 h2
  rw [List.getElem?_eq_getElem hi, Option.some.injEq] at e
  rw [e] at h5 h6
  refine ⟨fun j m' s' h7 h8 => h5 _ (List.mem_of_getElem? (hat j m' s' h7 h8)), fun j m' s' hj h7 h8 => ?_⟩
  have e' := hat j m' s' h7 h8
  rw [List.getElem?_eq_getElem (hj.trans hi), Option.some.injEq] at e'
  have := h6 j hj
  rwa [e'] at this

theorem ei_rows {p : Pred} (hp : WellFormed p) (yOpt xi : ℝ) (kappa : Kappa) :
    gaussianAcquisition (.one p) yOpt .EI xi kappa = .ok (List.zipWith (fun m s =>
      -(if 0 < s then expectedImprovement (yOpt - xi) m s else 0)) p.mu p.std) := by
  simp only [gaussianAcquisition, Surrogate.single, ok_bind]
  rw [gaussianEi_eq _ hp.muDim hp.stdDim hp.length, ok_bind, List.map_zipWith]
  congr 3
  funext m s
  split
  · next h => rw [expectedImprovement_eq _ _ h]
  · rfl

theorem pi_rows {p : Pred} (hp : WellFormed p) (yOpt xi : ℝ) (kappa : Kappa) :
    gaussianAcquisition (.one p) yOpt .PI xi kappa = .ok (List.zipWith (fun m s =>
      -(if 0 < s then normCdf ((yOpt - xi - m) / s) else 0)) p.mu p.std) := by
  simp only [gaussianAcquisition, Surrogate.single, ok_bind]
  rw [gaussianPi_eq _ hp.muDim hp.stdDim hp.length, ok_bind, List.map_zipWith]

theorem lcb_rows (p : Pred) (yOpt xi k : ℝ) :
    gaussianAcquisition (.one p) yOpt .LCB xi (.num k) = .ok (List.zipWith (fun m s => m - k * s) p.mu p.std) := by
  simp only [gaussianAcquisition, Surrogate.single, ok_bind, gaussianLcb]

theorem lcb_inf_rows {p : Pred} (hp : WellFormed p) (yOpt xi : ℝ) :
    gaussianAcquisition (.one p) yOpt .LCB xi .inf = .ok (List.zipWith (fun _ s => -s) p.mu p.std) := by
  simp only [gaussianAcquisition, Surrogate.single, ok_bind, gaussianLcb]
  congr 1
  apply List.ext_getElem?
  intro i
  rw [List.getElem?_map, List.getElem?_zipWith]
  rcases lt_or_ge i p.std.length with h | h
  · rw [List.getElem?_eq_getElem h, List.getElem?_eq_getElem (hp.length ▸ h)]
    rfl
  · rw [List.getElem?_eq_none h, List.getElem?_eq_none (hp.length ▸ h)]
    rfl

theorem suggests_same {p : Pred} {yOpt yOpt' xi xi' : ℝ} {acq acq' : AcqFunc} {kappa kappa' : Kappa} {i j : Nat}
    {m s m' s' : ℝ} (h : Suggests p yOpt acq xi kappa i m s) (h' : Suggests p yOpt' acq' xi' kappa' j m' s')
    (e : i = j) : m = m' ∧ s = s' := by
  obtain ⟨h1, h2, -⟩ := h
  obtain ⟨h3, h4, -⟩ := h'
  subst e
  rw [h1, Option.some.injEq] at h3
  rw [h2, Option.some.injEq] at h4
  exact ⟨h3, h4⟩

/-- A candidate with small mean and small uncertainty, one with larger mean and larger uncertainty. -/
def twoRows : Pred := ⟨[0, 1], [1, 2], 1, 1⟩

theorem twoRows_wf : WellFormed twoRows :=
  ⟨rfl, rfl, rfl, by intro s hs; simp [twoRows] at hs; rcases hs with rfl | rfl <;> norm_num⟩

theorem suggests_first {p : Pred} {a b s t : ℝ} (e : p = ⟨[a, b], [s, t], 1, 1⟩) {yOpt xi : ℝ} {acq : AcqFunc}
    {kappa : Kappa} {f : ℝ → ℝ → ℝ}
    (hv : gaussianAcquisition (.one p) yOpt acq xi kappa = .ok (List.zipWith f p.mu p.std)) (h : f a s ≤ f b t) :
    Suggests p yOpt acq xi kappa 0 a s := by
  subst e
  refine ⟨rfl, rfl, _, hv, ?_⟩
  rw [npArgmin_fin]
  simp [npArgmin, argBest, argBest.go, h]

theorem suggests_second {p : Pred} {a b s t : ℝ} (e : p = ⟨[a, b], [s, t], 1, 1⟩) {yOpt xi : ℝ} {acq : AcqFunc}
    {kappa : Kappa} {f : ℝ → ℝ → ℝ}
    (hv : gaussianAcquisition (.one p) yOpt acq xi kappa = .ok (List.zipWith f p.mu p.std)) (h : f b t < f a s) :
    Suggests p yOpt acq xi kappa 1 b t := by
  subst e
  refine ⟨rfl, rfl, _, hv, ?_⟩
  rw [npArgmin_fin]
  simp [npArgmin, argBest, argBest.go, h]

/-! ## The theorems -/

/-- **C127 (`kappa` of LCB).** With a larger `kappa` the suggested candidate is at least as uncertain, and, if `kappa`
is not negative, its predicted mean is at least as large. -/
theorem C127_kappa (p : Pred) (y y' xi xi' k k' : ℝ) (hk : k < k') (i j : Nat) (m s m' s' : ℝ)
    (h : Suggests p y .LCB xi (.num k) i m s) (h' : Suggests p y' .LCB xi' (.num k') j m' s') :
    s ≤ s' ∧ (0 ≤ k → m ≤ m') := by
  have h1 := (suggests_zipWith h (lcb_rows p y xi k)).1 j m' s' h'.1 h'.2.1
  have h2 := (suggests_zipWith h' (lcb_rows p y' xi' k')).1 i m s h.1 h.2.1
  have h3 : s ≤ s' := by
    by_contra hc
    push Not at hc
    nlinarith [mul_pos (sub_pos.2 hk) (sub_pos.2 hc)]
  exact ⟨h3, fun h0 => by nlinarith [mul_nonneg h0 (sub_nonneg.2 h3)]⟩

/-- With `kappa = 1/2` the first of the two candidates is suggested, with `kappa = 3` the second one. -/
example : Suggests twoRows 0 .LCB 0 (.num (1 / 2)) 0 0 1 ∧ Suggests twoRows 0 .LCB 0 (.num 3) 1 1 2 :=
  ⟨suggests_first rfl (lcb_rows _ _ _ _) (by norm_num), suggests_second rfl (lcb_rows _ _ _ _) (by norm_num)⟩

/-- **C127 (`kappa="inf"`).** The suggested candidate is one of the most uncertain ones. -/
theorem C127_kappa_inf (p : Pred) (hp : WellFormed p) (y xi : ℝ) (i : Nat) (m s : ℝ)
    (h : Suggests p y .LCB xi .inf i m s) : ∀ s' ∈ p.std, s' ≤ s := by
  intro s' hs'
  obtain ⟨j, hj⟩ := List.getElem?_of_mem hs'
  have hl : j < p.mu.length := by
    rw [hp.length]
    exact (List.getElem?_eq_some_iff.1 hj).1
  have := (suggests_zipWith h (lcb_inf_rows hp y xi)).1 j _ s' (List.getElem?_eq_getElem hl) hj
  linarith

/-- The second of the two candidates is suggested. -/
example : WellFormed twoRows ∧ Suggests twoRows 0 .LCB 0 .inf 1 1 2 :=
  ⟨twoRows_wf, suggests_second rfl (lcb_inf_rows twoRows_wf _ _) (by norm_num)⟩

/-- **C127 (`xi` of EI).** With a larger `xi`, or with a smaller incumbent, the suggested candidate is at least as
uncertain and its predicted mean is at least as large. -/
theorem C127_xi_ei (p : Pred) (hp : WellFormed p) (y y' xi xi' : ℝ) (hx : y' - xi' < y - xi) (kappa kappa' : Kappa) (i j : Nat)
    (m s m' s' : ℝ) (h : Suggests p y .EI xi kappa i m s) (h' : Suggests p y' .EI xi' kappa' j m' s') :
    s ≤ s' ∧ m ≤ m' := by
  obtain ⟨o1, f1⟩ := suggests_zipWith h (ei_rows hp y xi kappa)
  obtain ⟨o2, f2⟩ := suggests_zipWith h' (ei_rows hp y' xi' kappa')
  have hs0 := hp.nonneg s (List.mem_of_getElem? h.2.1)
  have hs0' := hp.nonneg s' (List.mem_of_getElem? h'.2.1)
  rcases hs0.eq_or_lt with e | hs
  · -- every candidate is certain
    have zero : ∀ (k : Nat) (a b : ℝ), p.mu[k]? = some a → p.std[k]? = some b → b = 0 := by
      intro k a b ha hb
      refine le_antisymm ?_ (hp.nonneg b (List.mem_of_getElem? hb))
      by_contra hc
      push Not at hc
      have := o1 k a b ha hb
      rw [if_pos hc, if_neg (by rw [← e]; exact lt_irrefl _)] at this
      linarith [expectedImprovement_pos (y - xi) a hc]
    have hij : i = j := by
      rcases lt_trichotomy i j with hlt | he | hgt
      · have := f2 i m s hlt h.1 h.2.1
        rw [zero i m s h.1 h.2.1, zero j m' s' h'.1 h'.2.1] at this
        simp at this
      · exact he
      · have := f1 j m' s' hgt h'.1 h'.2.1
        rw [zero i m s h.1 h.2.1, zero j m' s' h'.1 h'.2.1] at this
        simp at this
    obtain ⟨e1, e2⟩ := suggests_same h h' hij
    exact ⟨e2.le, e1.le⟩
  · have hs' : 0 < s' := by
      rcases hs0'.eq_or_lt with e | hs'
      · have := o2 i m s h.1 h.2.1
        rw [if_pos hs, if_neg (by rw [← e]; exact lt_irrefl _)] at this
        linarith [expectedImprovement_pos (y' - xi') m hs]
      · exact hs'
    have h1 := o1 j m' s' h'.1 h'.2.1
    have h2 := o2 i m s h.1 h.2.1
    rw [if_pos hs, if_pos hs', neg_le_neg_iff] at h1
    rw [if_pos hs, if_pos hs', neg_le_neg_iff] at h2
    have h3 : s ≤ s' := by
      by_contra hc
      push Not at hc
      have := ei_crossing y m' m hs' hc (x := xi) (x' := y - (y' - xi')) (by linarith) h1
      rw [sub_sub_cancel] at this
      exact absurd this (not_lt.2 h2)
    refine ⟨h3, ?_⟩
    by_contra hc
    push Not at hc
    exact absurd (ei_dominates (y - xi) hs h3 hc) (not_lt.2 h1)

/-- With incumbent 1 and `xi = 0` the first of the two candidates is suggested, with `xi = 2` the second one. -/
example : Suggests twoRows 1 .EI 0 (.num 1.96) 0 0 1 ∧ Suggests twoRows 1 .EI 2 (.num 1.96) 1 1 2 := by
  constructor
  · refine suggests_first rfl (ei_rows twoRows_wf _ _ _) ?_
    rw [if_pos one_pos, if_pos two_pos, scaled_unitEi _ _ one_pos, scaled_unitEi _ _ two_pos]
    have h1 := le_unitEi 1
    have h2 := normPdf_zero_bounds.2
    norm_num [unitEi] at h1 h2 ⊢
    linarith
  · refine suggests_second rfl (ei_rows twoRows_wf _ _ _) ?_
    rw [if_pos one_pos, if_pos two_pos, scaled_unitEi _ _ one_pos, scaled_unitEi _ _ two_pos]
    have h1 := unitEi_pos (-1)
    norm_num at h1 ⊢
    linarith

/-- **C127 (`xi` of PI).** With a larger `xi`, or with a smaller incumbent, the suggested candidate is at least as
uncertain. -/
theorem C127_xi_pi (p : Pred) (hp : WellFormed p) (y y' xi xi' : ℝ) (hx : y' - xi' < y - xi) (kappa kappa' : Kappa) (i j : Nat)
    (m s m' s' : ℝ) (h : Suggests p y .PI xi kappa i m s) (h' : Suggests p y' .PI xi' kappa' j m' s') : s ≤ s' := by
  obtain ⟨o1, -⟩ := suggests_zipWith h (pi_rows hp y xi kappa)
  obtain ⟨o2, -⟩ := suggests_zipWith h' (pi_rows hp y' xi' kappa')
  have hs0 := hp.nonneg s (List.mem_of_getElem? h.2.1)
  have hs0' := hp.nonneg s' (List.mem_of_getElem? h'.2.1)
  rcases hs0.eq_or_lt with e | hs
  · rwa [← e]
  have h2 := o2 i m s h.1 h.2.1
  have hs' : 0 < s' := by
    rcases hs0'.eq_or_lt with e | hs'
    · rw [if_pos hs, if_neg (by rw [← e]; exact lt_irrefl _)] at h2
      linarith [normCdf_pos ((y' - xi' - m) / s)]
    · exact hs'
  have h1 := o1 j m' s' h'.1 h'.2.1
  rw [if_pos hs, if_pos hs', neg_le_neg_iff, normCdf_strictMono.le_iff_le, div_le_div_iff₀ hs' hs] at h1
  rw [if_pos hs, if_pos hs', neg_le_neg_iff, normCdf_strictMono.le_iff_le, div_le_div_iff₀ hs hs'] at h2
  by_contra hc
  push Not at hc
  nlinarith [mul_pos (sub_pos.2 hx) (sub_pos.2 hc)]

/-- With incumbent 1 and `xi = 0` the first of the two candidates is suggested, with `xi = 3` the second one. -/
example : Suggests twoRows 1 .PI 0 (.num 1.96) 0 0 1 ∧ Suggests twoRows 1 .PI 3 (.num 1.96) 1 1 2 := by
  constructor
  · refine suggests_first rfl (pi_rows twoRows_wf _ _ _) ?_
    rw [if_pos one_pos, if_pos two_pos, neg_le_neg_iff, normCdf_strictMono.le_iff_le]
    norm_num
  · refine suggests_second rfl (pi_rows twoRows_wf _ _ _) ?_
    rw [if_pos one_pos, if_pos two_pos, neg_lt_neg_iff, normCdf_strictMono.lt_iff_lt]
    norm_num

/-- **C127 (limit).** For PI the predicted mean of the suggestion need not grow with `xi`: with `xi = 0` a candidate
with mean -1 is suggested because an improvement there is nearly certain, with `xi = 1` one with mean -2. -/
theorem C127_pi_mean : ∃ p, WellFormed p ∧ ∃ m s m' s', Suggests p 0 .PI 0 (.num 1.96) 0 m s ∧
    Suggests p 0 .PI 1 (.num 1.96) 1 m' s' ∧ m' < m := by
  have wf : WellFormed ⟨[-1, -2], [1 / 10, 1], 1, 1⟩ :=
    ⟨rfl, rfl, rfl, by intro s hs; simp at hs; rcases hs with rfl | rfl <;> norm_num⟩
  refine ⟨_, wf, _, _, _, _, suggests_first rfl (pi_rows wf _ _ _) ?_, suggests_second rfl (pi_rows wf _ _ _) ?_,
    by norm_num⟩
  · rw [if_pos (by norm_num), if_pos one_pos, neg_le_neg_iff, normCdf_strictMono.le_iff_le]
    norm_num
  · rw [if_pos one_pos, if_pos (by norm_num), neg_lt_neg_iff, normCdf_strictMono.lt_iff_lt]
    norm_num

end Skopt

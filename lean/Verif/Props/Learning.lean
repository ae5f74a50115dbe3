import Verif.Lemmas.Learning
import Mathlib.Probability.Distributions.Gaussian.Real

/-!
# C58, C70: standard deviations predicted by forests and by quantile regression
-/

namespace Skopt

open MeasureTheory ProbabilityTheory

/-- Every tree is asked only for leaves it has. -/
def LeavesExist (f : Forest) (X : List (List ℝ)) : Prop :=
  ∀ t ∈ f.trees, ∀ x ∈ X, t.apply x < t.impurity.length

/-- The leaf of the tree at `x` has variance `w`. -/
def LeafVariance (t : RegTree) (x : List ℝ) (w : ℝ) : Prop := t.impurity[t.apply x]? = some w

theorem floorVar_eq {t : RegTree} {x : List ℝ} {w mv : ℝ} (h : LeafVariance t x w) :
    floorVar mv t x = max w mv := by
  unfold LeafVariance at h
  simp [floorVar, h]

/-- Two trees with one split each. -/
noncomputable def stump (a b : ℝ) (va vb : ℝ) : RegTree where
  impurity := [1, va, vb]
  apply := fun x => match x with
    | c :: _ => if c ≤ 0 then 1 else 2
    | [] => 1
  predict := fun x => match x with
    | c :: _ => if c ≤ 0 then a else b
    | [] => a

/-- A forest of two stumps with a floor on the variance. -/
noncomputable def twoStumps : Forest where
  trees := [stump 1 5 0.25 0, stump 3 5 2 0]
  minVariance := 0.5

theorem twoStumps_leaves : LeavesExist twoStumps [[-1], [2]] := by
  intro t ht x hx
  simp only [twoStumps, List.mem_cons, List.not_mem_nil, or_false] at ht hx
  rcases ht with rfl | rfl <;> rcases hx with rfl | rfl <;> norm_num [stump]

/-- **C58.** The mean and standard deviation a forest predicts at a row are those of the law obtained by picking one
tree uniformly and drawing from any law with that tree's prediction as mean and the variance of its leaf (but at least
`min_variance`) as variance. -/
theorem C58_forest_std_is_mixture_std (f : Forest) (X : List (List ℝ)) (hc : f.criterion = "mse")
    (hne : f.trees ≠ []) (hX : LeavesExist f X) :
    ∃ mean std, f.predictStd X = .ok (mean, std) ∧ mean.length = X.length ∧ std.length = X.length ∧
      ∀ (i : Nat) (x : List ℝ), X[i]? = some x → ∀ law : RegTree → Measure ℝ,
        (∀ t ∈ f.trees, ∃ w, LeafVariance t x w ∧ HasMeanVar (law t) (t.predict x) (max w f.minVariance)) →
        mean[i]? = some (∫ y, y ∂(equalMixture (f.trees.map law))) ∧
        std[i]? = some (√(variance id (equalMixture (f.trees.map law)))) := by
  refine ⟨_, _, predictStd_ok hc hne hX, by simp, by simp, ?_⟩
  intro i x hx law hlaw
  have h := equalMixture_mean_var (ν := law) (m := fun t => t.predict x)
    (v := fun t => floorVar f.minVariance t x) hne (by
      intro t ht
      obtain ⟨w, hw, hm⟩ := hlaw t ht
      rw [floorVar_eq hw]
      exact hm)
  rw [h.1, h.2]
  have hv : 0 ≤ variance id (equalMixture (f.trees.map law)) := variance_nonneg _ _
  rw [h.2] at hv
  simp only [List.getElem?_map, hx, Option.map_some, true_and]
  congr 2
  exact max_eq_right hv

/-- The normal laws meet the hypotheses. -/
theorem hasMeanVar_gaussian (m v : ℝ) (hv : 0 ≤ v) : HasMeanVar (gaussianReal m (NNReal.mk v hv)) m v where
  prob := inferInstance
  square := memLp_id_gaussianReal 2
  mean := integral_id_gaussianReal
  var := variance_id_gaussianReal

/-- Meets the hypotheses of `C58_forest_std_is_mixture_std`. -/
example : ∃ law : RegTree → Measure ℝ, ∀ t ∈ twoStumps.trees, ∃ w, LeafVariance t [-1] w ∧
    HasMeanVar (law t) (t.predict [-1]) (max w twoStumps.minVariance) := by
  refine ⟨fun t => gaussianReal (t.predict [-1])
    (NNReal.mk (max (t.impurity[t.apply [-1]]?.getD 0) 0.5) (le_max_of_le_right (by norm_num))), ?_⟩
  intro t ht
  simp only [twoStumps, List.mem_cons, List.not_mem_nil, or_false] at ht
  rcases ht with rfl | rfl
  · refine ⟨0.25, by norm_num [LeafVariance, stump], ?_⟩
    have := hasMeanVar_gaussian ((stump 1 5 0.25 0).predict [-1])
      (max ((stump 1 5 0.25 0).impurity[(stump 1 5 0.25 0).apply [-1]]?.getD 0) 0.5)
      (le_max_of_le_right (by norm_num))
    simpa [stump, twoStumps] using this
  · refine ⟨2, by norm_num [LeafVariance, stump], ?_⟩
    have := hasMeanVar_gaussian ((stump 3 5 2 0).predict [-1])
      (max ((stump 3 5 2 0).impurity[(stump 3 5 2 0).apply [-1]]?.getD 0) 0.5)
      (le_max_of_le_right (by norm_num))
    simpa [stump, twoStumps] using this

example : twoStumps.trees ≠ [] ∧ twoStumps.criterion = "mse" := by simp [twoStumps]

/-- **C58, size.** Predicted standard deviations are never negative, and never below the square root of
`min_variance`. -/
theorem C58_forest_std_floor (f : Forest) (X : List (List ℝ)) (hc : f.criterion = "mse")
    (hne : f.trees ≠ []) (hX : LeavesExist f X) :
    ∃ mean std, f.predictStd X = .ok (mean, std) ∧ ∀ s ∈ std, 0 ≤ s ∧ f.minVariance ≤ s ^ 2 := by
  refine ⟨_, _, predictStd_ok hc hne hX, ?_⟩
  intro s hs
  obtain ⟨x, hx, rfl⟩ := List.mem_map.1 hs
  refine ⟨Real.sqrt_nonneg _, ?_⟩
  rw [Real.sq_sqrt (le_max_left _ _)]
  refine le_trans ?_ (le_max_right _ _)
  rw [forestVar_eq f x hne]
  have hpos : (0 : ℝ) < f.trees.length := by
    have := List.length_pos_iff.2 hne
    exact_mod_cast this
  have h1 : f.minVariance ≤ (f.trees.map fun t => floorVar f.minVariance t x).sum / f.trees.length := by
    rw [le_div_iff₀ hpos]
    have : ∀ l : List RegTree, f.minVariance * (l.length : ℝ) ≤ (l.map fun t => floorVar f.minVariance t x).sum := by
      intro l
      induction l with
      | nil => simp
      | cons t l ih =>
        simp only [List.length_cons, List.map_cons, List.sum_cons]
        push_cast
        have : f.minVariance ≤ floorVar f.minVariance t x := le_max_right _ _
        nlinarith
    exact this _
  have h2 : (0 : ℝ) ≤ ((f.trees.map fun t => t.predict x).map fun m =>
      (m - (f.trees.map fun t => t.predict x).sum / f.trees.length) ^ 2).sum / f.trees.length := by
    apply div_nonneg _ hpos.le
    apply List.sum_nonneg
    intro a ha
    obtain ⟨m, _, rfl⟩ := List.mem_map.1 ha
    exact sq_nonneg _
  linarith

example : LeavesExist twoStumps [[-1], [2]] := twoStumps_leaves

theorem sum_eq_zero_of_nonneg : ∀ {l : List ℝ}, (∀ a ∈ l, 0 ≤ a) → (l.sum = 0 ↔ ∀ a ∈ l, a = 0)
  | [], _ => by simp
  | a :: l, h => by
    have ha := h a List.mem_cons_self
    have hl : ∀ b ∈ l, 0 ≤ b := fun b hb => h b (List.mem_cons_of_mem _ hb)
    have hs := List.sum_nonneg hl
    rw [List.sum_cons, add_eq_zero_iff_of_nonneg ha hs, sum_eq_zero_of_nonneg hl]
    simp

/-- **C58, certainty.** When leaf variances are not negative, the forest claims to be certain at a row (predicted
standard deviation zero) exactly when all trees predict the same value there and all their leaf variances, raised to
`min_variance`, are zero. -/
theorem C58_forest_certain_iff (f : Forest) (X : List (List ℝ)) (hc : f.criterion = "mse")
    (hne : f.trees ≠ []) (hX : LeavesExist f X) (himp : ∀ t ∈ f.trees, ∀ w ∈ t.impurity, 0 ≤ w) :
    ∃ mean std, f.predictStd X = .ok (mean, std) ∧
      ∀ (i : Nat) (x : List ℝ), X[i]? = some x → (std[i]? = some 0 ↔
        (∀ t ∈ f.trees, ∀ u ∈ f.trees, t.predict x = u.predict x) ∧
        ∀ t ∈ f.trees, ∀ w, LeafVariance t x w → w = 0 ∧ f.minVariance ≤ 0) := by
  refine ⟨_, _, predictStd_ok hc hne hX, ?_⟩
  intro i x hx
  have hxm : x ∈ X := List.mem_of_getElem? hx
  have hpos : (0 : ℝ) < f.trees.length := by
    have := List.length_pos_iff.2 hne
    exact_mod_cast this
  have hleaf : ∀ t ∈ f.trees, ∃ w, LeafVariance t x w := by
    intro t ht
    exact ⟨_, List.getElem?_eq_getElem (hX t ht x hxm)⟩
  have hfl : ∀ t ∈ f.trees, 0 ≤ floorVar f.minVariance t x := by
    intro t ht
    obtain ⟨w, hw⟩ := hleaf t ht
    rw [floorVar_eq hw]
    exact le_max_of_le_left (himp t ht w (List.mem_of_getElem? hw))
  set L := f.trees.map fun t => t.predict x with hL
  have hsq : ∀ a ∈ L.map (fun m => (m - L.sum / f.trees.length) ^ 2), 0 ≤ a := by
    intro a ha
    obtain ⟨m, _, rfl⟩ := List.mem_map.1 ha
    exact sq_nonneg _
  have hvs : ∀ a ∈ f.trees.map (fun t => floorVar f.minVariance t x), 0 ≤ a := by
    intro a ha
    obtain ⟨t, ht, rfl⟩ := List.mem_map.1 ha
    exact hfl t ht
  have hv : forestVar f x = 0 ↔ (∀ t ∈ f.trees, floorVar f.minVariance t x = 0) ∧
      ∀ m ∈ L, m = L.sum / f.trees.length := by
    rw [forestVar_eq f x hne, add_eq_zero_iff_of_nonneg (div_nonneg (List.sum_nonneg hvs) hpos.le)
      (div_nonneg (List.sum_nonneg hsq) hpos.le), div_eq_zero_iff, div_eq_zero_iff, or_iff_left hpos.ne',
      or_iff_left hpos.ne', sum_eq_zero_of_nonneg hvs, sum_eq_zero_of_nonneg hsq]
    simp [sub_eq_zero, hL]
  have hnn : 0 ≤ forestVar f x := by
    rw [forestVar_eq f x hne]
    exact add_nonneg (div_nonneg (List.sum_nonneg hvs) hpos.le) (div_nonneg (List.sum_nonneg hsq) hpos.le)
  simp only [List.getElem?_map, hx, Option.map_some, Option.some.injEq, max_eq_right hnn,
    Real.sqrt_eq_zero hnn, hv]
  constructor
  · rintro ⟨h1, h2⟩
    constructor
    · intro t ht u hu
      rw [h2 _ (List.mem_map_of_mem ht), h2 _ (List.mem_map_of_mem hu)]
    · intro t ht w hw
      have := h1 t ht
      rw [floorVar_eq hw] at this
      have hw0 := himp t ht w (List.mem_of_getElem? hw)
      have a := le_max_left w f.minVariance
      have b := le_max_right w f.minVariance
      exact ⟨by linarith, by linarith⟩
  · rintro ⟨h1, h2⟩
    constructor
    · intro t ht
      obtain ⟨w, hw⟩ := hleaf t ht
      rw [floorVar_eq hw]
      obtain ⟨rfl, h⟩ := h2 t ht w hw
      exact max_eq_left h
    · obtain ⟨t0, ht0⟩ := List.exists_mem_of_ne_nil _ hne
      have hconst : L = List.replicate f.trees.length (t0.predict x) := by
        rw [List.eq_replicate_iff]
        refine ⟨by simp [hL], ?_⟩
        intro b hb
        obtain ⟨t, ht, rfl⟩ := List.mem_map.1 hb
        exact h1 t ht t0 ht0
      intro m hm
      rw [hconst] at hm ⊢
      rw [List.eq_of_mem_replicate hm, List.sum_replicate, nsmul_eq_mul]
      field_simp

example : ∀ t ∈ twoStumps.trees, ∀ w ∈ t.impurity, 0 ≤ w := by
  intro t ht w hw
  simp only [twoStumps, List.mem_cons, List.not_mem_nil, or_false] at ht
  rcases ht with rfl | rfl <;> simp only [stump, List.mem_cons, List.not_mem_nil, or_false] at hw <;>
    rcases hw with rfl | rfl | rfl <;> norm_num

/-- The forest of the example, without the floor, is certain at 2 (both trees say 5) but not at -1. -/
example : ({ twoStumps with minVariance := 0 } : Forest).predictStd [[-1], [2]]
    = .ok ([2, 5], [√(17 / 8), 0]) := by
  rw [predictStd_ok (by rfl) (by simp [twoStumps]) (by
    intro t ht x hx
    simp only [twoStumps, List.mem_cons, List.not_mem_nil, or_false] at ht hx
    rcases ht with rfl | rfl <;> rcases hx with rfl | rfl <;> norm_num [stump])]
  norm_num [twoStumps, stump, forestVar, floorVar]

/-- **C58, criterion.** A fitted forest predicts standard deviations exactly when it was grown with the mean squared
error criterion; otherwise the call raises ValueError. -/
theorem C58_forest_criterion (f : Forest) (X : List (List ℝ)) (hne : f.trees ≠ []) (hX : LeavesExist f X) :
    ((∃ r, f.predictStd X = .ok r) ↔ f.criterion = "mse") ∧
    (f.criterion ≠ "mse" → f.predictStd X = .error .valueError) := by
  have herr : f.criterion ≠ "mse" → f.predictStd X = .error .valueError := fun h => by simp [Forest.predictStd, h]
  refine ⟨⟨?_, fun h => ⟨_, predictStd_ok h hne hX⟩⟩, herr⟩
  rintro ⟨r, hr⟩
  by_contra h
  rw [herr h] at hr
  cases hr

example : ({ twoStumps with criterion := "mae" } : Forest).criterion ≠ "mse" := by simp

/-! ## Quantile regression -/

theorem Quantiles.index_ok {qs : List ℝ} {q : ℝ} {fit : ℝ → List ℝ → ℝ} (h : q ∈ qs) :
    ∃ i, Quantiles.index (.list qs) q = .ok i ∧ pyGet (gbrtFit fit (.list qs)) i = .ok (fit q) := by
  classical
  refine ⟨qs.findIdx fun p => p = q, by simp [Quantiles.index, h], ?_⟩
  rw [pyGet_eq_ok, gbrtFit, Quantiles.values, List.getElem?_map]
  have hlt : (qs.findIdx fun p => decide (p = q)) < qs.length := by
    rw [List.findIdx_lt_length]
    exact ⟨q, h, by simp⟩
  rw [List.getElem?_eq_getElem hlt]
  have := List.findIdx_getElem (w := hlt)
  simp only [decide_eq_true_eq] at this
  simp [this]

/-- **C70.** With a python list of quantiles, in any order and with any further quantiles, that contains 0.16, 0.5 and
0.84, `predict(return_std=True)` returns at every row the prediction of the regressor fitted for the median, and half
the distance between the predictions of the regressors fitted for 0.84 and 0.16. -/
theorem C70_gbrt_std (fit : ℝ → List ℝ → ℝ) (qs : List ℝ) (X : List (List ℝ)) (h16 : (0.16 : ℝ) ∈ qs)
    (h50 : (0.5 : ℝ) ∈ qs) (h84 : (0.84 : ℝ) ∈ qs) :
    gbrtPredictStd (.list qs) (gbrtFit fit (.list qs)) X
      = .ok (X.map (fit 0.5), X.map fun x => (fit 0.84 x - fit 0.16 x) / 2) ∧
    gbrtPredict (.list qs) (gbrtFit fit (.list qs)) X = .ok (X.map (fit 0.5)) := by
  obtain ⟨i, hi, gi⟩ := Quantiles.index_ok (fit := fit) h16
  obtain ⟨j, hj, gj⟩ := Quantiles.index_ok (fit := fit) h50
  obtain ⟨k, hk, gk⟩ := Quantiles.index_ok (fit := fit) h84
  constructor
  · simp only [gbrtPredictStd, Quantiles.values, List.all_cons, List.all_nil, h16, h50, h84, hi, hj, hk, gi, gj, gk,
      bind, Except.bind, List.zipWith_map, List.zipWith_self]
    simp
  · simp only [gbrtPredict, hj, gj, bind, Except.bind]

example : (0.16 : ℝ) ∈ ([0.84, 0.16, 0.9, 0.5] : List ℝ) ∧ (0.5 : ℝ) ∈ ([0.84, 0.16, 0.9, 0.5] : List ℝ) ∧
    (0.84 : ℝ) ∈ ([0.84, 0.16, 0.9, 0.5] : List ℝ) := by norm_num

/-- **C70, missing quantiles.** With a python list of quantiles, `predict(return_std=True)` raises ValueError exactly if
one of 0.16, 0.5 and 0.84 is missing, and `predict` exactly if 0.5 is. -/
theorem C70_missing_quantiles (fit : ℝ → List ℝ → ℝ) (qs : List ℝ) (X : List (List ℝ)) :
    (gbrtPredictStd (.list qs) (gbrtFit fit (.list qs)) X = .error .valueError ↔
      (0.16 : ℝ) ∉ qs ∨ (0.5 : ℝ) ∉ qs ∨ (0.84 : ℝ) ∉ qs) ∧
    (gbrtPredict (.list qs) (gbrtFit fit (.list qs)) X = .error .valueError ↔ (0.5 : ℝ) ∉ qs) := by
  constructor
  · constructor
    · intro h
      by_contra hc
      push Not at hc
      rw [(C70_gbrt_std fit qs X hc.1 hc.2.1 hc.2.2).1] at h
      cases h
    · intro h
      unfold gbrtPredictStd
      rw [if_pos]
      simp only [Quantiles.values, List.all_cons, List.all_nil, Bool.and_true, Bool.and_eq_true]
      rintro ⟨a, b, c⟩
      have a' := of_decide_eq_true a
      have b' := of_decide_eq_true b
      have c' := of_decide_eq_true c
      tauto
  · constructor
    · intro h hc
      obtain ⟨j, hj, gj⟩ := Quantiles.index_ok (fit := fit) hc
      simp only [gbrtPredict, hj, gj, bind, Except.bind] at h
      cases h
    · intro h
      simp only [gbrtPredict, Quantiles.index, if_neg h, bind, Except.bind]

example : (0.5 : ℝ) ∉ ([0.16, 0.84] : List ℝ) := by norm_num

/-- **C70, all quantiles.** `predict(return_quantiles=True)` has one row per point, whose entry for each requested
quantile is the prediction of the regressor fitted for it. -/
theorem C70_gbrt_quantiles (fit : ℝ → List ℝ → ℝ) (qs : Quantiles) (X : List (List ℝ)) (i j : Nat) (x : List ℝ)
    (q : ℝ) (hx : X[i]? = some x) (hq : qs.values[j]? = some q) :
    ((gbrtPredictQuantiles (gbrtFit fit qs) X)[i]?.bind fun row => row[j]?) = some (fit q x) := by
  simp [gbrtPredictQuantiles, gbrtFit, hx, hq]

example : ([[1], [2]] : List (List ℝ))[1]? = some [2] ∧ (Quantiles.list [0.16, 0.5]).values[1]? = some (0.5 : ℝ) :=
  ⟨rfl, rfl⟩

/-- **C70, size (restricted).** The predicted standard deviation is not negative where the fitted quantiles are in
order.  Missing: nothing makes separately fitted quantiles come out in order. -/
theorem C70_gbrt_std_nonneg_partial (fit : ℝ → List ℝ → ℝ) (qs : List ℝ) (X : List (List ℝ)) (h16 : (0.16 : ℝ) ∈ qs)
    (h50 : (0.5 : ℝ) ∈ qs) (h84 : (0.84 : ℝ) ∈ qs) (hord : ∀ x ∈ X, fit 0.16 x ≤ fit 0.84 x) :
    ∃ mean std, gbrtPredictStd (.list qs) (gbrtFit fit (.list qs)) X = .ok (mean, std) ∧ ∀ s ∈ std, 0 ≤ s := by
  refine ⟨_, _, (C70_gbrt_std fit qs X h16 h50 h84).1, ?_⟩
  intro s hs
  obtain ⟨x, hx, rfl⟩ := List.mem_map.1 hs
  have := hord x hx
  linarith

example : ∀ x ∈ ([[1], [2]] : List (List ℝ)), (fun q _ => q : ℝ → List ℝ → ℝ) 0.16 x
    ≤ (fun q _ => q : ℝ → List ℝ → ℝ) 0.84 x := by
  intro x _; norm_num

/-- **C70 refuted.** Regressors are fitted separately for each quantile; where they cross, the predicted standard
deviation is negative. -/
theorem C70_refuted_negative_std : ∃ (fit : ℝ → List ℝ → ℝ) (X : List (List ℝ)) (mean std : List ℝ) (s : ℝ),
    gbrtPredictStd (.list [0.16, 0.5, 0.84]) (gbrtFit fit (.list [0.16, 0.5, 0.84])) X = .ok (mean, std) ∧
      s ∈ std ∧ s < 0 := by
  refine ⟨fun q x => if q < 0.3 then x.sum else 0, [[1]], _, _, -1 / 2,
    (C70_gbrt_std _ _ _ (by norm_num) (by norm_num) (by norm_num)).1, ?_, by norm_num⟩
  norm_num

/-- **C70 refuted.** `quantiles` is documented as array-like, but with a numpy array every prediction of a mean
raises AttributeError. -/
theorem C70_refuted_array_quantiles (fit : ℝ → List ℝ → ℝ) (X : List (List ℝ)) :
    gbrtPredict (.array [0.16, 0.5, 0.84]) (gbrtFit fit (.array [0.16, 0.5, 0.84])) X = .error .attributeError ∧
    gbrtPredictStd (.array [0.16, 0.5, 0.84]) (gbrtFit fit (.array [0.16, 0.5, 0.84])) X
      = .error .attributeError := by
  constructor
  · rfl
  · simp [gbrtPredictStd, Quantiles.values, Quantiles.index, bind, Except.bind]

end Skopt

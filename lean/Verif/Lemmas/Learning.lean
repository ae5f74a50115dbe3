import Verif.Model.Learning
import Verif.Spec.Learning
import Verif.Lemmas.Basic

/-!
# Lemmas about forests
-/

namespace Skopt

open MeasureTheory ProbabilityTheory

/-- The leaf variance of the tree at the row, raised to the floor. -/
noncomputable def floorVar (mv : ℝ) (t : RegTree) (x : List ℝ) : ℝ := max (t.impurity[t.apply x]?.getD 0) mv

theorem varTree_ok {X : List (List ℝ)} {mv : ℝ} {t : RegTree}
    (h : ∀ x ∈ X, t.apply x < t.impurity.length) : varTree X mv t = .ok (X.map (floorVar mv t)) := by
  have h1 : mapE (fun x => pyGet t.impurity (t.apply x)) X
      = .ok (X.map fun x => t.impurity[t.apply x]?.getD 0) := by
    apply mapE_ok_of_forall
    intro x hx
    rw [pyGet_lt (h x hx)]
    simp [h x hx]
  simp only [varTree, h1, bind, Except.bind, List.map_map]
  congr 1
  apply List.map_congr_left
  intro x _
  simp only [Function.comp, floorVar]
  split_ifs with hlt
  · exact (max_eq_right hlt.le).symm
  · exact (max_eq_left (not_lt.1 hlt)).symm

theorem sumTrees_ok {X : List (List ℝ)} {mv : ℝ} : ∀ (ts : List RegTree) (g : List ℝ → ℝ),
    (∀ t ∈ ts, ∀ x ∈ X, t.apply x < t.impurity.length) →
    sumTrees X mv ts (X.map g)
      = .ok (X.map fun x => g x + (ts.map fun t => floorVar mv t x + t.predict x ^ 2).sum)
  | [], g, _ => by simp [sumTrees]
  | t :: ts, g, h => by
    simp only [sumTrees, varTree_ok (h t List.mem_cons_self), bind, Except.bind, List.zipWith_map,
      List.zipWith_self]
    rw [sumTrees_ok ts _ fun u hu => h u (List.mem_cons_of_mem _ hu)]
    congr 1
    apply List.map_congr_left
    intro x _
    simp only [List.map_cons, List.sum_cons]
    ring

/-- What the forest predicts as variance. -/
noncomputable def forestVar (f : Forest) (x : List ℝ) : ℝ :=
  (f.trees.map fun t => floorVar f.minVariance t x + t.predict x ^ 2).sum / f.trees.length
    - ((f.trees.map fun t => t.predict x).sum / f.trees.length) ^ 2

theorem predictStd_ok {f : Forest} {X : List (List ℝ)} (hc : f.criterion = "mse") (hne : f.trees ≠ [])
    (h : ∀ t ∈ f.trees, ∀ x ∈ X, t.apply x < t.impurity.length) :
    f.predictStd X = .ok (X.map fun x => (f.trees.map fun t => t.predict x).sum / f.trees.length,
      X.map fun x => √(max 0 (forestVar f x))) := by
  have hs := sumTrees_ok (mv := f.minVariance) f.trees (fun _ => 0) h
  simp only [Forest.predictStd, hc, ne_eq, not_true_eq_false, if_false, returnStd, hne, hs, bind, Except.bind,
    skForestMean, List.length_map, List.map_map, List.zipWith_map, List.zipWith_self]
  congr 2
  apply List.map_congr_left
  intro x _
  simp only [Function.comp, forestVar, zero_add]
  congr 1
  split_ifs with hlt
  · exact (max_eq_left hlt.le).symm
  · exact (max_eq_right (not_lt.1 hlt)).symm

/-- The sum of squared deviations from the mean. -/
theorem sum_sq_dev (l : List ℝ) (hl : l ≠ []) :
    (l.map fun m => (m - l.sum / l.length) ^ 2).sum
      = (l.map fun m => m ^ 2).sum - l.length * (l.sum / l.length) ^ 2 := by
  have h0 : (l.length : ℝ) ≠ 0 := by simpa using hl
  have key : ∀ (c : ℝ) (l : List ℝ), (l.map fun m => (m - c) ^ 2).sum
      = (l.map fun m => m ^ 2).sum - 2 * c * l.sum + l.length * c ^ 2 := by
    intro c l
    induction l with
    | nil => simp
    | cons a l ih => simp only [List.map_cons, List.sum_cons, List.length_cons, ih]; push_cast; ring
  rw [key]
  field_simp
  ring

theorem forestVar_eq (f : Forest) (x : List ℝ) (hne : f.trees ≠ []) :
    forestVar f x = (f.trees.map fun t => floorVar f.minVariance t x).sum / f.trees.length
      + ((f.trees.map fun t => t.predict x).map fun m =>
          (m - (f.trees.map fun t => t.predict x).sum / f.trees.length) ^ 2).sum / f.trees.length := by
  have h0 : (f.trees.length : ℝ) ≠ 0 := by simpa using hne
  have h := sum_sq_dev (f.trees.map fun t => t.predict x) (by simpa using hne)
  rw [List.length_map] at h
  have hsum : (f.trees.map fun t => floorVar f.minVariance t x + t.predict x ^ 2).sum
      = (f.trees.map fun t => floorVar f.minVariance t x).sum
        + ((f.trees.map fun t => t.predict x).map fun m => m ^ 2).sum := by
    rw [List.map_map]
    exact List.sum_map_add
  rw [h, forestVar, hsum]
  field_simp
  ring

/-! ## Mixtures -/

theorem integral_list_sum {g : ℝ → ℝ} : ∀ {νs : List (Measure ℝ)}, (∀ ν ∈ νs, Integrable g ν) →
    Integrable g νs.sum ∧ ∫ y, g y ∂νs.sum = (νs.map fun ν => ∫ y, g y ∂ν).sum
  | [], _ => by simp
  | ν :: νs, h => by
    have ⟨hi, he⟩ := integral_list_sum fun μ hμ => h μ (List.mem_cons_of_mem _ hμ)
    have hν := h ν List.mem_cons_self
    rw [List.sum_cons]
    exact ⟨hν.add_measure hi, by rw [integral_add_measure hν hi, he]; simp⟩

theorem equalMixture_integral {g : ℝ → ℝ} {νs : List (Measure ℝ)} (hne : νs ≠ [])
    (h : ∀ ν ∈ νs, Integrable g ν) :
    Integrable g (equalMixture νs) ∧
      ∫ y, g y ∂(equalMixture νs) = (νs.map fun ν => ∫ y, g y ∂ν).sum / νs.length := by
  have ⟨hi, he⟩ := integral_list_sum h
  refine ⟨hi.smul_measure (by simpa using hne), ?_⟩
  rw [equalMixture, integral_smul_measure, he]
  simp [ENNReal.toReal_inv, div_eq_inv_mul]

theorem equalMixture_prob {νs : List (Measure ℝ)} (hne : νs ≠ [])
    (h : ∀ ν ∈ νs, IsProbabilityMeasure ν) : IsProbabilityMeasure (equalMixture νs) := by
  have hsum : ∀ {l : List (Measure ℝ)}, (∀ ν ∈ l, IsProbabilityMeasure ν) → l.sum Set.univ = l.length := by
    intro l
    induction l with
    | nil => simp
    | cons ν l ih =>
      intro hl
      have := hl ν List.mem_cons_self
      rw [List.sum_cons, Measure.add_apply, measure_univ, ih fun μ hμ => hl μ (List.mem_cons_of_mem _ hμ)]
      push_cast [List.length_cons]
      ring
  constructor
  rw [equalMixture, Measure.smul_apply, hsum h, smul_eq_mul]
  refine ENNReal.inv_mul_cancel ?_ (by simp)
  simpa using hne

theorem hasMeanVar_sq {ν : Measure ℝ} {m v : ℝ} (h : HasMeanVar ν m v) :
    Integrable (fun y : ℝ => y) ν ∧ Integrable (fun y : ℝ => y ^ 2) ν ∧ ∫ y, y ^ 2 ∂ν = v + m ^ 2 := by
  have := h.prob
  refine ⟨h.square.integrable (by norm_num), h.square.integrable_sq, ?_⟩
  have hv := variance_eq_sub h.square
  rw [h.var] at hv
  have hm : ∫ y, id y ∂ν = m := h.mean
  rw [hm] at hv
  have hp : (∫ y, (id ^ 2) y ∂ν : ℝ) = ∫ y, y ^ 2 ∂ν := rfl
  rw [hp] at hv
  linarith

/-- Mean and variance of an equal mixture. -/
theorem equalMixture_mean_var {α : Type} {ts : List α} {ν : α → Measure ℝ} {m v : α → ℝ} (hne : ts ≠ [])
    (h : ∀ t ∈ ts, HasMeanVar (ν t) (m t) (v t)) :
    ∫ y, y ∂(equalMixture (ts.map ν)) = (ts.map m).sum / ts.length ∧
    variance id (equalMixture (ts.map ν))
      = (ts.map fun t => v t + m t ^ 2).sum / ts.length - ((ts.map m).sum / ts.length) ^ 2 := by
  have hne' : ts.map ν ≠ [] := by simpa using hne
  have hprob : IsProbabilityMeasure (equalMixture (ts.map ν)) := by
    apply equalMixture_prob hne'
    intro μ hμ
    obtain ⟨t, ht, rfl⟩ := List.mem_map.1 hμ
    exact (h t ht).prob
  have h1 := equalMixture_integral (g := fun y => y) hne' (by
    intro μ hμ
    obtain ⟨t, ht, rfl⟩ := List.mem_map.1 hμ
    exact (hasMeanVar_sq (h t ht)).1)
  have h2 := equalMixture_integral (g := fun y => y ^ 2) hne' (by
    intro μ hμ
    obtain ⟨t, ht, rfl⟩ := List.mem_map.1 hμ
    exact (hasMeanVar_sq (h t ht)).2.1)
  have e1 : (ts.map ν).map (fun ν => ∫ y, y ∂ν) = ts.map m := by
    rw [List.map_map]; exact List.map_congr_left fun t ht => (h t ht).mean
  have e2 : (ts.map ν).map (fun ν => ∫ y, y ^ 2 ∂ν) = ts.map fun t => v t + m t ^ 2 := by
    rw [List.map_map]; exact List.map_congr_left fun t ht => (hasMeanVar_sq (h t ht)).2.2
  rw [e1, List.length_map] at h1
  rw [e2, List.length_map] at h2
  refine ⟨h1.2, ?_⟩
  have hL : MemLp id 2 (equalMixture (ts.map ν)) :=
    (memLp_two_iff_integrable_sq measurable_id.aestronglyMeasurable).2 h2.1
  rw [variance_eq_sub hL]
  have a1 : (∫ y, (id ^ 2) y ∂(equalMixture (ts.map ν)) : ℝ) = ∫ y, y ^ 2 ∂(equalMixture (ts.map ν)) := rfl
  have a2 : (∫ y, id y ∂(equalMixture (ts.map ν)) : ℝ) = ∫ y, y ∂(equalMixture (ts.map ν)) := rfl
  rw [a1, a2, h1.2, h2.2]

end Skopt

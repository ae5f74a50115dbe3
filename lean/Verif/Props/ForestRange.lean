import Verif.Props.Acquisition
import Verif.Props.Learning
import Verif.Props.ObjectiveUnitsEi

/-!
# C128: forests never predict beyond what has been observed
-/

namespace Skopt

/-! ## Specification -/

/-- The average of some numbers. -/
noncomputable def average (l : List ℝ) : ℝ := l.sum / l.length

/-- What growing a regression tree with the mean squared error criterion promises: every leaf holds some of the observed
values (with repetitions, if the sample was bootstrapped), the tree predicts their average, and the impurity of the leaf
is their average squared deviation.  This is what scikit-learn computes (skopt/learning/forest.py:37, 45). -/
def GrownFrom (t : RegTree) (ys : List ℝ) : Prop :=
  ∀ x, ∃ leaf : List ℝ, leaf ≠ [] ∧ (∀ y ∈ leaf, y ∈ ys) ∧ t.predict x = average leaf ∧
    LeafVariance t x (average (leaf.map fun y => (y - average leaf) ^ 2))

/-- A forest with default criterion and at least one tree, all grown from the observations. -/
structure GrownForest (f : Forest) (ys : List ℝ) : Prop where
  mse : f.criterion = "mse"
  some : f.trees ≠ []
  trees : ∀ t ∈ f.trees, GrownFrom t ys

/-! ## Helpers -/

theorem sum_map_affine (l : List ℝ) (a b : ℝ) : (l.map fun y => a * y + b).sum = a * l.sum + b * l.length := by
  induction l with
  | nil => simp
  | cons y l ih =>
    simp only [List.map_cons, List.sum_cons, ih, List.length_cons]
    push_cast
    ring

theorem average_mem {l : List ℝ} (hl : l ≠ []) {lo hi : ℝ} (h : ∀ y ∈ l, lo ≤ y ∧ y ≤ hi) :
    lo ≤ average l ∧ average l ≤ hi := by
  have hpos : (0 : ℝ) < l.length := by exact_mod_cast List.length_pos_iff.2 hl
  have h1 : lo * l.length ≤ l.sum := by
    have := List.sum_le_sum (f := fun _ : ℝ => lo) (g := id) (l := l) fun y hy => (h y hy).1
    simpa [mul_comm] using this
  have h2 : l.sum ≤ hi * l.length := by
    have := List.sum_le_sum (g := fun _ : ℝ => hi) (f := id) (l := l) fun y hy => (h y hy).2
    simpa [mul_comm] using this
  exact ⟨(le_div_iff₀ hpos).2 h1, (div_le_iff₀ hpos).2 h2⟩

/-- The average square of numbers in an interval lies below the chord. -/
theorem average_sq_le {l : List ℝ} (hl : l ≠ []) {lo hi : ℝ} (h : ∀ y ∈ l, lo ≤ y ∧ y ≤ hi) :
    average (l.map fun y => (y - average l) ^ 2) + average l ^ 2 ≤ (lo + hi) * average l - lo * hi := by
  have hpos : (0 : ℝ) < l.length := by exact_mod_cast List.length_pos_iff.2 hl
  have h1 : (l.map fun y => (y - average l) ^ 2).sum + average l ^ 2 * l.length
      ≤ (l.map fun y => (lo + hi) * y + -(lo * hi)).sum := by
    have e : (l.map fun y => (y - average l) ^ 2).sum + average l ^ 2 * l.length = (l.map fun y => y ^ 2).sum := by
      have h3 : ∀ (m : ℝ) (k : List ℝ), (k.map fun y => (y - m) ^ 2).sum
          = (k.map fun y => y ^ 2).sum - 2 * m * k.sum + m ^ 2 * k.length := by
        intro m k
        induction k with
        | nil => simp
        | cons y k ih =>
          simp only [List.map_cons, List.sum_cons, ih, List.length_cons]
          push_cast
          ring
      have h4 : l.sum = average l * l.length := by rw [average]; field_simp
      rw [h3, h4]
      ring
    rw [e]
    apply List.sum_le_sum
    intro y hy
    obtain ⟨a, b⟩ := h y hy
    nlinarith [mul_nonneg (sub_nonneg.2 a) (sub_nonneg.2 b)]
  rw [sum_map_affine] at h1
  have h5 : average (l.map fun y => (y - average l) ^ 2) = (l.map fun y => (y - average l) ^ 2).sum / l.length := by
    simp [average]
  have h6 : l.sum = average l * l.length := by rw [average]; field_simp
  rw [h6] at h1
  rw [h5, ← sub_nonneg]
  have h7 : (lo + hi) * average l - lo * hi - ((l.map fun y => (y - average l) ^ 2).sum / l.length + average l ^ 2)
      = ((lo + hi) * (average l * l.length) + -(lo * hi) * l.length
        - ((l.map fun y => (y - average l) ^ 2).sum + average l ^ 2 * l.length)) / l.length := by
    field_simp
    ring
  rw [h7]
  exact div_nonneg (by linarith) hpos.le

theorem forest_bounds {f : Forest} {ys : List ℝ} (h : GrownForest f ys) {lo hi : ℝ} (hy : ∀ y ∈ ys, lo ≤ y ∧ y ≤ hi)
    (x : List ℝ) :
    let m := (f.trees.map fun t => t.predict x).sum / f.trees.length
    lo ≤ m ∧ m ≤ hi ∧ forestVar f x ≤ (hi - m) * (m - lo) + max f.minVariance 0 := by
  have hpos : (0 : ℝ) < f.trees.length := by exact_mod_cast List.length_pos_iff.2 h.some
  have hm := average_mem (l := f.trees.map fun t => t.predict x) (by simpa using h.some) (lo := lo) (hi := hi) (by
    intro y hy'
    obtain ⟨t, ht, rfl⟩ := List.mem_map.1 hy'
    obtain ⟨leaf, h1, h2, h3, -⟩ := h.trees t ht x
    simp only [h3]
    exact average_mem h1 fun y hy' => hy y (h2 y hy'))
  simp only [average, List.length_map] at hm
  refine ⟨hm.1, hm.2, ?_⟩
  have h1 : (f.trees.map fun t => floorVar f.minVariance t x + t.predict x ^ 2).sum
      ≤ (f.trees.map fun t => (lo + hi) * t.predict x + (max f.minVariance 0 - lo * hi)).sum := by
    apply List.sum_le_sum
    intro t ht
    obtain ⟨leaf, a1, a2, a3, a4⟩ := h.trees t ht x
    have b := average_sq_le a1 fun y hy' => hy y (a2 y hy')
    rw [floorVar_eq a4, a3]
    have hv : 0 ≤ average (leaf.map fun y => (y - average leaf) ^ 2) := by
      refine div_nonneg (List.sum_nonneg ?_) (Nat.cast_nonneg _)
      intro z hz
      obtain ⟨y, -, rfl⟩ := List.mem_map.1 hz
      exact sq_nonneg _
    have : max (average (leaf.map fun y => (y - average leaf) ^ 2)) f.minVariance
        ≤ average (leaf.map fun y => (y - average leaf) ^ 2) + max f.minVariance 0 :=
      max_le (by linarith [le_max_right f.minVariance 0]) (by linarith [le_max_left f.minVariance 0])
    linarith
  have e : (f.trees.map fun t => (lo + hi) * t.predict x + (max f.minVariance 0 - lo * hi)).sum
      = (lo + hi) * (f.trees.map fun t => t.predict x).sum + (max f.minVariance 0 - lo * hi) * f.trees.length := by
    have := sum_map_affine (f.trees.map fun t => t.predict x) (lo + hi) (max f.minVariance 0 - lo * hi)
    rw [List.map_map, List.length_map] at this
    exact this
  rw [e] at h1
  have h2 := div_le_div_of_nonneg_right h1 hpos.le
  rw [add_div, mul_div_assoc, mul_div_cancel_right₀ _ hpos.ne'] at h2
  simp only [forestVar]
  nlinarith

theorem grown_leaves {f : Forest} {ys : List ℝ} (h : GrownForest f ys) (X : List (List ℝ)) : LeavesExist f X := by
  intro t ht x _
  obtain ⟨leaf, -, -, -, h4⟩ := h.trees t ht x
  exact (List.getElem?_eq_some_iff.1 h4).1

/-- Two trees grown from the values 1, 3 and 5: one splits off the largest, the other the smallest. -/
noncomputable def grownStumps : Forest where
  trees := [stump 2 5 1 0, stump 1 4 0 1]

theorem grown_stump {a b : ℝ} {l r ys : List ℝ} (hl : l ≠ [] ∧ ∀ y ∈ l, y ∈ ys) (hr : r ≠ [] ∧ ∀ y ∈ r, y ∈ ys)
    (ha : a = average l) (hb : b = average r) :
    GrownFrom (stump a b (average (l.map fun y => (y - average l) ^ 2)) (average (r.map fun y => (y - average r) ^ 2))) ys := by
  subst ha hb
  rintro (_ | ⟨c, x⟩)
  · exact ⟨l, hl.1, hl.2, rfl, by simp [LeafVariance, stump]⟩
  · by_cases h : c ≤ 0
    · exact ⟨l, hl.1, hl.2, by simp [stump, h], by simp [LeafVariance, stump, h]⟩
    · exact ⟨r, hr.1, hr.2, by simp [stump, h], by simp [LeafVariance, stump, h]⟩

theorem grownStumps_grown : GrownForest grownStumps [1, 3, 5] := by
  refine ⟨rfl, by simp [grownStumps], ?_⟩
  intro t ht
  simp only [grownStumps, List.mem_cons, List.not_mem_nil, or_false] at ht
  rcases ht with rfl | rfl
  · convert grown_stump (a := 2) (b := 5) (l := [1, 3]) (r := [5]) (ys := [1, 3, 5]) (by simp) (by simp)
      (by norm_num [average]) (by norm_num [average]) using 1
    norm_num [average]
  · convert grown_stump (a := 1) (b := 4) (l := [1]) (r := [3, 5]) (ys := [1, 3, 5]) (by simp) (by simp)
      (by norm_num [average]) (by norm_num [average]) using 1
    norm_num [average]

/-! ## The theorems -/

/-- **C128.** Wherever it is asked, a forest predicts a mean between the smallest and the largest of the observed values,
and a variance of at most the product of the distances of the mean to these two (up to `min_variance`): near the
extremes of what was observed the forest is nearly certain. -/
theorem C128_range (f : Forest) (ys : List ℝ) (h : GrownForest f ys) (lo hi : ℝ) (hy : ∀ y ∈ ys, lo ≤ y ∧ y ≤ hi)
    (X : List (List ℝ)) :
    ∃ mean std, f.predictStd X = .ok (mean, std) ∧ mean.length = X.length ∧ std.length = X.length ∧
      ∀ (i : Nat) (m s : ℝ), mean[i]? = some m → std[i]? = some s →
        lo ≤ m ∧ m ≤ hi ∧ 0 ≤ s ∧ s ^ 2 ≤ (hi - m) * (m - lo) + max f.minVariance 0 := by
  refine ⟨_, _, predictStd_ok h.mse h.some (grown_leaves h X), by simp, by simp, ?_⟩
  intro i m s hm hs
  rw [List.getElem?_map, Option.map_eq_some_iff] at hm hs
  obtain ⟨x, hx, rfl⟩ := hm
  obtain ⟨x', hx', rfl⟩ := hs
  rw [hx, Option.some.injEq] at hx'
  subst hx'
  obtain ⟨h1, h2, h3⟩ := forest_bounds h hy x
  refine ⟨h1, h2, Real.sqrt_nonneg _, ?_⟩
  rw [Real.sq_sqrt (le_max_left _ _)]
  refine max_le ?_ h3
  have := mul_nonneg (sub_nonneg.2 h2) (sub_nonneg.2 h1)
  linarith [le_max_right f.minVariance 0]

example : GrownForest grownStumps [1, 3, 5] ∧ grownStumps.minVariance = 0 ∧ ∀ y ∈ [(1 : ℝ), 3, 5], 1 ≤ y ∧ y ≤ 5 :=
  ⟨grownStumps_grown, rfl, by intro y hy; simp at hy; rcases hy with rfl | rfl | rfl <;> norm_num⟩

/-- **C128 (uncertainty).** With the default `min_variance=0` the predicted standard deviation is at most half the range
of the observed values; if all observed values agree, the forest predicts that value with certainty. -/
theorem C128_half_range (f : Forest) (ys : List ℝ) (h : GrownForest f ys) (hv : f.minVariance = 0) (lo hi : ℝ)
    (hy : ∀ y ∈ ys, lo ≤ y ∧ y ≤ hi) (X : List (List ℝ)) :
    ∃ mean std, f.predictStd X = .ok (mean, std) ∧ std.length = X.length ∧ (∀ s ∈ std, s ≤ (hi - lo) / 2) ∧
      (lo = hi → mean = X.map (fun _ => lo) ∧ std = X.map fun _ => 0) := by
  obtain ⟨mean, std, h1, h2, h3, h4⟩ := C128_range f ys h lo hi hy X
  rw [hv, max_self] at h4
  have at_ : ∀ (i : Nat) (s : ℝ), std[i]? = some s → ∃ m, mean[i]? = some m := by
    intro i s hs
    have := (List.getElem?_eq_some_iff.1 hs).1
    exact ⟨_, List.getElem?_eq_getElem (h2 ▸ h3 ▸ this)⟩
  have at' : ∀ (i : Nat) (m : ℝ), mean[i]? = some m → ∃ s, std[i]? = some s := by
    intro i s hs
    have := (List.getElem?_eq_some_iff.1 hs).1
    exact ⟨_, List.getElem?_eq_getElem (by rw [h3, ← h2]; exact this)⟩
  refine ⟨mean, std, h1, h3, ?_, ?_⟩
  · intro s hs
    obtain ⟨i, hi'⟩ := List.getElem?_of_mem hs
    obtain ⟨m, hm⟩ := at_ i s hi'
    obtain ⟨a, b, c, d⟩ := h4 i m s hm hi'
    nlinarith [sq_nonneg (hi - m - (m - lo))]
  · rintro rfl
    constructor
    · rw [List.map_const', List.eq_replicate_iff]
      refine ⟨h2, fun m hm => ?_⟩
      obtain ⟨i, hi'⟩ := List.getElem?_of_mem hm
      obtain ⟨s, hs⟩ := at' i m hi'
      obtain ⟨a, b, -, -⟩ := h4 i m s hi' hs
      exact le_antisymm b a
    · rw [List.map_const', List.eq_replicate_iff]
      refine ⟨h3, fun s hs => ?_⟩
      obtain ⟨i, hi'⟩ := List.getElem?_of_mem hs
      obtain ⟨m, hm⟩ := at_ i s hi'
      obtain ⟨a, b, c, d⟩ := h4 i m s hm hi'
      nlinarith

example : GrownForest grownStumps [1, 3, 5] ∧ grownStumps.minVariance = 0 ∧ ∀ y ∈ [(1 : ℝ), 3, 5], 1 ≤ y ∧ y ≤ 5 :=
  ⟨grownStumps_grown, rfl, by intro y hy; simp at hy; rcases hy with rfl | rfl | rfl <;> norm_num⟩

/-- **C128 (acquisition).** So a forest never promises an improvement: with the best observed value as incumbent,
`xi ≥ 0` and the default `min_variance=0`, the probability of improvement is nowhere more than one half, the expected
improvement is nowhere more than a quarter of the range of the observed values, and the lower confidence bound is nowhere
below the best value by more than a fixed multiple of that range. -/
theorem C128_acquisition (f : Forest) (ys : List ℝ) (h : GrownForest f ys) (hv : f.minVariance = 0) (lo hi : ℝ)
    (hy : ∀ y ∈ ys, lo ≤ y ∧ y ≤ hi) (X : List (List ℝ)) (xi : ℝ) (hxi : 0 ≤ xi) (k : ℝ) :
    ∃ mean std pi ei lcb, f.predictStd X = .ok (mean, std) ∧
      gaussianPi ⟨mean, std, 1, 1⟩ lo xi = .ok pi ∧ (∀ v ∈ pi, v ≤ 1 / 2) ∧
      gaussianEi ⟨mean, std, 1, 1⟩ lo xi = .ok ei ∧ (∀ v ∈ ei, v ≤ (hi - lo) / 4) ∧
      gaussianLcb ⟨mean, std, 1, 1⟩ (.num k) = lcb ∧ (∀ v ∈ lcb, lo - (√(1 + k ^ 2) - 1) / 2 * (hi - lo) ≤ v) := by
  obtain ⟨mean, std, h1, h2, h3, h4⟩ := C128_range f ys h lo hi hy X
  have hl : mean.length = std.length := by rw [h2, h3]
  rw [hv, max_self] at h4
  have rows : ∀ (g : ℝ → ℝ → ℝ) (P : ℝ → Prop), (∀ m s, lo ≤ m → m ≤ hi → 0 ≤ s → s ^ 2 ≤ (hi - m) * (m - lo) →
      P (g m s)) → ∀ v ∈ List.zipWith g mean std, P v := by
    intro g P hg v hv
    obtain ⟨i, hi'⟩ := List.getElem?_of_mem hv
    rw [List.getElem?_zipWith] at hi'
    split at hi'
    · next m s hm hs =>
      injection hi' with hi'
      subst hi'
      obtain ⟨a, b, c, d⟩ := h4 i m s hm hs
      exact hg m s a b c (by linarith)
    · cases hi'
  have half : ∀ m s, s ^ 2 ≤ (hi - m) * (m - lo) → lo ≤ hi → s ≤ (hi - lo) / 2 := by
    intro m s hs hlo
    nlinarith [sq_nonneg (hi - m - (m - lo))]
  refine ⟨mean, std, _, _, _, h1, gaussianPi_eq _ rfl rfl hl lo xi, rows _ _ ?_, gaussianEi_eq _ rfl rfl hl lo xi,
    rows _ _ ?_, rfl, rows _ _ ?_⟩
  · intro m s a b c d
    split
    · next hs =>
      rw [← normCdf_zero]
      exact normCdf_strictMono.monotone (div_nonpos_of_nonpos_of_nonneg (by linarith) c)
    · norm_num
  · intro m s a b c d
    split
    · next hs =>
      have e : (lo - xi - m) * normCdf ((lo - xi - m) / s) + s * normPdf ((lo - xi - m) / s)
          = s * unitEi ((lo - xi - m) / s) := by
        rw [unitEi]
        field_simp
      rw [e]
      have h5 : unitEi ((lo - xi - m) / s) ≤ unitEi 0 :=
        unitEi_monotone (div_nonpos_of_nonpos_of_nonneg (by linarith) c)
      have h6 : unitEi 0 < 0.49 := by
        have := normPdf_zero_bounds.2
        simpa [unitEi] using this
      have h7 := half m s d (a.trans b)
      have h8 : unitEi ((lo - xi - m) / s) ≤ 1 / 2 := by norm_num at h6 ⊢; linarith
      nlinarith
    · linarith [a.trans b]
  · intro m s a b c d
    have h5 : (k * s + ((hi - m) - (m - lo)) / 2) ^ 2 ≤ (1 + k ^ 2) * ((hi - lo) / 2) ^ 2 := by
      nlinarith [sq_nonneg (s - k * (((hi - m) - (m - lo)) / 2)), mul_nonneg (sq_nonneg k) (sub_nonneg.2 d)]
    have h6 : k * s + ((hi - m) - (m - lo)) / 2 ≤ √(1 + k ^ 2) * ((hi - lo) / 2) := by
      apply le_of_sq_le_sq _ (by have := a.trans b; have := Real.sqrt_nonneg (1 + k ^ 2); nlinarith)
      rw [mul_pow, Real.sq_sqrt (by positivity)]
      exact h5
    linarith

example : GrownForest grownStumps [1, 3, 5] ∧ grownStumps.minVariance = 0 ∧ ∀ y ∈ [(1 : ℝ), 3, 5], 1 ≤ y ∧ y ≤ 5 :=
  ⟨grownStumps_grown, rfl, by intro y hy; simp at hy; rcases hy with rfl | rfl | rfl <;> norm_num⟩

end Skopt

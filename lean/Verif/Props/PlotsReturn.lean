import Verif.Props.PairPlots

/-!
# C73, C78: partial dependence and its plots return

The other theorems about the plots say what is drawn if they return; these say that they do, and over which axis.
-/

namespace Skopt

/-! ## Specification -/

/-- The axis of a dimension with `n` points: numbers from the lower to the upper bound in equal steps, or the indices of
categories, in ascending order from the first to the last, all of them if there are at most `n`. -/
def AxisOf (n : Nat) : Dim ℝ → List ℝ → Prop
  | .real r, xs => xs.length = n ∧ ∀ (k : Nat) x, xs[k]? = some x → x = r.low + k * ((r.high - r.low) / ((n : ℝ) - 1))
  | .int r, xs => xs.length = n ∧ ∀ (k : Nat) x, xs[k]? = some x → x = r.low + k * ((r.high - r.low) / ((n : ℝ) - 1))
  | .cat c, xs => ∃ ks : List Nat, xs = ks.map (fun k : Nat => (k : ℝ)) ∧ ks.length = min c.cats.length n ∧
      ks.Pairwise (· < ·) ∧ (∀ k ∈ ks, k < c.cats.length) ∧ (0 < n → ks.head? = some 0) ∧
      (2 ≤ min c.cats.length n → ks.getLast? = some (c.cats.length - 1))

/-- The model answers every batch of encoded points whose coordinates are within the dimensions. -/
def AnswersWithin (dims : List (Dim ℝ)) (predict : List (List (Val ℝ)) → Except PyErr (List ℝ)) : Prop :=
  ∀ Q R, Q ≠ [] → (∀ p ∈ Q, List.Forall₂ Within dims p) →
    List.Forall₂ (fun p r => Space.transform exact dims [p] = .ok [r]) Q R → ∃ ys, predict R = .ok ys

/-! ## Helpers -/

theorem normalize_int_within {lo hi : ℤ} (hlt : lo < hi) {xs : List ℝ}
    (hx : ∀ x ∈ xs, (lo : ℝ) ≤ x ∧ x ≤ (hi : ℝ)) :
    ∃ Y, Normalize.transform exact ⟨(lo : ℝ), (hi : ℝ), true⟩ xs = .ok Y := by
  unfold Normalize.transform
  simp only [exact, Bool.true_and, Bool.not_true, Bool.false_and, Bool.false_eq_true, if_false,
    Int.cast_zero, if_true]
  have hlt' : (lo : ℝ) < hi := by exact_mod_cast hlt
  rw [if_neg, if_neg, if_neg]
  · exact ⟨_, rfl⟩
  · intro h; linarith
  · refine any_false fun x hxm => not_lt.2 ?_
    have := exact_orderly.round_mono (hx x hxm).1
    simp only [exact, roundHalfEven_intCast] at this
    exact_mod_cast this
  · refine any_false fun x hxm => not_lt.2 ?_
    have := exact_orderly.round_mono (hx x hxm).2
    simp only [exact, roundHalfEven_intCast] at this
    exact_mod_cast this

/-- A valid dimension encodes whatever is between its bounds. -/
theorem Dim.transform_within_ok {d : Dim ℝ} (hv : ValidDim exact d) (hi : Invertible (0 : ℝ) 1 d) {col : List (Val ℝ)}
    (h : ∀ v ∈ col, Within d v) : ∃ rows, d.transform exact col = .ok rows := by
  have fin : ∀ (ss : List (Stage ℝ)) (xs : List (Val ℝ)), (∃ Y, pipelineTransform exact ss xs = .ok Y) →
      ∃ rows, (Transformer.pipeline ss).transform exact xs = .ok rows := by
    rintro ss xs ⟨Y, hY⟩
    exact ⟨Y.map fun v => [v], by simp only [Transformer.transform, hY, ok_bind]⟩
  cases d with
  | cat c =>
    obtain ⟨b, hb, -⟩ := Dim.cat_rt hv hi h
    exact ⟨b, hb⟩
  | real r =>
    obtain ⟨hlt, hk, -⟩ := hv
    obtain ⟨xs, rfl, hxs⟩ : ∃ xs : List ℝ, col = xs.map .num ∧ ∀ x ∈ xs, r.low ≤ x ∧ x ≤ r.high :=
      map_num_of_forall fun v hv => h v hv
    simp only [Dim.transform, Dim.transformer, ok_bind]
    unfold RealDim.transformer
    simp only [exact_lg]
    simp only [Invertible] at hi
    rcases hk with hk | hk <;> cases hp : r.prior <;> simp only [hk] <;> apply fin
    · exact (num_pipeline_rt (Or.inl rfl)).imp fun _ h => h.1
    · exact (num_pipeline_rt (Or.inr (Or.inl ⟨_, rfl, (hi hp).2,
        fun x hx => lt_of_lt_of_le (hi hp).1 (hxs x hx).1⟩))).imp fun _ h => h.1
    · exact (num_pipeline_rt (Or.inr (Or.inr (Or.inl ⟨_, _, rfl, hlt, hxs⟩)))).imp fun _ h => h.1
    · exact (num_pipeline_rt (Or.inr (Or.inr (Or.inr ⟨_, _, _, rfl, (hi hp).2, (hi hp).1, hlt, hxs⟩)))).imp fun _ h => h.1
  | int r =>
    obtain ⟨l, u, hlu, hlow, hhigh, _, _, hk, -⟩ := hv
    have hlow' : r.low = (l : ℝ) := hlow
    have hhigh' : r.high = (u : ℝ) := hhigh
    have hlt : r.low < r.high := by rw [hlow', hhigh']; exact_mod_cast hlu
    obtain ⟨xs, rfl, hxs⟩ : ∃ xs : List ℝ, col = xs.map .num ∧ ∀ x ∈ xs, r.low ≤ x ∧ x ≤ r.high :=
      map_num_of_forall fun v hv => h v hv
    simp only [Dim.transform, Dim.transformer, ok_bind]
    unfold IntDim.transformer
    simp only [exact_lg]
    simp only [Invertible] at hi
    rcases hk with hk | hk <;> cases hp : r.prior <;> simp only [hk] <;> apply fin
    · exact (num_pipeline_rt (Or.inl rfl)).imp fun _ h => h.1
    · exact (num_pipeline_rt (Or.inr (Or.inl ⟨_, rfl, (hi hp).2,
        fun x hx => lt_of_lt_of_le (hi hp).1 (hxs x hx).1⟩))).imp fun _ h => h.1
    · rw [hlow', hhigh'] at hxs ⊢
      obtain ⟨Y, hY⟩ := normalize_int_within hlu hxs
      exact ⟨Y.map .num, by simp only [pipelineTransform, Stage.transform, mapE_toNum_map, ok_bind, hY]⟩
    · exact (num_pipeline_rt (Or.inr (Or.inr (Or.inr ⟨_, _, _, rfl, (hi hp).2, (hi hp).1, hlt, hxs⟩)))).imp fun _ h => h.1

theorem linspaceReal_axis (lo hi : ℝ) (n : Nat) : (linspaceReal lo hi n).length = n ∧
    ∀ (k : Nat) x, (linspaceReal lo hi n)[k]? = some x → x = lo + k * ((hi - lo) / ((n : ℝ) - 1)) := by
  unfold linspaceReal
  split
  · rename_i h1
    subst h1
    refine ⟨rfl, fun k x hx => ?_⟩
    obtain ⟨h2, h3⟩ := List.getElem?_eq_some_iff.1 hx
    have : k = 0 := by simpa using h2
    subst this
    simpa using h3.symm
  · refine ⟨by simp, fun k x hx => ?_⟩
    rw [List.getElem?_map, Option.map_eq_some_iff] at hx
    obtain ⟨j, hj, rfl⟩ := hx
    obtain ⟨h2, h3⟩ := List.getElem?_eq_some_iff.1 hj
    rw [List.getElem_range] at h3
    rw [h3]

theorem evenlySample_ok {d : Dim ℝ} (hv : ValidDim exact d) (hi : Invertible (0 : ℝ) 1 d) (n : Nat) :
    ∃ xs rows, evenlySample d n = .ok (xs, rows) ∧ AxisOf n d xs := by
  cases d with
  | real r =>
    obtain ⟨rows, hr⟩ := Dim.transform_within_ok hv hi (col := (linspaceReal r.low r.high n).map .num) (by
      intro v hvm
      obtain ⟨x, hx, rfl⟩ := List.mem_map.1 hvm
      exact ⟨x, rfl, linspaceReal_mem hv.1.le n x hx⟩)
    exact ⟨linspaceReal r.low r.high n, rows, by simp only [evenlySample, hr, ok_bind], linspaceReal_axis _ _ _⟩
  | int r =>
    have hle : r.low ≤ r.high := by
      obtain ⟨l, u, hlu, e1, e2, -⟩ := hv
      rw [e1, e2]
      show (l : ℝ) ≤ (u : ℝ)
      exact_mod_cast hlu.le
    obtain ⟨rows, hr⟩ := Dim.transform_within_ok hv hi (col := (linspaceReal r.low r.high n).map .num) (by
      intro v hvm
      obtain ⟨x, hx, rfl⟩ := List.mem_map.1 hvm
      exact ⟨x, rfl, linspaceReal_mem hle n x hx⟩)
    exact ⟨linspaceReal r.low r.high n, rows, by simp only [evenlySample, hr, ok_bind], linspaceReal_axis _ _ _⟩
  | cat c =>
    have hne : c.cats ≠ [] := hv.1
    have hm : 0 < c.cats.length := List.length_pos_iff.2 hne
    have hlt : ∀ k ∈ evenlySampleCat c.cats.length n, k < c.cats.length := by
      rcases Nat.eq_zero_or_pos n with rfl | hn
      · simp [evenlySampleCat, linspaceInt]
      · exact (C71_evenly_sample_categories c.cats.length n hm hn).2.2.1
    obtain ⟨vs, hvs⟩ : ∃ vs, mapE (fun k => pyGet c.cats k) (evenlySampleCat c.cats.length n) = .ok vs :=
      ⟨_, mapE_ok_of_forall (g := fun k => (c.cats[k]?).getD (c.cats.head hne)) fun k hk => by
        rw [pyGet_lt (hlt k hk), List.getElem?_eq_getElem (hlt k hk), Option.getD_some]⟩
    obtain ⟨rows, hr⟩ := Dim.transform_within_ok hv hi (col := vs) (by
      intro v hvm
      obtain ⟨k, -, hk⟩ := forall₂_mem_right (mapE_eq_ok.1 hvs) hvm
      exact pyGet_mem hk)
    refine ⟨(evenlySampleCat c.cats.length n).map fun k : Nat => (k : ℝ), rows,
      by simp only [evenlySample, List.isEmpty_iff, hne, if_false, hvs, hr, ok_bind], _, rfl, ?_⟩
    rcases Nat.eq_zero_or_pos n with rfl | hn
    · simp [evenlySampleCat, linspaceInt]
    · obtain ⟨h1, h2, h3, h4, h5, -⟩ := C71_evenly_sample_categories c.cats.length n hm hn
      exact ⟨h1, h2, h3, fun _ => h4, h5⟩

theorem pyGetI_loc_ok {dims : List (Dim ℝ)} {i : Nat} (hi : i ≤ dims.length) :
    pyGetI (dimLocs dims) (i : ℤ) = .ok ((dims.map Dim.transformedSize).take i).sum := by
  rw [pyGetI_nat]
  unfold dimLocs
  rw [scanl_get _ 0 i (by simpa using hi), Nat.zero_add]

theorem replace_rows_ok {dims : List (Dim ℝ)} (hv : ∀ d ∈ dims, ValidDim exact d) (hs : ∀ d ∈ dims, YieldsNoStr d)
    {P : List (Point ℝ)} (hP : ∀ p ∈ P, List.Forall₂ Within dims p) {S : List (List (Val ℝ))}
    (hS : List.Forall₂ (fun p r => Space.transform exact dims [p] = .ok [r]) P S)
    {i : Nat} {d : Dim ℝ} (hd : dims[i]? = some d) {v : Val ℝ}
    (hw : Within d v) {t : List (Val ℝ)} (ht : d.transform exact [v] = .ok [t]) :
    ∃ rows, mapE (assignSlice ((dims.map Dim.transformedSize).take i).sum
      ((dims.map Dim.transformedSize).take (i + 1)).sum t) S = .ok rows := by
  induction hS with
  | nil => exact ⟨[], rfl⟩
  | @cons p r ps rs h1 _ ih =>
    obtain ⟨r', e1, -⟩ := replace_row hv hs (hP p List.mem_cons_self) h1 hd hw ht
    obtain ⟨rows, e2⟩ := ih fun p hp => hP p (List.mem_cons_of_mem _ hp)
    exact ⟨r' :: rows, mapE_cons_ok.2 ⟨r', rows, e1, e2, rfl⟩⟩

theorem mapE_ok_of_exists {α β : Type} {f : α → Except PyErr β} {xs : List α} (h : ∀ x ∈ xs, ∃ y, f x = .ok y) :
    ∃ ys, mapE f xs = .ok ys := by
  induction xs with
  | nil => exact ⟨[], rfl⟩
  | cons x xs ih =>
    obtain ⟨y, hy⟩ := h x List.mem_cons_self
    obtain ⟨ys, hys⟩ := ih fun x hx => h x (List.mem_cons_of_mem _ hx)
    exact ⟨y :: ys, mapE_cons_ok.2 ⟨y, ys, hy, hys, rfl⟩⟩

/-! ## C73 -/

/-- **C73 (it returns).** For every space with an invertible encoding, every list of sample points and every model that
answers within the dimensions, `partial_dependence_1D` returns: the axis of the dimension, and above each axis value the
mean prediction with that coordinate replaced. -/
theorem C73_returns_1D_partial (dims : List (Dim ℝ)) (hv : ∀ d ∈ dims, ValidDim exact d)
    (hi : ∀ d ∈ dims, Invertible (0 : ℝ) 1 d)
    (hs : ∀ d ∈ dims, YieldsNoStr d) (predict : List (List (Val ℝ)) → Except PyErr (List ℝ))
    (hpr : PdRowwise predict) (hpa : AnswersWithin dims predict) (P : List (Point ℝ)) (hne : P ≠ [])
    (hP : ∀ p ∈ P, InSpace exact dims p)
    (S : List (List (Val ℝ))) (hS : Space.transform exact dims P = .ok S) (i n : Nat) (d : Dim ℝ)
    (hd : dims[i]? = some d) :
    ∃ xi yi, partialDependence1D dims predict i false S n = .ok (xi, yi) ∧ AxisOf n d xi ∧
      List.Forall₂ (fun x y => ∃ v, AxisValue d x v ∧ Within d v ∧
        MeanOver dims predict P (fun p => p.set i v) y) xi yi := by
  have hdne : dims ≠ [] := by rintro rfl; simp at hd
  have hlt : i < dims.length := (List.getElem?_eq_some_iff.1 hd).1
  have hdm := List.mem_of_getElem? hd
  obtain ⟨xs, rows, hg, hax⟩ := evenlySample_ok (hv d hdm) (hi d hdm) n
  have hgr := evenlySample_spec (hv d hdm) hg
  have hS' := (C67_transform_pointwise_partial exact dims hdne hv (Or.inl hs) P hne hP S).1 hS
  have hPw : ∀ p ∈ P, List.Forall₂ Within dims p := fun p hp => within_of_inSpace (hP p hp)
  obtain ⟨ys, hys⟩ : ∃ ys, mapE (pdCalc1 predict false S ((dims.map Dim.transformedSize).take i).sum
      ((dims.map Dim.transformedSize).take (i + 1)).sum) rows = .ok ys := by
    refine mapE_ok_of_exists fun t ht => ?_
    obtain ⟨x, -, v, -, hw, htv⟩ := forall₂_mem_right hgr ht
    obtain ⟨rs, hrs⟩ := replace_rows_ok hv hs hPw hS' hd hw htv
    obtain ⟨e1, e2⟩ := replace_rows hv hs hPw hS' hd hw htv hrs
    obtain ⟨vs, hvs⟩ := hpa _ _ (by simpa using hne) e2 e1
    exact ⟨meanReal vs, by simp only [pdCalc1, stored, Bool.false_eq_true, if_false, hrs, ok_bind, hvs]⟩
  have h : partialDependence1D dims predict i false S n = .ok (xs, ys) := by
    have e : pyGetI (dimLocs dims) ((i : ℤ) + 1) = .ok ((dims.map Dim.transformedSize).take (i + 1)).sum := by
      exact_mod_cast pyGetI_loc_ok (dims := dims) (i := i + 1) hlt
    simp only [partialDependence1D, pyGetI_nat.2 hd, ok_bind, hg, pyGetI_loc_ok hlt.le, e, hys]
  exact ⟨xs, ys, h, hax, C73_partial_dependence_1D_partial dims hv hs predict hpr P hne hP S hS i n d hd xs ys h⟩

/-- **C73 (it returns, two dimensions).** -/
theorem C73_returns_2D_partial (dims : List (Dim ℝ)) (hv : ∀ d ∈ dims, ValidDim exact d)
    (hi : ∀ d ∈ dims, Invertible (0 : ℝ) 1 d)
    (hs : ∀ d ∈ dims, YieldsNoStr d) (predict : List (List (Val ℝ)) → Except PyErr (List ℝ))
    (hpr : PdRowwise predict) (hpa : AnswersWithin dims predict) (P : List (Point ℝ)) (hne : P ≠ [])
    (hP : ∀ p ∈ P, InSpace exact dims p)
    (S : List (List (Val ℝ))) (hS : Space.transform exact dims P = .ok S) (i j n : Nat) (di dj : Dim ℝ)
    (hdi : dims[i]? = some di) (hdj : dims[j]? = some dj) :
    ∃ xi yi zi, partialDependence2D dims predict i j false S n = .ok (xi, yi, zi) ∧ AxisOf n dj xi ∧ AxisOf n di yi ∧
      List.Forall₂ (fun y zs => ∃ w, AxisValue di y w ∧ Within di w ∧
        List.Forall₂ (fun x z => ∃ v, AxisValue dj x v ∧ Within dj v ∧
          MeanOver dims predict P (fun p => (p.set j v).set i w) z) xi zs) yi zi := by
  have hdne : dims ≠ [] := by rintro rfl; simp at hdi
  have hlti : i < dims.length := (List.getElem?_eq_some_iff.1 hdi).1
  have hltj : j < dims.length := (List.getElem?_eq_some_iff.1 hdj).1
  have hmi := List.mem_of_getElem? hdi
  have hmj := List.mem_of_getElem? hdj
  obtain ⟨xs, rowsx, hgx, haxx⟩ := evenlySample_ok (hv dj hmj) (hi dj hmj) n
  obtain ⟨ys, rowsy, hgy, haxy⟩ := evenlySample_ok (hv di hmi) (hi di hmi) n
  have hgx' := evenlySample_spec (hv dj hmj) hgx
  have hgy' := evenlySample_spec (hv di hmi) hgy
  have hS' := (C67_transform_pointwise_partial exact dims hdne hv (Or.inl hs) P hne hP S).1 hS
  have hPw : ∀ p ∈ P, List.Forall₂ Within dims p := fun p hp => within_of_inSpace (hP p hp)
  obtain ⟨zs, hzs⟩ : ∃ zs, mapE (fun y => mapE (fun x => pdCalc2 predict false S
      ((dims.map Dim.transformedSize).take i).sum ((dims.map Dim.transformedSize).take (i + 1)).sum
      ((dims.map Dim.transformedSize).take j).sum ((dims.map Dim.transformedSize).take (j + 1)).sum x y) rowsx) rowsy =
        .ok zs := by
    refine mapE_ok_of_exists fun u hu => mapE_ok_of_exists fun t ht => ?_
    obtain ⟨y, -, w, -, hw, htw⟩ := forall₂_mem_right hgy' hu
    obtain ⟨x, -, v, -, hw', htv⟩ := forall₂_mem_right hgx' ht
    obtain ⟨rs, hrs⟩ := replace_rows_ok hv hs hPw hS' hdj hw' htv
    obtain ⟨e1, e2⟩ := replace_rows hv hs hPw hS' hdj hw' htv hrs
    obtain ⟨rs', hrs'⟩ := replace_rows_ok hv hs e2 e1 hdi hw htw
    obtain ⟨e3, e4⟩ := replace_rows hv hs e2 e1 hdi hw htw hrs'
    obtain ⟨vs, hvs⟩ := hpa _ _ (by simpa using hne) e4 e3
    exact ⟨meanReal vs, by simp only [pdCalc2, stored, Bool.false_eq_true, if_false, hrs, hrs', ok_bind, hvs]⟩
  have h : partialDependence2D dims predict i j false S n = .ok (xs, ys, zs) := by
    have e : pyGetI (dimLocs dims) ((i : ℤ) + 1) = .ok ((dims.map Dim.transformedSize).take (i + 1)).sum := by
      exact_mod_cast pyGetI_loc_ok (dims := dims) (i := i + 1) hlti
    have e' : pyGetI (dimLocs dims) ((j : ℤ) + 1) = .ok ((dims.map Dim.transformedSize).take (j + 1)).sum := by
      exact_mod_cast pyGetI_loc_ok (dims := dims) (i := j + 1) hltj
    simp only [partialDependence2D, pyGetI_nat.2 hdi, pyGetI_nat.2 hdj, ok_bind, hgx, hgy, pyGetI_loc_ok hlti.le,
      pyGetI_loc_ok hltj.le, e, e', hzs]
  exact ⟨xs, ys, zs, h, haxx, haxy,
    C73_partial_dependence_2D_partial dims hv hs predict hpr P hne hP S hS i j n di dj hdi hdj xs ys zs h⟩

/-! ## C78 -/

/-- **C78 (`plot_objective` returns).** With at least one dimension to show, as many labels as dimensions (if any are
given) and points that can be drawn, `plot_objective` raises `ValueError` for a `zscale` other than `"log"` and
`"linear"`, and otherwise returns the panels and formats described by `C78_plot_objective_partial`. -/
theorem C78_plot_objective_returns_partial (dims : List (Dim ℝ)) (hv : ∀ d ∈ dims, ValidDim exact d)
    (hi : ∀ d ∈ dims, Invertible (0 : ℝ) 1 d)
    (hs : ∀ d ∈ dims, YieldsNoStr d) (predict : List (List (Val ℝ)) → Except PyErr (List ℝ))
    (hpr : PdRowwise predict) (hpa : AnswersWithin dims predict) (P : List (Point ℝ)) (hPne : P ≠ [])
    (hP : ∀ p ∈ P, InSpace exact dims p)
    (S : List (List (Val ℝ))) (hS : Space.transform exact dims P = .ok S) (points : List (Point ℝ)) (marked : Point ℝ)
    (hp : ∀ p ∈ points, List.Forall₂ Showable dims p) (hb : List.Forall₂ Showable dims marked) (nPoints : Nat)
    (z : ZScale) (labels : Option (List String)) (sel : Option (List Space.Key)) (chosen : List (Nat × Dim ℝ))
    (hsel : Selected dims sel chosen) (hcne : chosen ≠ []) (hlab : ∀ ls, labels = some ls → ls.length = chosen.length) :
    (z = .other → plotObjective dims predict points marked false S nPoints z labels sel = .error .valueError) ∧
    (z ≠ .other → ∃ panels fmts,
      plotObjective dims predict points marked false S nPoints z labels sel = .ok (panels, fmts) ∧
      PanelsMeet chosen.length (ShowsObjective dims predict P points marked chosen) panels ∧
      PanelsMeet chosen.length (FormattedFor chosen.length chosen labels "Partial dependence") fmts) := by
  obtain ⟨pts, mn, iscat, h1, h2, h3, h4, h5, h6, h7⟩ := C71_map_categories exact dims points marked hp hb
  have hcl : checkLabels chosen.length labels = .ok () := by
    unfold checkLabels
    cases labels with
    | none => rfl
    | some ls => simp [hlab ls rfl]
  have hcp : checkPanels chosen.length = .ok () := by
    simp [checkPanels, hcne]
  have hmn : ∀ {i : Nat} {d : Dim ℝ}, dims[i]? = some d → ∃ x, pyGet mn i = .ok x := by
    intro i d hd
    have hlt := (List.getElem?_eq_some_iff.1 hd).1
    exact ⟨mn[i]'(by omega), pyGet_lt _⟩
  obtain ⟨panels, hpan, -⟩ : ∃ m, panelMatrix chosen.length (objPanel dims predict false S nPoints pts mn chosen) = .ok m ∧
      PanelsMeet chosen.length (fun _ _ _ => True) m := by
    refine panelMatrix_ok fun r hr c hc => ?_
    have hdr : dims[chosen[r].1]? = some chosen[r].2 := selected_get hsel (List.getElem?_eq_getElem hr)
    have hdc : dims[chosen[c].1]? = some chosen[c].2 := selected_get hsel (List.getElem?_eq_getElem hc)
    unfold objPanel
    split
    · obtain ⟨xi, yi, e1, -⟩ := C73_returns_1D_partial dims hv hi hs predict hpr hpa P hPne hP S hS chosen[r].1 nPoints
        chosen[r].2 hdr
      obtain ⟨x, e2⟩ := hmn hdr
      exact ⟨.curve xi yi x, by simp only [pyGet_lt hr, ok_bind, e1, e2], trivial⟩
    · split
      · obtain ⟨xi, yi, zi, e1, -⟩ := C73_returns_2D_partial dims hv hi hs predict hpr hpa P hPne hP S hS chosen[r].1
          chosen[c].1 nPoints chosen[r].2 chosen[c].2 hdr hdc
        obtain ⟨x, e2⟩ := hmn hdr
        obtain ⟨y, e3⟩ := hmn hdc
        obtain ⟨a, e4, -⟩ := column_ok hp h2 h3 hdr
        obtain ⟨b, e5, -⟩ := column_ok hp h2 h3 hdc
        exact ⟨.contour xi yi zi (b, a) (y, x), by simp only [pyGet_lt hr, pyGet_lt hc, ok_bind, e1, e2, e3, e4, e5],
          trivial⟩
      · exact ⟨.empty, rfl, trivial⟩
  obtain ⟨fmts, hfm, -⟩ := panelMatrix_ok (n := chosen.length)
      (f := formatPanel chosen.length chosen (panelLabels chosen labels) "Partial dependence")
      (P := FormattedFor chosen.length chosen labels "Partial dependence")
      (fun r hr c hc => formatPanel_ok hlab hr hc)
  constructor
  · rintro rfl
    unfold plotObjective
    simp only [pairDims_selected hsel, List.length_map, h1, ok_bind, hcl, if_true]
  · intro hz
    have h : plotObjective dims predict points marked false S nPoints z labels sel = .ok (panels, fmts) := by
      unfold plotObjective
      simp only [pairDims_selected hsel, List.length_map, h1, ok_bind, hcl, hz, if_false, hcp, chosenDims_map, hpan, hfm]
    exact ⟨panels, fmts, h, C78_plot_objective_partial dims hv hs predict hpr P hPne hP S hS points marked hp hb nPoints z
      labels sel chosen hsel panels fmts h⟩

/-- Non-vacuity of the theorems of this file: two `Real` dimensions, one of them with a log-uniform prior, normalized. -/
noncomputable def prDims : List (Dim ℝ) :=
  [.real ⟨0, 2, .uniform, 10, .identity, none, id⟩, .real ⟨1, 4, .logUniform, 10, .normalize, none, id⟩]

theorem prDims_valid : ∀ d ∈ prDims, ValidDim exact d := by
  intro d hd
  simp only [prDims, List.mem_cons, List.not_mem_nil, or_false] at hd
  rcases hd with rfl | rfl
  · exact ⟨by norm_num, Or.inl rfl, fun x h1 h2 => ⟨h1, h2⟩⟩
  · exact ⟨by norm_num, Or.inr rfl, fun x h1 h2 => ⟨h1, h2⟩⟩

theorem prDims_invertible : ∀ d ∈ prDims, Invertible (0 : ℝ) 1 d := by
  intro d hd
  simp only [prDims, List.mem_cons, List.not_mem_nil, or_false] at hd
  rcases hd with rfl | rfl
  · intro h; cases h
  · exact fun _ => ⟨by norm_num, by norm_num⟩

theorem prDims_numeric : ∀ d ∈ prDims, YieldsNoStr d := by
  intro d hd
  simp only [prDims, List.mem_cons, List.not_mem_nil, or_false] at hd
  rcases hd with rfl | rfl <;> trivial

theorem prPoint_in : ∀ p ∈ [([.num 1, .num 3] : Point ℝ)], InSpace exact prDims p := by
  intro p hp
  simp only [List.mem_singleton] at hp
  subst hp
  exact .cons ⟨1, rfl, by norm_num, by norm_num⟩ (.cons ⟨3, rfl, by norm_num, by norm_num⟩ .nil)

theorem prPoint_transformed : ∃ S, Space.transform exact prDims [[.num 1, .num 3]] = .ok S := by
  obtain ⟨S, hS, -⟩ := C02_round_trip_partial prDims (by simp [prDims]) prDims_valid prDims_invertible
    (Or.inl prDims_numeric) [[.num 1, .num 3]] (by simp) prPoint_in
    (by
      intro p hp
      simp only [List.mem_singleton] at hp
      subst hp
      exact .cons rfl (.cons rfl .nil))
  exact ⟨S, hS⟩

theorem prModel_rowwise : PdRowwise fun X => .ok (X.map fun _ => 7) := by
  intro X ys h
  cases h
  rw [List.forall₂_map_right_iff, List.forall₂_same]
  exact fun _ _ => rfl

/-- The curve of one dimension (`C73_returns_1D_partial`). -/
example : ∃ S, Space.transform exact prDims [[.num 1, .num 3]] = .ok S ∧
    ∃ xi yi, partialDependence1D prDims (fun X => .ok (X.map fun _ => 7)) (1 : Nat) false S 5 = .ok (xi, yi) ∧
      xi.length = 5 := by
  obtain ⟨S, hS⟩ := prPoint_transformed
  obtain ⟨xi, yi, h1, h2, -⟩ := C73_returns_1D_partial prDims prDims_valid prDims_invertible prDims_numeric _
    prModel_rowwise (fun Q R _ _ _ => ⟨_, rfl⟩) _ (by simp) prPoint_in S hS 1 5 _ rfl
  exact ⟨S, hS, xi, yi, h1, h2.1⟩

/-- The surface over both dimensions (`C73_returns_2D_partial`). -/
example : ∃ S, Space.transform exact prDims [[.num 1, .num 3]] = .ok S ∧
    ∃ xi yi zi, partialDependence2D prDims (fun X => .ok (X.map fun _ => 7)) (1 : Nat) (0 : Nat) false S 5 =
      .ok (xi, yi, zi) ∧ xi.length = 5 := by
  obtain ⟨S, hS⟩ := prPoint_transformed
  obtain ⟨xi, yi, zi, h1, h2, -⟩ := C73_returns_2D_partial prDims prDims_valid prDims_invertible prDims_numeric _
    prModel_rowwise (fun Q R _ _ _ => ⟨_, rfl⟩) _ (by simp) prPoint_in S hS 1 0 5 _ _ rfl rfl
  exact ⟨S, hS, xi, yi, zi, h1, h2.1⟩

/-- The whole figure of both dimensions, with one evaluated point (`C78_plot_objective_returns_partial`). -/
example : ∃ S, Space.transform exact prDims [[.num 1, .num 3]] = .ok S ∧
    ∃ panels fmts, plotObjective prDims (fun X => .ok (X.map fun _ => 7)) [[.num 1, .num 3]] [.num 1, .num 3] false S 5
      .linear none (some [.index 0, .index 1]) = .ok (panels, fmts) := by
  obtain ⟨S, hS⟩ := prPoint_transformed
  have hshow : List.Forall₂ Showable prDims [.num 1, .num 3] := .cons ⟨1, rfl⟩ (.cons ⟨3, rfl⟩ .nil)
  obtain ⟨panels, fmts, h, -⟩ := (C78_plot_objective_returns_partial prDims prDims_valid prDims_invertible prDims_numeric _
    prModel_rowwise (fun Q R _ _ _ => ⟨_, rfl⟩) _ (by simp) prPoint_in S hS [[.num 1, .num 3]] [.num 1, .num 3]
    (by simpa using hshow) hshow 5 .linear none (some [.index 0, .index 1]) [(0, _), (1, _)]
    (.cons ⟨rfl, rfl⟩ (.cons ⟨rfl, rfl⟩ .nil)) (by simp) (by simp)).2 (by simp)
  exact ⟨S, hS, panels, fmts, h⟩

end Skopt

import Verif.Model.PartialDependence
import Verif.Lemmas.OnePoint
import Verif.Props.Plots
import Verif.Props.Pointwise

/-!
# C73: partial dependence
-/

namespace Skopt

/-! ## Specification -/

/-- The surrogate predicts `v` at the point `p` of the space. -/
def PdAt (dims : List (Dim ℝ)) (predict : List (List (Val ℝ)) → Except PyErr (List ℝ)) (p : Point ℝ) (v : ℝ) : Prop :=
  ∃ r, Space.transform exact dims [p] = .ok [r] ∧ predict [r] = .ok [v]

/-- The predictions of a batch are the predictions of its rows. -/
def PdRowwise (predict : List (List (Val ℝ)) → Except PyErr (List ℝ)) : Prop :=
  ∀ X ys, predict X = .ok ys → List.Forall₂ (fun r y => predict [r] = .ok [y]) X ys

/-- What a number on the axis of a dimension stands for: itself, or the category of that index. -/
def AxisValue : Dim ℝ → ℝ → Val ℝ → Prop
  | .cat c, x, v => ∃ k : Nat, x = k ∧ c.cats[k]? = some v
  | _, x, v => v = .num x

/-- `y` is the mean of the model's predictions over the points of `P`, changed by `change`. -/
def MeanOver (dims : List (Dim ℝ)) (predict : List (List (Val ℝ)) → Except PyErr (List ℝ)) (P : List (Point ℝ))
    (change : Point ℝ → Point ℝ) (y : ℝ) : Prop :=
  ∃ vs, List.Forall₂ (fun p v => PdAt dims predict (change p) v) P vs ∧ y = vs.sum / (P.length : ℝ)

/-! ## Helpers -/

theorem pyGetI_nat {α : Type} {xs : List α} {i : Nat} {a : α} : pyGetI xs (i : ℤ) = .ok a ↔ xs[i]? = some a := by
  unfold pyGetI
  rw [if_pos (by omega), Int.toNat_natCast, pyGet_eq_ok]

theorem scanl_get (ns : List Nat) (s k : Nat) (hk : k ≤ ns.length) :
    (ns.scanl (· + ·) s)[k]? = some (s + (ns.take k).sum) := by
  induction ns generalizing s k with
  | nil => simp at hk; subst hk; simp
  | cons n ns ih =>
    cases k with
    | zero => simp
    | succ k =>
      rw [List.scanl_cons, List.getElem?_cons_succ, ih (s + n) k (by simpa using hk)]
      simp [Nat.add_assoc]

theorem assignSlice_parts {α : Type} {parts : List (List α)} {i : Nat} {t : List α} (hi : i < parts.length)
    (ht : t.length = parts[i].length) :
    assignSlice ((parts.take i).map List.length).sum ((parts.take (i + 1)).map List.length).sum t parts.flatten =
      .ok (parts.set i t).flatten := by
  have e0 : parts.take (i + 1) = parts.take i ++ [parts[i]] := (List.take_append_getElem hi).symm
  have e1 : parts.flatten = (parts.take i).flatten ++ (parts[i] ++ (parts.drop (i + 1)).flatten) := by
    conv_lhs => rw [← List.take_append_drop i parts]
    rw [List.flatten_append, List.drop_eq_getElem_cons hi, List.flatten_cons]
  have e2 : (parts.set i t).flatten = (parts.take i).flatten ++ (t ++ (parts.drop (i + 1)).flatten) := by
    rw [List.set_eq_take_append_cons_drop, if_pos hi, List.flatten_append, List.flatten_cons]
  have l1 : ((parts.take i).map List.length).sum = (parts.take i).flatten.length := by
    rw [List.length_flatten]
  have l2 : ((parts.take (i + 1)).map List.length).sum = (parts.take i).flatten.length + parts[i].length := by
    rw [e0, List.map_append, List.sum_append, ← l1]; simp
  unfold assignSlice
  rw [l1, l2, e1, e2]
  simp only [List.length_append]
  rw [if_pos (by omega)]
  congr 1
  rw [List.take_left, Nat.max_eq_right (by omega), ← List.append_assoc (List.take i parts).flatten parts[i],
    List.drop_left' (by simp), List.append_assoc]

theorem within_set {dims : List (Dim ℝ)} {p : Point ℝ} (hp : List.Forall₂ Within dims p) {i : Nat} {d : Dim ℝ}
    (hd : dims[i]? = some d) {v : Val ℝ} (hv : Within d v) : List.Forall₂ Within dims (p.set i v) := by
  rw [List.forall₂_iff_get] at hp ⊢
  refine ⟨by simpa using hp.1, fun k h1 h2 => ?_⟩
  simp only [List.get_eq_getElem, List.getElem_set] at hp ⊢
  by_cases hk : i = k
  · subst hk
    rw [List.getElem?_eq_getElem h1] at hd
    simp only [if_true]
    rw [Option.some.inj hd]; exact hv
  · simp only [hk, if_false]
    exact hp.2 k h1 (by simpa using h2)

/-- Overwriting the block of a dimension in an encoded point is encoding the point with that coordinate replaced. -/
theorem replace_row {dims : List (Dim ℝ)} (hv : ∀ d ∈ dims, ValidDim exact d) (hs : ∀ d ∈ dims, YieldsNoStr d)
    {p : Point ℝ} (hp : List.Forall₂ Within dims p) {r : List (Val ℝ)}
    (hr : Space.transform exact dims [p] = .ok [r]) {i : Nat} {d : Dim ℝ} (hd : dims[i]? = some d) {v : Val ℝ}
    (hw : Within d v) {t : List (Val ℝ)} (ht : d.transform exact [v] = .ok [t]) :
    ∃ r', assignSlice ((dims.map Dim.transformedSize).take i).sum ((dims.map Dim.transformedSize).take (i + 1)).sum t r =
        .ok r' ∧ Space.transform exact dims [p.set i v] = .ok [r'] := by
  have hne : dims ≠ [] := by rintro rfl; simp at hd
  obtain ⟨parts, h1, rfl⟩ := (transform_one_iff hne hv hs hp r).1 hr
  have hwd := h1.width hv hp.length_eq.symm
  have hlt : i < dims.length := (List.getElem?_eq_some_iff.1 hd).1
  have hlt' : i < parts.length := by
    have := congrArg List.length hwd
    simp only [List.length_map] at this
    omega
  have hlen : t.length = parts[i].length := by
    have e := congrArg (fun l => l[i]?) hwd
    simp only [List.getElem?_map, List.getElem?_eq_getElem hlt', hd, Option.map_some, Option.some.injEq] at e
    rw [e]
    exact (Dim.transform_shape (hv d (List.mem_of_getElem? hd)) ht).2 t (by simp)
  refine ⟨(parts.set i t).flatten, ?_, (transform_one_iff hne hv hs (within_set hp hd hw) _).2 ⟨_, h1.set hd ht, rfl⟩⟩
  rw [← hwd, ← List.map_take, ← List.map_take]
  exact assignSlice_parts hlt' hlen

theorem linspaceReal_mem {lo hi : ℝ} (h : lo ≤ hi) (n : Nat) : ∀ x ∈ linspaceReal lo hi n, lo ≤ x ∧ x ≤ hi := by
  rcases Nat.lt_or_ge n 2 with hn | hn
  · intro x hx
    unfold linspaceReal at hx
    split at hx
    · simp only [List.mem_singleton] at hx; subst hx; exact ⟨le_refl _, h⟩
    · have : n = 0 := by omega
      subst this
      simp at hx
  · exact (C71_evenly_sample_numbers lo hi h n hn).2.2.2.1

theorem elementwise_rows {d : Dim ℝ} (hd : ValidDim exact d) {vs : List (Val ℝ)} (hw : ∀ v ∈ vs, Within d v)
    {rows : List (List (Val ℝ))} (h : d.transform exact vs = .ok rows) :
    List.Forall₂ (fun v t => Within d v ∧ d.transform exact [v] = .ok [t]) vs rows := by
  obtain ⟨g, hg⟩ := Dim.transform_elementwise_within exact d hd
  have h1 := (hg vs hw rows).1 h
  rw [mapE_eq_ok] at h1
  have h2 : List.Forall₂ (fun v t => v ∈ vs ∧ g v = .ok t) vs rows := by
    rw [List.forall₂_iff_get] at h1 ⊢
    exact ⟨h1.1, fun i a b => ⟨List.get_mem _ _, h1.2 i a b⟩⟩
  exact h2.imp fun v t ⟨hm, hvt⟩ => ⟨hw v hm, (hg [v] (by simpa using hw v hm) [t]).2 (mapE_singleton.2 hvt)⟩

/-- What `_evenly_sample` returns: axis values inside the dimension with their encodings. -/
theorem evenlySample_spec {d : Dim ℝ} (hd : ValidDim exact d) {n : Nat} {xs : List ℝ} {rows : List (List (Val ℝ))}
    (h : evenlySample d n = .ok (xs, rows)) :
    List.Forall₂ (fun x t => ∃ v, AxisValue d x v ∧ Within d v ∧ d.transform exact [v] = .ok [t]) xs rows := by
  have numeric : ∀ lo hi : ℝ, lo ≤ hi → (∀ x, lo ≤ x → x ≤ hi → Within d (.num x)) →
      (∀ x, AxisValue d x (.num x)) → ∀ rows, d.transform exact ((linspaceReal lo hi n).map .num) = .ok rows →
      List.Forall₂ (fun x t => ∃ v, AxisValue d x v ∧ Within d v ∧ d.transform exact [v] = .ok [t])
        (linspaceReal lo hi n) rows := by
    intro lo hi hle hin hax rows hr
    have := elementwise_rows hd (by
      intro v hv
      obtain ⟨x, hx, rfl⟩ := List.mem_map.1 hv
      obtain ⟨h1, h2⟩ := linspaceReal_mem hle n x hx
      exact hin x h1 h2) hr
    rw [List.forall₂_map_left_iff] at this
    exact this.imp fun x t ⟨h1, h2⟩ => ⟨.num x, hax x, h1, h2⟩
  cases d with
  | real r =>
    simp only [evenlySample, bind_eq_ok, Except.ok.injEq, Prod.mk.injEq] at h
    obtain ⟨rs, hr, rfl, rfl⟩ := h
    exact numeric r.low r.high hd.1.le (fun x h1 h2 => ⟨x, rfl, h1, h2⟩) (fun _ => rfl) rs hr
  | int r =>
    simp only [evenlySample, bind_eq_ok, Except.ok.injEq, Prod.mk.injEq] at h
    obtain ⟨rs, hr, rfl, rfl⟩ := h
    obtain ⟨l, u, hlu, e1, e2, -⟩ := hd
    have hle : r.low ≤ r.high := by
      rw [e1, e2]
      show (l : ℝ) ≤ (u : ℝ)
      exact_mod_cast hlu.le
    exact numeric r.low r.high hle (fun x h1 h2 => ⟨x, rfl, h1, h2⟩) (fun _ => rfl) rs hr
  | cat c =>
    simp only [evenlySample] at h
    split at h
    · cases h
    · simp only [bind_eq_ok, Except.ok.injEq, Prod.mk.injEq] at h
      obtain ⟨vs, hvs, rs, hr, rfl, rfl⟩ := h
      rw [mapE_eq_ok] at hvs
      have hmem : ∀ v ∈ vs, v ∈ c.cats := by
        intro v hv
        obtain ⟨k, _, hk⟩ := forall₂_mem_right hvs hv
        exact pyGet_mem hk
      have h2 := elementwise_rows hd (vs := vs) hmem hr
      rw [List.forall₂_map_left_iff]
      rw [List.forall₂_iff_get] at hvs h2 ⊢
      refine ⟨hvs.1.trans h2.1, fun k a b => ?_⟩
      have hb : k < vs.length := hvs.1 ▸ a
      exact ⟨vs.get ⟨k, hb⟩, ⟨_, rfl, pyGet_eq_ok.1 (hvs.2 k a hb)⟩, h2.2 k hb b⟩

theorem pyGetI_loc {dims : List (Dim ℝ)} {i a : Nat} (hi : i ≤ dims.length)
    (h : pyGetI (dimLocs dims) (i : ℤ) = .ok a) : a = ((dims.map Dim.transformedSize).take i).sum := by
  rw [pyGetI_nat] at h
  unfold dimLocs at h
  rw [scanl_get _ 0 i (by simpa using hi)] at h
  simp only [Nat.zero_add, Option.some.injEq] at h
  exact h.symm

/-- Overwriting in all samples. -/
theorem replace_rows {dims : List (Dim ℝ)} (hv : ∀ d ∈ dims, ValidDim exact d) (hs : ∀ d ∈ dims, YieldsNoStr d)
    {P : List (Point ℝ)} (hP : ∀ p ∈ P, List.Forall₂ Within dims p) {S : List (List (Val ℝ))}
    (hS : List.Forall₂ (fun p r => Space.transform exact dims [p] = .ok [r]) P S)
    {i : Nat} {d : Dim ℝ} (hd : dims[i]? = some d) {v : Val ℝ}
    (hw : Within d v) {t : List (Val ℝ)} (ht : d.transform exact [v] = .ok [t]) {rows : List (List (Val ℝ))}
    (h : mapE (assignSlice ((dims.map Dim.transformedSize).take i).sum
      ((dims.map Dim.transformedSize).take (i + 1)).sum t) S = .ok rows) :
    List.Forall₂ (fun p r => Space.transform exact dims [p] = .ok [r]) (P.map fun p => p.set i v) rows ∧
      ∀ p ∈ P.map (fun p => p.set i v), List.Forall₂ Within dims p := by
  refine ⟨?_, ?_⟩
  · rw [mapE_eq_ok] at h
    induction hS generalizing rows with
    | nil => cases h; exact .nil
    | @cons p r ps rs h1 _ ih =>
      cases h with
      | @cons _ r' _ rs' h2 h3 =>
        obtain ⟨r'', e1, e2⟩ := replace_row hv hs (hP p List.mem_cons_self) h1 hd hw ht
        rw [e1] at h2
        cases h2
        exact .cons e2 (ih (fun p hp => hP p (List.mem_cons_of_mem _ hp)) h3)
  · intro p hp
    obtain ⟨q, hq, rfl⟩ := List.mem_map.1 hp
    exact within_set (hP q hq) hd hw

theorem within_of_inSpace {dims : List (Dim ℝ)} {p : Point ℝ} (h : InSpace exact dims p) :
    List.Forall₂ Within dims p := by
  refine h.imp fun d v hd => ?_
  cases d with
  | real r => exact hd
  | int r => obtain ⟨k, h1, h2, h3⟩ := hd; exact ⟨_, h1, h2, h3⟩
  | cat c => exact hd

theorem mean_of_rows {dims : List (Dim ℝ)} {predict : List (List (Val ℝ)) → Except PyErr (List ℝ)}
    (hpr : PdRowwise predict) {Q : List (Point ℝ)} {rows : List (List (Val ℝ))}
    (h1 : List.Forall₂ (fun p r => Space.transform exact dims [p] = .ok [r]) Q rows) {ys : List ℝ}
    (h2 : predict rows = .ok ys) :
    List.Forall₂ (fun p v => PdAt dims predict p v) Q ys ∧ meanReal ys = ys.sum / (Q.length : ℝ) := by
  have h3 := hpr _ _ h2
  refine ⟨?_, ?_⟩
  · rw [List.forall₂_iff_get] at h1 h3 ⊢
    refine ⟨h1.1.trans h3.1, fun k a b => ?_⟩
    have hb : k < rows.length := h1.1 ▸ a
    exact ⟨_, h1.2 k a hb, h3.2 k hb b⟩
  · unfold meanReal
    rw [h1.length_eq, h3.length_eq]

/-! ## C73 -/

/-- **C73 (one dimension).**  Exact arithmetic.  If the samples are encoded points `P` of the space, then the value
drawn for an axis value `x` of dimension `i` is the mean of the model's predictions over the points of `P` with
coordinate `i` replaced by `x` (by the category with index `x`), whatever the other dimensions are and however they
are encoded.  Missing for the full property: negative indices, which Python accepts (`C73_refuted_negative_index`),
samples encoded as strings, and samples in an array of integers (`C73_integer_samples_partial`,
`C73_refuted_integer_samples`). -/
theorem C73_partial_dependence_1D_partial (dims : List (Dim ℝ)) (hv : ∀ d ∈ dims, ValidDim exact d)
    (hs : ∀ d ∈ dims, YieldsNoStr d) (predict : List (List (Val ℝ)) → Except PyErr (List ℝ))
    (hpr : PdRowwise predict) (P : List (Point ℝ)) (hne : P ≠ []) (hP : ∀ p ∈ P, InSpace exact dims p)
    (S : List (List (Val ℝ))) (hS : Space.transform exact dims P = .ok S) (i n : Nat) (d : Dim ℝ)
    (hd : dims[i]? = some d) (xi yi : List ℝ)
    (h : partialDependence1D dims predict i false S n = .ok (xi, yi)) :
    List.Forall₂ (fun x y => ∃ v, AxisValue d x v ∧ Within d v ∧
      MeanOver dims predict P (fun p => p.set i v) y) xi yi := by
  have hdne : dims ≠ [] := by rintro rfl; simp at hd
  have hlt : i < dims.length := (List.getElem?_eq_some_iff.1 hd).1
  simp only [partialDependence1D, bind_eq_ok, Except.ok.injEq, Prod.mk.injEq] at h
  obtain ⟨d', hd', ⟨xs, rows⟩, hg, a, ha, b, hb, ys, hys, rfl, rfl⟩ := h
  rw [pyGetI_nat, hd] at hd'
  cases hd'
  have ha' := pyGetI_loc hlt.le ha
  have hb' := pyGetI_loc (dims := dims) (i := i + 1) (a := b) hlt (by exact_mod_cast hb)
  subst ha' hb'
  have hgr := evenlySample_spec (hv d (List.mem_of_getElem? hd)) hg
  rw [mapE_eq_ok] at hys
  have hS' := (C67_transform_pointwise_partial exact dims hdne hv (Or.inl hs) P hne hP S).1 hS
  simp only at hys
  rw [List.forall₂_iff_get] at hgr hys ⊢
  refine ⟨hgr.1.trans hys.1, fun k k1 k2 => ?_⟩
  have k3 : k < rows.length := hgr.1 ▸ k1
  obtain ⟨v, hax, hw, ht⟩ := hgr.2 k k1 k3
  have hc := hys.2 k k3 k2
  simp only [pdCalc1, bind_eq_ok, Except.ok.injEq] at hc
  obtain ⟨rs, hrs, vs, hvs, hm⟩ := hc
  obtain ⟨e1, -⟩ := replace_rows hv hs (fun p hp => within_of_inSpace (hP p hp)) hS' hd hw ht hrs
  obtain ⟨e2, e3⟩ := mean_of_rows hpr e1 hvs
  rw [List.forall₂_map_left_iff] at e2
  refine ⟨v, hax, hw, vs, e2, ?_⟩
  rw [← hm, e3, List.length_map]

/-- **C73 (two dimensions).**  The value drawn at `(x, y)`, with `x` on the axis of dimension `j` and `y` on that of
dimension `i`, is the mean of the predictions over the points with coordinate `j` replaced by `x` and coordinate `i` by
`y`. -/
theorem C73_partial_dependence_2D_partial (dims : List (Dim ℝ)) (hv : ∀ d ∈ dims, ValidDim exact d)
    (hs : ∀ d ∈ dims, YieldsNoStr d) (predict : List (List (Val ℝ)) → Except PyErr (List ℝ))
    (hpr : PdRowwise predict) (P : List (Point ℝ)) (hne : P ≠ []) (hP : ∀ p ∈ P, InSpace exact dims p)
    (S : List (List (Val ℝ))) (hS : Space.transform exact dims P = .ok S) (i j n : Nat) (di dj : Dim ℝ)
    (hdi : dims[i]? = some di) (hdj : dims[j]? = some dj) (xi yi : List ℝ) (zi : List (List ℝ))
    (h : partialDependence2D dims predict i j false S n = .ok (xi, yi, zi)) :
    List.Forall₂ (fun y zs => ∃ w, AxisValue di y w ∧ Within di w ∧
      List.Forall₂ (fun x z => ∃ v, AxisValue dj x v ∧ Within dj v ∧
        MeanOver dims predict P (fun p => (p.set j v).set i w) z) xi zs) yi zi := by
  have hdne : dims ≠ [] := by rintro rfl; simp at hdi
  have hlti : i < dims.length := (List.getElem?_eq_some_iff.1 hdi).1
  have hltj : j < dims.length := (List.getElem?_eq_some_iff.1 hdj).1
  simp only [partialDependence2D, bind_eq_ok, Except.ok.injEq, Prod.mk.injEq] at h
  obtain ⟨dj', hdj', ⟨xs, rowsx⟩, hgx, di', hdi', ⟨ys, rowsy⟩, hgy, ai, hai, bi, hbi, aj, haj, bj, hbj, zs, hzs,
    rfl, rfl, rfl⟩ := h
  rw [pyGetI_nat, hdj] at hdj'
  rw [pyGetI_nat, hdi] at hdi'
  cases hdj'; cases hdi'
  have h1 := pyGetI_loc hlti.le hai
  have h2 := pyGetI_loc (dims := dims) (i := i + 1) (a := bi) hlti (by exact_mod_cast hbi)
  have h3 := pyGetI_loc hltj.le haj
  have h4 := pyGetI_loc (dims := dims) (i := j + 1) (a := bj) hltj (by exact_mod_cast hbj)
  subst h1 h2 h3 h4
  have hgx := evenlySample_spec (hv dj (List.mem_of_getElem? hdj)) hgx
  have hgy := evenlySample_spec (hv di (List.mem_of_getElem? hdi)) hgy
  have hS' := (C67_transform_pointwise_partial exact dims hdne hv (Or.inl hs) P hne hP S).1 hS
  rw [mapE_eq_ok] at hzs
  simp only at hzs
  rw [List.forall₂_iff_get] at hgy hzs ⊢
  refine ⟨hgy.1.trans hzs.1, fun k k1 k2 => ?_⟩
  have k3 : k < rowsy.length := hgy.1 ▸ k1
  obtain ⟨w, hax, hw, ht⟩ := hgy.2 k k1 k3
  have hc := hzs.2 k k3 k2
  rw [mapE_eq_ok] at hc
  refine ⟨w, hax, hw, ?_⟩
  rw [List.forall₂_iff_get] at hgx hc ⊢
  refine ⟨hgx.1.trans hc.1, fun l l1 l2 => ?_⟩
  have l3 : l < rowsx.length := hgx.1 ▸ l1
  obtain ⟨v, hax', hw', ht'⟩ := hgx.2 l l1 l3
  have hcl := hc.2 l l3 l2
  simp only [pdCalc2, bind_eq_ok, Except.ok.injEq] at hcl
  obtain ⟨rs, hrs, rs', hrs', vs, hvs, hm⟩ := hcl
  obtain ⟨e1, e1'⟩ := replace_rows hv hs (fun p hp => within_of_inSpace (hP p hp)) hS' hdj hw' ht' hrs
  obtain ⟨e2, -⟩ := replace_rows hv hs e1' e1 hdi hw ht hrs'
  obtain ⟨e3, e4⟩ := mean_of_rows hpr e2 hvs
  rw [List.map_map, List.forall₂_map_left_iff] at e3
  refine ⟨v, hax', hw', vs, e3, ?_⟩
  rw [← hm, e4, List.length_map, List.length_map]

/-! ## Examples -/

/-- `Real(0, 2)` and `Real(0, 4)`. -/
noncomputable def pdDims : List (Dim ℝ) :=
  [.real ⟨0, 2, .uniform, 10, .identity, none, id⟩, .real ⟨0, 4, .uniform, 10, .identity, none, id⟩]

/-- A model of two columns: their sum. -/
noncomputable def pdModel (X : List (List (Val ℝ))) : Except PyErr (List ℝ) :=
  mapE (fun r => match r with
    | [.num a, .num b] => .ok (a + b)
    | _ => .error .valueError) X

theorem pdModel_rowwise : PdRowwise pdModel := by
  intro X ys h
  unfold pdModel at h ⊢
  rw [mapE_eq_ok] at h
  exact h.imp fun r y hr => mapE_singleton.2 hr

theorem linspaceReal_two (lo hi : ℝ) : linspaceReal lo hi 2 = [lo, hi] := by
  norm_num [linspaceReal, List.range_succ]

theorem pd_dims_samples : Space.transform exact pdDims [[.num 1, .num 3]] = .ok [[.num 1, .num 3]] := rfl

theorem pd_example_last : partialDependence1D pdDims pdModel 1 false [[.num 1, .num 3]] 2 = .ok ([0, 4], [1, 5]) := by
  have e : evenlySample (.real ⟨0, 4, .uniform, 10, .identity, none, id⟩ : Dim ℝ) 2 =
      .ok ([0, 4], [[.num 0], [.num 4]]) := by
    simp only [evenlySample, linspaceReal_two]
    rfl
  have e1 : pyGetI pdDims 1 = .ok (.real ⟨0, 4, .uniform, 10, .identity, none, id⟩) := rfl
  have e2 : pyGetI (dimLocs pdDims) 1 = .ok 1 := rfl
  have e3 : pyGetI (dimLocs pdDims) (1 + 1) = .ok 2 := rfl
  simp only [partialDependence1D, e1, e, e2, e3, ok_bind]
  norm_num [mapE, pdCalc1, stored, assignSlice, pdModel, meanReal, bind, Except.bind]

/-- Non-vacuity of `C73_partial_dependence_1D_partial`: the hypotheses hold for a concrete space, sample and model, and
the values returned are the predictions at `(1, 0)` and `(1, 4)`. -/
example : (∀ d ∈ pdDims, ValidDim exact d) ∧ (∀ d ∈ pdDims, YieldsNoStr d) ∧ PdRowwise pdModel ∧
    InSpace exact pdDims [.num 1, .num 3] ∧
    Space.transform exact pdDims [[.num 1, .num 3]] = .ok [[.num 1, .num 3]] ∧
    partialDependence1D pdDims pdModel ((1 : Nat) : ℤ) false [[.num 1, .num 3]] 2 = .ok ([0, 4], [1, 5]) := by
  refine ⟨?_, ?_, pdModel_rowwise, ?_, rfl, pd_example_last⟩
  · intro d hd
    simp only [pdDims, List.mem_cons, List.not_mem_nil, or_false] at hd
    rcases hd with rfl | rfl <;> exact ⟨by norm_num, Or.inl rfl, fun x h1 h2 => ⟨h1, h2⟩⟩
  · intro d hd
    simp only [pdDims, List.mem_cons, List.not_mem_nil, or_false] at hd
    rcases hd with rfl | rfl <;> trivial
  · exact .cons ⟨1, rfl, by norm_num, by norm_num⟩ (.cons ⟨3, rfl, by norm_num, by norm_num⟩ .nil)

/-- Non-vacuity of `C73_partial_dependence_2D_partial`: the two axes of the same space. -/
theorem pd_example_2D : partialDependence2D pdDims pdModel ((1 : Nat) : ℤ) ((0 : Nat) : ℤ) false [[.num 1, .num 3]] 2 =
    .ok ([0, 2], [0, 4], [[0, 2], [4, 6]]) := by
  have e : evenlySample (.real ⟨0, 4, .uniform, 10, .identity, none, id⟩ : Dim ℝ) 2 =
      .ok ([0, 4], [[.num 0], [.num 4]]) := by
    simp only [evenlySample, linspaceReal_two]
    rfl
  have e' : evenlySample (.real ⟨0, 2, .uniform, 10, .identity, none, id⟩ : Dim ℝ) 2 =
      .ok ([0, 2], [[.num 0], [.num 2]]) := by
    simp only [evenlySample, linspaceReal_two]
    rfl
  have e1 : pyGetI pdDims ((1 : Nat) : ℤ) = .ok (.real ⟨0, 4, .uniform, 10, .identity, none, id⟩) := rfl
  have e1' : pyGetI pdDims ((0 : Nat) : ℤ) = .ok (.real ⟨0, 2, .uniform, 10, .identity, none, id⟩) := rfl
  have e2 : pyGetI (dimLocs pdDims) ((0 : Nat) : ℤ) = .ok 0 := rfl
  have e3 : pyGetI (dimLocs pdDims) ((1 : Nat) : ℤ) = .ok 1 := rfl
  have e4 : pyGetI (dimLocs pdDims) (((0 : Nat) : ℤ) + 1) = .ok 1 := rfl
  have e5 : pyGetI (dimLocs pdDims) (((1 : Nat) : ℤ) + 1) = .ok 2 := rfl
  simp only [partialDependence2D, e1, e1', e, e', e2, e3, e4, e5, ok_bind]
  norm_num [mapE, pdCalc2, stored, assignSlice, pdModel, meanReal, bind, Except.bind]

/-- **C73 is false for negative indices**, which Python accepts everywhere else: for the last dimension given as `-1` the
slice `dim_locs[-1]:dim_locs[0]` is empty, nothing is replaced, and the curve is flat. -/
theorem C73_refuted_negative_index :
    pyGetI pdDims (-1) = pyGetI pdDims 1 ∧
    partialDependence1D pdDims pdModel (-1) false [[.num 1, .num 3]] 2 = .ok ([0, 4], [4, 4]) ∧
    partialDependence1D pdDims pdModel 1 false [[.num 1, .num 3]] 2 = .ok ([0, 4], [1, 5]) := by
  refine ⟨rfl, ?_, pd_example_last⟩
  have e : evenlySample (.real ⟨0, 4, .uniform, 10, .identity, none, id⟩ : Dim ℝ) 2 =
      .ok ([0, 4], [[.num 0], [.num 4]]) := by
    simp only [evenlySample, linspaceReal_two]
    rfl
  have e1 : pyGetI pdDims (-1) = .ok (.real ⟨0, 4, .uniform, 10, .identity, none, id⟩) := rfl
  have e2 : pyGetI (dimLocs pdDims) (-1) = .ok 2 := rfl
  have e3 : pyGetI (dimLocs pdDims) (-1 + 1) = .ok 0 := rfl
  simp only [partialDependence1D, e1, e, e2, e3, ok_bind]
  norm_num [mapE, pdCalc1, stored, assignSlice, pdModel, meanReal, bind, Except.bind]

/-- **C73 is false for `Integer` dimensions**: the axis of `Integer(0, 1)` with three points contains 0.5, which is not a
value of the dimension, and the model is evaluated there (unless the samples are an array of integers, see
`C73_refuted_integer_samples`). -/
theorem C73_refuted_integer_axis :
    evenlySample (.int ⟨0, 1, .uniform, 10, .identity, none, id⟩ : Dim ℝ) 3 =
      .ok ([0, 1 / 2, 1], [[.num 0], [.num (1 / 2)], [.num 1]]) ∧
    ¬ Legal exact (.int ⟨0, 1, .uniform, 10, .identity, none, id⟩ : Dim ℝ) (.num (1 / 2)) := by
  constructor
  · have e : linspaceReal 0 1 3 = [0, 1 / 2, 1] := by norm_num [linspaceReal, List.range_succ]
    simp only [evenlySample, e]
    rfl
  · rintro ⟨k, hk, -⟩
    have hk : (1 / 2 : ℝ) = (k : ℝ) := by simpa [exact] using hk
    have : (1 : ℝ) = ((2 * k : ℤ) : ℝ) := by push_cast; linarith
    have : (1 : ℤ) = 2 * k := by exact_mod_cast this
    omega

/-! ## Samples in an array of integers -/

/-- The encoded column of the dimension is made of Python or NumPy integers. -/
def EncodesWhole : Dim ℝ → Prop
  | .int r => r.transform = .identity ∧ r.prior = .uniform
  | .cat c => c.transform = .onehot ∨ c.transform = .label
  | .real _ => False

/-- The value of a coordinate after the fraction of a number was dropped; categories stay. -/
noncomputable def withoutFraction : Dim ℝ → Val ℝ → Val ℝ
  | .int _, .num x => .num (if 0 ≤ x then (⌊x⌋ : ℝ) else (⌈x⌉ : ℝ))
  | _, v => v

theorem towardZero_int (k : ℤ) : towardZero (k : ℝ) = k := by
  unfold towardZero; split <;> simp

theorem towardZero_between {l u : ℤ} {x : ℝ} (h1 : (l : ℝ) ≤ x) (h2 : x ≤ (u : ℝ)) :
    (l : ℝ) ≤ towardZero x ∧ towardZero x ≤ (u : ℝ) := by
  unfold towardZero
  split
  · exact ⟨by exact_mod_cast Int.le_floor.2 h1, le_trans (Int.floor_le x) h2⟩
  · exact ⟨le_trans h1 (Int.le_ceil x), by exact_mod_cast Int.ceil_le.2 h2⟩

theorem stored_ints {t : List (Val ℝ)} (h : ∀ v ∈ t, ∃ k : ℤ, v = .num (k : ℝ)) : stored true t = t := by
  unfold stored
  rw [if_pos rfl]
  conv_rhs => rw [← List.map_id t]
  refine List.map_congr_left fun v hv => ?_
  obtain ⟨k, rfl⟩ := h v hv
  simp only [towardZero_int, id]

theorem binarize_ints (cs : List Nat) (i : Nat) : ∀ x ∈ binarize exact cs i, ∃ k : ℤ, x = (k : ℝ) := by
  have ind : ∀ c, ∃ k : ℤ, (if i = c then exact.ofInt 1 else exact.ofInt 0) = (k : ℝ) := by
    intro c
    split
    · exact ⟨1, rfl⟩
    · exact ⟨0, rfl⟩
  intro x hx
  unfold binarize at hx
  split at hx
  · simp at hx
  · simp only [List.mem_singleton] at hx
    exact ⟨0, hx⟩
  · simp only [List.mem_singleton] at hx
    rw [hx]; exact ind _
  · obtain ⟨c, -, rfl⟩ := List.mem_map.1 hx
    exact ind c

theorem stored_whole {d : Dim ℝ} (hd : ValidDim exact d) (hwh : EncodesWhole d) {v : Val ℝ} (hw : Within d v)
    {t : List (Val ℝ)} (ht : d.transform exact [v] = .ok [t]) :
    Within d (withoutFraction d v) ∧ d.transform exact [withoutFraction d v] = .ok [stored true t] := by
  cases d with
  | real r => exact absurd hwh id
  | int r =>
    obtain ⟨h1, h2⟩ := hwh
    obtain ⟨x, rfl, hx1, hx2⟩ := hw
    obtain ⟨l, u, -, e1, e2, -⟩ := hd
    have e : ∀ y : ℝ, Dim.transform exact (.int r) [.num y] = .ok [[.num y]] := by
      intro y
      simp only [Dim.transform, Dim.transformer, IntDim.transformer, h1, h2, ok_bind]
      rfl
    rw [e] at ht
    cases ht
    have hb : r.low ≤ towardZero x ∧ towardZero x ≤ r.high := by
      rw [e1] at hx1 ⊢
      rw [e2] at hx2 ⊢
      exact towardZero_between hx1 hx2
    exact ⟨⟨_, rfl, hb⟩, by rw [withoutFraction, e]; rfl⟩
  | cat c =>
    refine ⟨hw, ?_⟩
    show Dim.transform exact (.cat c) [v] = _
    rw [ht]
    congr 2
    refine (stored_ints ?_).symm
    rcases hwh with h | h
    · simp only [Dim.transform, Dim.transformer, CatDim.transformer, h, bind_eq_ok, Except.ok.injEq] at ht
      obtain ⟨_, ⟨e, -, rfl⟩, ht⟩ := ht
      simp only [Transformer.transform, OneHot.transform, mapE_singleton, bind_eq_ok, Except.ok.injEq] at ht
      obtain ⟨i, -, rfl⟩ := ht
      intro w hw'
      obtain ⟨x, hx, rfl⟩ := List.mem_map.1 hw'
      obtain ⟨k, rfl⟩ := binarize_ints _ _ x hx
      exact ⟨k, rfl⟩
    · simp only [Dim.transform, Dim.transformer, CatDim.transformer, h, bind_eq_ok, Except.ok.injEq] at ht
      obtain ⟨_, ⟨e, -, rfl⟩, ht⟩ := ht
      simp only [Transformer.transform, pipelineTransform, Stage.transform, LabelEnc.transform, bind_eq_ok,
        Except.ok.injEq] at ht
      obtain ⟨Y, ⟨Y', ⟨X', -, hY⟩, hYY⟩, hYt⟩ := ht
      subst hYY
      rw [mapE_eq_ok] at hY
      intro w hw'
      have hmem : w ∈ Y' := by
        cases Y' with
        | nil => simp at hYt
        | cons a as =>
          simp only [List.map_cons, List.cons.injEq] at hYt
          rw [← hYt.1] at hw'
          rw [List.mem_singleton] at hw'
          rw [hw']; exact List.mem_cons_self
      obtain ⟨u, -, hu⟩ := forall₂_mem_right hY hmem
      rw [bind_eq_ok] at hu
      obtain ⟨k, -, hk⟩ := hu
      exact ⟨(k : ℤ), (Except.ok.inj hk).symm⟩

/-- **C73 (samples in an array of integers).**  Exact arithmetic.  If every dimension is an `Integer` with the identity
transform or a `Categorical` encoded by integers, the encoded samples are an array of integers, and the number the code
puts into it loses its fraction: the value drawn for `x` is the mean prediction with coordinate `i` replaced by the whole
part of `x`, not by `x`.  For categories nothing changes.  Missing: categories encoded by themselves. -/
theorem C73_integer_samples_partial (dims : List (Dim ℝ)) (hv : ∀ d ∈ dims, ValidDim exact d)
    (hw : ∀ d ∈ dims, EncodesWhole d) (predict : List (List (Val ℝ)) → Except PyErr (List ℝ))
    (hpr : PdRowwise predict) (P : List (Point ℝ)) (hne : P ≠ []) (hP : ∀ p ∈ P, InSpace exact dims p)
    (S : List (List (Val ℝ))) (hS : Space.transform exact dims P = .ok S) (i n : Nat) (d : Dim ℝ)
    (hd : dims[i]? = some d) (xi yi : List ℝ)
    (h : partialDependence1D dims predict i true S n = .ok (xi, yi)) :
    List.Forall₂ (fun x y => ∃ v, AxisValue d x v ∧ Within d v ∧
      MeanOver dims predict P (fun p => p.set i (withoutFraction d v)) y) xi yi := by
  have hs : ∀ d ∈ dims, YieldsNoStr d := by
    intro d hd
    have := hw d hd
    cases d with
    | real r => trivial
    | int r => trivial
    | cat c =>
      rcases this with h | h
      · exact ⟨by rw [h]; decide, by rw [h]; intro e; cases e⟩
      · exact ⟨by rw [h]; decide, by rw [h]; intro e; cases e⟩
  have hdne : dims ≠ [] := by rintro rfl; simp at hd
  have hlt : i < dims.length := (List.getElem?_eq_some_iff.1 hd).1
  have hdm := List.mem_of_getElem? hd
  simp only [partialDependence1D, bind_eq_ok, Except.ok.injEq, Prod.mk.injEq] at h
  obtain ⟨d', hd', ⟨xs, rows⟩, hg, a, ha, b, hb, ys, hys, rfl, rfl⟩ := h
  rw [pyGetI_nat, hd] at hd'
  cases hd'
  have ha' := pyGetI_loc hlt.le ha
  have hb' := pyGetI_loc (dims := dims) (i := i + 1) (a := b) hlt (by exact_mod_cast hb)
  subst ha' hb'
  have hgr := evenlySample_spec (hv d hdm) hg
  rw [mapE_eq_ok] at hys
  have hS' := (C67_transform_pointwise_partial exact dims hdne hv (Or.inl hs) P hne hP S).1 hS
  simp only at hys
  rw [List.forall₂_iff_get] at hgr hys ⊢
  refine ⟨hgr.1.trans hys.1, fun k k1 k2 => ?_⟩
  have k3 : k < rows.length := hgr.1 ▸ k1
  obtain ⟨v, hax, hwv, ht⟩ := hgr.2 k k1 k3
  obtain ⟨hwv', ht'⟩ := stored_whole (hv d hdm) (hw d hdm) hwv ht
  have hc := hys.2 k k3 k2
  simp only [pdCalc1, bind_eq_ok, Except.ok.injEq] at hc
  obtain ⟨rs, hrs, vs, hvs, hm⟩ := hc
  obtain ⟨e1, -⟩ := replace_rows hv hs (fun p hp => within_of_inSpace (hP p hp)) hS' hd hwv' ht' hrs
  obtain ⟨e2, e3⟩ := mean_of_rows hpr e1 hvs
  rw [List.forall₂_map_left_iff] at e2
  refine ⟨v, hax, hwv, vs, e2, ?_⟩
  rw [← hm, e3, List.length_map]

/-- `Integer(0, 1)`. -/
noncomputable def pdInts : List (Dim ℝ) := [.int ⟨0, 1, .uniform, 10, .identity, none, id⟩]

/-- A model of one column: the number itself. -/
noncomputable def pdModel1 (X : List (List (Val ℝ))) : Except PyErr (List ℝ) :=
  mapE (fun r => match r with
    | [.num a] => .ok a
    | _ => .error .valueError) X

theorem pd_ints_example : partialDependence1D pdInts pdModel1 ((0 : Nat) : ℤ) true [[.num 1]] 3 =
    .ok ([0, 1 / 2, 1], [0, 0, 1]) := by
  have e : evenlySample (.int ⟨0, 1, .uniform, 10, .identity, none, id⟩ : Dim ℝ) 3 =
      .ok ([0, 1 / 2, 1], [[.num 0], [.num (1 / 2)], [.num 1]]) := by
    have e : linspaceReal 0 1 3 = [0, 1 / 2, 1] := by norm_num [linspaceReal, List.range_succ]
    simp only [evenlySample, e]
    rfl
  have e1 : pyGetI pdInts ((0 : Nat) : ℤ) = .ok (.int ⟨0, 1, .uniform, 10, .identity, none, id⟩) := rfl
  have e2 : pyGetI (dimLocs pdInts) ((0 : Nat) : ℤ) = .ok 0 := rfl
  have e3 : pyGetI (dimLocs pdInts) (((0 : Nat) : ℤ) + 1) = .ok 1 := rfl
  have t : ⌊(2 : ℝ)⁻¹⌋ = 0 := by norm_num
  simp only [partialDependence1D, e1, e, e2, e3, ok_bind]
  norm_num [mapE, pdCalc1, stored, towardZero, assignSlice, pdModel1, meanReal, bind, Except.bind, t]

/-- Non-vacuity of `C73_integer_samples_partial`. -/
example : (∀ d ∈ pdInts, ValidDim exact d) ∧ (∀ d ∈ pdInts, EncodesWhole d) ∧ PdRowwise pdModel1 ∧
    InSpace exact pdInts [.num 1] ∧ Space.transform exact pdInts [[.num 1]] = .ok [[.num 1]] ∧
    partialDependence1D pdInts pdModel1 ((0 : Nat) : ℤ) true [[.num 1]] 3 = .ok ([0, 1 / 2, 1], [0, 0, 1]) := by
  refine ⟨?_, ?_, ?_, ?_, rfl, pd_ints_example⟩
  · intro d hd
    simp only [pdInts, List.mem_singleton] at hd
    subst hd
    exact ⟨0, 1, by norm_num, by simp [exact], by simp [exact], by simpa [exact] using roundHalfEven_intCast (K := ℝ) 0,
      by simpa [exact] using roundHalfEven_intCast (K := ℝ) 1, Or.inl rfl, fun _ _ _ => rfl⟩
  · intro d hd
    simp only [pdInts, List.mem_singleton] at hd
    subst hd
    exact ⟨rfl, rfl⟩
  · intro X ys h
    unfold pdModel1 at h ⊢
    rw [mapE_eq_ok] at h
    exact h.imp fun r y hr => mapE_singleton.2 hr
  · exact .cons ⟨1, by simp [exact], by norm_num [exact], by norm_num [exact]⟩ .nil

/-- **C73 is false for spaces of `Integer` dimensions with the identity transform** (the default): the encoded samples are
an array of integers, and a number with a fraction loses it when it is put in.  For `Integer(0, 1)`, three points and a
model that predicts the number itself, the values returned for 0, 1/2 and 1 are 0, 0 and 1: the second one is not the
prediction at 1/2. -/
theorem C73_refuted_integer_samples :
    ∃ xi yi, partialDependence1D pdInts pdModel1 0 true [[.num 1]] 3 = .ok (xi, yi) ∧
      xi[1]? = some (1 / 2) ∧ yi[1]? = some 0 ∧ PdAt pdInts pdModel1 [.num (1 / 2)] (1 / 2) :=
  ⟨_, _, pd_ints_example, rfl, rfl, [.num (1 / 2)], rfl, rfl⟩

end Skopt

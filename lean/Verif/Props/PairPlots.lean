import Verif.Model.PairPlots
import Verif.Model.ExampleWorld
import Verif.Props.Naming
import Verif.Props.Plots
import Verif.Props.PartialDependence
import Verif.Props.ExpectedMinimum

/-!
# C78: matrix plots and histograms
-/

namespace Skopt

variable {F : Type}

/-! ## Specification -/

/-- The dimension has more than one value. -/
def Varies : Dim F → Prop
  | .real d => d.low ≠ d.high
  | .int d => d.low ≠ d.high
  | .cat c => 2 ≤ c.cats.length

theorem varies_iff [DecidableEq F] (d : Dim F) : d.isConstant = false ↔ Varies d := by
  cases d with
  | real d => simp [Dim.isConstant, Varies]
  | int d => simp [Dim.isConstant, Varies]
  | cat c => simp [Dim.isConstant, Varies]; omega

/-- The dimensions the user asks for: all that are not constant, in the order of the space; or one for each given name
(the first dimension of that name) or position. -/
def Selected [DecidableEq F] (dims : List (Dim F)) (sel : Option (List Space.Key)) (chosen : List (Nat × Dim F)) :
    Prop :=
  match sel with
  | none => (chosen.map Prod.fst).Pairwise (· < ·) ∧
      ∀ i d, (i, d) ∈ chosen ↔ dims[i]? = some d ∧ Varies d
  | some keys => List.Forall₂ (fun k q => dims[q.1]? = some q.2 ∧ match k with
      | .name s => q.2.name = some s ∧ ∀ j < q.1, ∀ e, dims[j]? = some e → e.name ≠ some s
      | .index k => k = (q.1 : ℤ)) keys chosen

/-- The dimension is numeric and its prior is log-uniform. -/
def LogScaled : Dim F → Prop
  | .real d => d.prior = .logUniform
  | .int d => d.prior = .logUniform
  | .cat _ => False

/-- `xs` are the numbers drawn for coordinate `i`, which belongs to dimension `d`, of the points. -/
def ColumnOf (A : Arith F) (i : Nat) (d : Dim F) (points : List (Point F)) (xs : List F) : Prop :=
  List.Forall₂ (fun p x => ∃ v, p[i]? = some v ∧ DrawnAs A d v x) points xs

/-- A histogram of a dimension should have one bin per category, or `bins` bins between the bounds, with edges in
geometric progression (see `C78_log_edges`) if the prior is log-uniform. -/
def Binning (A : Arith F) (d : Dim F) (bins : Nat) (b : Bins F) (range : Option (List (Val F))) : Prop :=
  match d with
  | .cat c => b = .count c.cats.length ∧ range = none
  | .real r => range = some [.num r.low, .num r.high] ∧
      (r.prior = .uniform → b = .count bins) ∧ (r.prior = .logUniform → b = .edges (logEdges A r.low r.high bins))
  | .int r => range = some [.num r.low, .num r.high] ∧
      (r.prior = .uniform → b = .count bins) ∧ (r.prior = .logUniform → b = .edges (logEdges A r.low r.high bins))

/-- What the panel in row `r` and drawnColumn `c` of `plot_evaluations` should show. -/
def ShowsEvaluations (A : Arith F) (points : List (Point F)) (best : Point F) (bins : Nat)
    (chosen : List (Nat × Dim F)) (r c : Nat) (panel : EvalPanel F) : Prop :=
  (r < c → panel = .empty) ∧
  (r = c → ∀ i d, chosen[r]? = some (i, d) →
    ∃ vs b range, panel = .hist vs b range ∧ ColumnOf A i d points vs ∧ Binning A d bins b range) ∧
  (c < r → ∀ i d i' d', chosen[c]? = some (i, d) → chosen[r]? = some (i', d') →
    ∃ xs ys x y, panel = .scatter xs ys (x, y) ∧ ColumnOf A i d points xs ∧ ColumnOf A i' d' points ys ∧
      ColumnOf A i d [best] [x] ∧ ColumnOf A i' d' [best] [y])

/-- The axis belongs to the dimension: limits, scale and tick names. -/
def AxisFor (d : Dim F) (a : Axis F) : Prop :=
  match d with
  | .cat c => a.lim = none ∧ a.log = false ∧ (a.hidden = false → a.cats = some c.cats)
  | .real r => a.lim = some [.num r.low, .num r.high] ∧ (a.log = true ↔ r.prior = .logUniform) ∧ a.cats = none
  | .int r => a.lim = some [.num r.low, .num r.high] ∧ (a.log = true ↔ r.prior = .logUniform) ∧ a.cats = none

/-- The label of the `k`-th chosen dimension: as given, its name, or `$X_{i}$` with its position in the space. -/
def LabelOf (labels : Option (List String)) (chosen : List (Nat × Dim F)) (k : Nat) (l : String) : Prop :=
  match labels with
  | some ls => ls[k]? = some l
  | none => ∃ i d, chosen[k]? = some (i, d) ∧ (d.name = some l ∨ d.name = none ∧ l = s!"$X_\{{i}}$")

/-- The axes of the panel in row `r` and drawnColumn `c`: the abscissa belongs to the dimension of the drawnColumn, the ordinate
to that of the row (on the diagonal to `ylabel`); the labels stand in the first drawnColumn, in the last row, and on the
diagonal. -/
def FormattedFor (n : Nat) (chosen : List (Nat × Dim F)) (labels : Option (List String)) (ylabel : String) (r c : Nat)
    (f : PanelFormat F) : Prop :=
  (r < c → f = .off) ∧
  (r = c → ∀ i d, chosen[r]? = some (i, d) → ∃ x y l, f = .axes x y ∧ AxisFor d x ∧ x.hidden = false ∧
    x.label = some l ∧ LabelOf labels chosen r l ∧ y.label = some ylabel) ∧
  (c < r → ∀ i d i' d', chosen[c]? = some (i, d) → chosen[r]? = some (i', d') →
    ∃ x y, f = .axes x y ∧ AxisFor d x ∧ AxisFor d' y ∧
      (r + 1 = n → x.hidden = false ∧ ∃ l, x.label = some l ∧ LabelOf labels chosen c l) ∧
      (c = 0 → y.hidden = false ∧ ∃ l, y.label = some l ∧ LabelOf labels chosen r l))

/-- A square matrix of panels all of which meet a description. -/
def PanelsMeet {α : Type} (n : Nat) (P : Nat → Nat → α → Prop) (m : List (List α)) : Prop :=
  m.length = n ∧ ∀ r row, m[r]? = some row → row.length = n ∧ ∀ c a, row[c]? = some a → P r c a

/-! ## Helpers -/

theorem panelMatrix_ok {α : Type} {n : Nat} {f : Nat → Nat → Except PyErr α} {P : Nat → Nat → α → Prop}
    (h : ∀ r < n, ∀ c < n, ∃ a, f r c = .ok a ∧ P r c a) : ∃ m, panelMatrix n f = .ok m ∧ PanelsMeet n P m := by
  have hrow : ∀ r < n, ∃ row, mapE (fun j => f r j) (List.range n) = .ok row ∧ row.length = n ∧
      ∀ c a, row[c]? = some a → P r c a := by
    intro r hr
    have : Nonempty α := ⟨(h r hr r hr).choose⟩
    choose! g hg using h r hr
    refine ⟨(List.range n).map g, mapE_ok_of_forall fun c hc => (hg c (List.mem_range.1 hc)).1, by simp, ?_⟩
    intro c a ha
    rw [List.getElem?_map, Option.map_eq_some_iff] at ha
    obtain ⟨c', hc', rfl⟩ := ha
    obtain ⟨h1, h2⟩ := List.getElem?_eq_some_iff.1 hc'
    rw [List.getElem_range] at h2
    subst h2
    exact (hg _ (by simpa using h1)).2
  choose! g hg using hrow
  refine ⟨(List.range n).map g, mapE_ok_of_forall fun r hr => (hg r (List.mem_range.1 hr)).1, by simp, ?_⟩
  intro r row hrow
  rw [List.getElem?_map, Option.map_eq_some_iff] at hrow
  obtain ⟨r', hr', rfl⟩ := hrow
  obtain ⟨h1, h2⟩ := List.getElem?_eq_some_iff.1 hr'
  rw [List.getElem_range] at h2
  subst h2
  exact (hg _ (by simpa using h1)).2

theorem pairDims_none [DecidableEq F] (dims : List (Dim F)) :
    ∃ chosen, pairDims dims none = chosen.map some ∧ Selected dims none chosen := by
  refine ⟨(dims.zipIdx.filter fun q => !q.1.isConstant).map fun q => (q.2, q.1), by simp [pairDims, Function.comp_def],
    ?_, ?_⟩
  · have h : (dims.zipIdx.map Prod.snd).Pairwise (· < ·) := by
      rw [List.zipIdx_map_snd]
      exact List.pairwise_lt_range'
    rw [List.map_map, List.pairwise_map]
    rw [List.pairwise_map] at h
    exact h.filter _
  · intro i d
    simp only [List.mem_map, List.mem_filter, Prod.mk.injEq, Bool.not_eq_true']
    constructor
    · rintro ⟨⟨e, k⟩, ⟨h1, h2⟩, rfl, rfl⟩
      exact ⟨by simpa [List.mk_mem_zipIdx_iff_getElem?] using h1, (varies_iff _).1 h2⟩
    · rintro ⟨h1, h2⟩
      exact ⟨(d, i), ⟨by simpa [List.mk_mem_zipIdx_iff_getElem?] using h1, (varies_iff _).2 h2⟩, rfl, rfl⟩

theorem selected_unique [DecidableEq F] {dims : List (Dim F)} {a b : List (Nat × Dim F)}
    (ha : Selected dims none a) (hb : Selected dims none b) : a = b := by
  obtain ⟨a1, a2⟩ := ha
  obtain ⟨b1, b2⟩ := hb
  rw [List.pairwise_map] at a1 b1
  have hp : a.Perm b := by
    rw [List.perm_ext_iff_of_nodup]
    · rintro ⟨i, d⟩
      rw [a2, b2]
    · exact a1.imp fun h e => by subst e; exact lt_irrefl _ h
    · exact b1.imp fun h e => by subst e; exact lt_irrefl _ h
  refine hp.eq_of_pairwise ?_ a1 b1
  intro x y _ _ h1 h2
  exact absurd (lt_trans h1 h2) (lt_irrefl _)

theorem pairDims_selected [DecidableEq F] {dims : List (Dim F)} {sel : Option (List Space.Key)}
    {chosen : List (Nat × Dim F)} (h : Selected dims sel chosen) : pairDims dims sel = chosen.map some := by
  cases sel with
  | none =>
    obtain ⟨c, h1, h2⟩ := pairDims_none dims
    rw [h1, selected_unique h h2]
  | some keys =>
    simp only [Selected] at h
    simp only [pairDims]
    induction h with
    | nil => rfl
    | @cons k q ks qs h1 _ ih =>
      rw [List.map_cons, List.map_cons, ih]
      congr 1
      obtain ⟨h1, h2⟩ := h1
      obtain ⟨i, d⟩ := q
      cases k with
      | name s =>
        simp only at h1 h2
        unfold Space.getDim
        rcases getDimFrom_name (s := s) (n := 0) (dims := dims) with ⟨g1, _⟩ | ⟨j, e, g1, g2, g3, g4⟩
        · exact absurd h2.1 (g1 d (List.mem_of_getElem? h1))
        · have : j = i := by
            rcases Nat.lt_trichotomy i j with hlt | heq | hgt
            · exact absurd h2.1 (g3 i hlt d h1)
            · exact heq.symm
            · exact absurd g2 (h2.2 j hgt e g1)
          subst this
          rw [g4]
          rw [g1] at h1
          rw [Option.some.inj h1]
          simp
      | index k =>
        simp only at h1 h2
        subst h2
        unfold Space.getDim
        rw [getDimFrom_index]
        simp [h1]

theorem selected_get [DecidableEq F] {dims : List (Dim F)} {sel : Option (List Space.Key)}
    {chosen : List (Nat × Dim F)} (h : Selected dims sel chosen) {k i : Nat} {d : Dim F}
    (hk : chosen[k]? = some (i, d)) : dims[i]? = some d := by
  have hm := List.mem_of_getElem? hk
  cases sel with
  | none => exact ((h.2 i d).1 hm).1
  | some keys =>
    simp only [Selected] at h
    clear hk
    induction h with
    | nil => cases hm
    | cons h1 _ ih =>
      rcases List.mem_cons.1 hm with e | hm
      · rw [← e] at h1
        exact h1.1
      · exact ih hm

theorem chosenDims_map (chosen : List (Nat × Dim F)) : chosenDims (chosen.map some) = .ok chosen := by
  unfold chosenDims
  rw [mapE_map]
  have := mapE_ok_of_forall (f := fun q : Nat × Dim F => (Except.ok q : Except PyErr _)) (g := id) (xs := chosen)
    (fun _ _ => rfl)
  rw [List.map_id] at this
  exact this

/-- What C71 says about the columns. -/
theorem column_ok [DecidableEq F] {A : Arith F} {dims : List (Dim F)} {points : List (Point F)} {pts : List (List F)}
    (hp : ∀ p ∈ points, List.Forall₂ Showable dims p) (hl : pts.length = points.length)
    (h : ∀ (k : Nat) (p : Point F) (row : List F), points[k]? = some p → pts[k]? = some row →
        row.length = dims.length ∧
        ∀ (i : Nat) (d : Dim F) (v : Val F) (x : F), dims[i]? = some d → p[i]? = some v → row[i]? = some x →
          DrawnAs A d v x)
    {i : Nat} {d : Dim F} (hd : dims[i]? = some d) : ∃ xs, drawnColumn pts i = .ok xs ∧ ColumnOf A i d points xs := by
  have hi := (List.getElem?_eq_some_iff.1 hd).1
  have key : ∀ k, ∃ x, k < pts.length → ∃ row p v, pts[k]? = some row ∧ points[k]? = some p ∧ row[i]? = some x ∧
      p[i]? = some v ∧ DrawnAs A d v x := by
    intro k
    by_cases hk : k < pts.length
    · have h2 : points[k]? = some (points[k]'(by omega)) := List.getElem?_eq_getElem (by omega)
      obtain ⟨l, g⟩ := h k _ _ h2 (List.getElem?_eq_getElem hk)
      have hpl := (hp _ (List.mem_of_getElem? h2)).length_eq
      refine ⟨pts[k][i]'(by omega), fun _ => ⟨_, _, _, List.getElem?_eq_getElem hk, h2,
        List.getElem?_eq_getElem (by omega), List.getElem?_eq_getElem (by omega), ?_⟩⟩
      exact g i d _ _ hd (List.getElem?_eq_getElem (by omega)) (List.getElem?_eq_getElem (by omega))
    · exact ⟨A.eps, fun h => absurd h hk⟩
  choose g hg using key
  refine ⟨(List.range pts.length).map g, ?_, ?_⟩
  · unfold drawnColumn
    rw [mapE_eq_ok, List.forall₂_iff_get]
    refine ⟨by simp, fun k h1 h2 => ?_⟩
    obtain ⟨row, p, v, e1, _, e3, _, _⟩ := hg k h1
    rw [List.getElem?_eq_getElem h1] at e1
    simp only [List.get_eq_getElem, List.getElem_map, List.getElem_range]
    rw [Option.some.inj e1, pyGet_eq_ok]
    exact e3
  · unfold ColumnOf
    rw [List.forall₂_iff_get]
    refine ⟨by simp [hl], fun k h1 h2 => ?_⟩
    obtain ⟨row, p, v, _, e2, _, e4, e5⟩ := hg k (by omega)
    rw [List.getElem?_eq_getElem h1] at e2
    simp only [List.get_eq_getElem, List.getElem_map, List.getElem_range]
    rw [Option.some.inj e2]
    exact ⟨v, e4, e5⟩

theorem formatPanel_ok [DecidableEq F] {chosen : List (Nat × Dim F)} {labels : Option (List String)} {ylabel : String}
    (hlab : ∀ ls, labels = some ls → ls.length = chosen.length) {r c : Nat} (hr : r < chosen.length)
    (hc : c < chosen.length) :
    ∃ f, formatPanel chosen.length chosen (panelLabels chosen labels) ylabel r c = .ok f ∧
      FormattedFor chosen.length chosen labels ylabel r c f := by
  have hlen : (panelLabels chosen labels).length = chosen.length := by
    cases labels with
    | none => simp [panelLabels]
    | some ls => exact hlab ls rfl
  have hL : ∀ k, k < chosen.length → ∃ l, pyGet (panelLabels chosen labels) k = .ok l ∧ LabelOf labels chosen k l := by
    intro k hk
    refine ⟨_, pyGet_lt (by omega), ?_⟩
    cases labels with
    | some ls => exact List.getElem?_eq_getElem (by rw [hlab ls rfl]; exact hk)
    | none =>
      refine ⟨chosen[k].1, chosen[k].2, List.getElem?_eq_getElem hk, ?_⟩
      simp only [panelLabels, List.getElem_map]
      cases chosen[k].2.name with
      | none => exact Or.inr ⟨rfl, rfl⟩
      | some s => exact Or.inl rfl
  have hax : ∀ (d : Dim F) (cats : Option (List (Val F))) (l : Option String) (h : Bool),
      (h = false → cats = d.tickNames) → (d.isCat = false → cats = none) →
      AxisFor d { lim := d.axisLimits, log := d.logPrior, cats := cats, label := l, hidden := h } := by
    intro d cats l h h1 h2
    cases d with
    | real d => exact ⟨rfl, by simp [Dim.logPrior], h2 rfl⟩
    | int d => exact ⟨rfl, by simp [Dim.logPrior], h2 rfl⟩
    | cat c => exact ⟨rfl, rfl, h1⟩
  have hcat : ∀ d : Dim F, d.isCat = false → d.tickNames = none := by
    intro d h; cases d <;> first | rfl | cases h
  have er : chosen[r]? = some chosen[r] := List.getElem?_eq_getElem hr
  have ec : chosen[c]? = some chosen[c] := List.getElem?_eq_getElem hc
  obtain ⟨lc, hlc, hlc'⟩ := hL c hc
  obtain ⟨lr, hlr, hlr'⟩ := hL r hr
  unfold formatPanel
  rw [pyGet_lt hr, pyGet_lt hc, ok_bind, ok_bind]
  rcases Nat.lt_trichotomy r c with h | h | h
  · rw [if_pos h]
    exact ⟨_, rfl, fun _ => rfl, fun e => by omega, fun e => by omega⟩
  · subst h
    rw [if_neg (lt_irrefl r), if_neg (lt_irrefl r), hlc, ok_bind]
    refine ⟨_, rfl, fun e => by omega, fun _ i d hd => ?_, fun e => by omega⟩
    rw [er] at hd
    have hd := Option.some.inj hd
    refine ⟨_, _, lc, rfl, ?_, rfl, rfl, hlc', rfl⟩
    rw [hd]
    refine hax d _ _ _ (fun _ => ?_) (fun h => ?_)
    · cases d with
      | cat c => rfl
      | _ => simp [Dim.tickNames]
    · simp [hcat d h]
  · rw [if_neg (by omega), if_pos h]
    have e1 : labelIf (decide (r + 1 = chosen.length)) (panelLabels chosen labels) c =
        .ok (if r + 1 = chosen.length then some lc else none) := by
      unfold labelIf; rw [hlc]; split <;> simp_all [Except.map]
    have e2 : labelIf (decide (c = 0)) (panelLabels chosen labels) r = .ok (if c = 0 then some lr else none) := by
      unfold labelIf; rw [hlr]; split <;> simp_all [Except.map]
    rw [e1, e2, ok_bind, ok_bind]
    refine ⟨_, rfl, fun e => by omega, fun e => by omega, fun _ i d i' d' hd hd' => ?_⟩
    rw [ec] at hd
    rw [er] at hd'
    have hd := Option.some.inj hd
    have hd' := Option.some.inj hd'
    refine ⟨_, _, rfl, ?_, ?_, ?_, ?_⟩
    · rw [hd]
      exact hax d _ _ _ (fun _ => rfl) (hcat d)
    · rw [hd']
      refine hax d' _ _ _ (fun h => ?_) (fun h => ?_)
      · rw [decide_eq_false_iff_not, not_not] at h
        rw [if_pos h]
      · rw [hcat d' h, ite_self]
    · intro hn
      exact ⟨by simp [hn], lc, if_pos hn, hlc'⟩
    · intro hn
      exact ⟨by simp [hn], lr, if_pos hn, hlr'⟩

/-! ## C78 -/

/-- **C78 (`plot_evaluations`).** For points of the space, dimensions chosen by the user or by default, and as many
labels as chosen dimensions (or none), `plot_evaluations` succeeds, every panel shows the data of the dimensions of its
row and column, and every axis has the limits, scale, tick names and label of its dimension - provided the `k`-th chosen
dimension is categorical exactly if the `k`-th dimension of the space is.

Missing: choices without this coincidence, for which the claim is false (see `C78_refuted_constant_dimension` and
`C78_refuted_selection`). -/
theorem C78_plot_evaluations_partial [DecidableEq F] (A : Arith F) (dims : List (Dim F)) (points : List (Point F))
    (best : Point F) (hp : ∀ p ∈ points, List.Forall₂ Showable dims p) (hb : List.Forall₂ Showable dims best)
    (bins : Nat) (labels : Option (List String)) (sel : Option (List Space.Key)) (chosen : List (Nat × Dim F))
    (hsel : Selected dims sel chosen) (hne : chosen ≠ []) (hlab : ∀ ls, labels = some ls → ls.length = chosen.length)
    (hcat : ∀ (k i : Nat) (d : Dim F), chosen[k]? = some (i, d) → ∃ e, dims[k]? = some e ∧ e.isCat = d.isCat) :
    ∃ panels fmts, plotEvaluations A dims points best bins labels sel = .ok (panels, fmts) ∧
      PanelsMeet chosen.length (ShowsEvaluations A points best bins chosen) panels ∧
      PanelsMeet chosen.length (FormattedFor chosen.length chosen labels "Number of samples") fmts := by
  obtain ⟨pts, mn, iscat, h1, h2, h3, h4, h5, h6, h7⟩ := C71_map_categories A dims points best hp hb
  have hcol := fun {i : Nat} {d : Dim F} (hd : dims[i]? = some d) => column_ok hp h2 h3 hd
  have hmin : ∀ {i : Nat} {d : Dim F}, dims[i]? = some d → ∃ x, pyGet mn i = .ok x ∧ ColumnOf A i d [best] [x] := by
    intro i d hd
    have hi := (List.getElem?_eq_some_iff.1 hd).1
    have hbl := hb.length_eq
    refine ⟨mn[i], pyGet_lt (by omega), .cons ⟨best[i]'(by omega), List.getElem?_eq_getElem (by omega), ?_⟩ .nil⟩
    exact h5 i d _ _ hd (List.getElem?_eq_getElem (by omega)) (List.getElem?_eq_getElem (by omega))
  obtain ⟨panels, p1, p2⟩ := panelMatrix_ok (n := chosen.length) (f := evalPanel A pts mn iscat chosen bins)
    (P := ShowsEvaluations A points best bins chosen) (by
      intro r hr c hc
      have er : chosen[r]? = some chosen[r] := List.getElem?_eq_getElem hr
      have ec : chosen[c]? = some chosen[c] := List.getElem?_eq_getElem hc
      have hdr : dims[chosen[r].1]? = some chosen[r].2 := selected_get hsel er
      have hdc : dims[chosen[c].1]? = some chosen[c].2 := selected_get hsel ec
      unfold evalPanel
      rcases Nat.lt_trichotomy r c with h | h | h
      · rw [if_neg (by omega), if_neg (by omega)]
        exact ⟨_, rfl, fun _ => rfl, fun e => by omega, fun e => by omega⟩
      · subst h
        rw [if_pos rfl]
        obtain ⟨vs, hvs, hvs'⟩ := hcol hdr
        obtain ⟨e, he, hee⟩ := hcat r chosen[r].1 chosen[r].2 er
        have hi : pyGet iscat r = .ok chosen[r].2.isCat := by
          have hlt : r < iscat.length := by
            rw [h6]; exact (List.getElem?_eq_some_iff.1 he).1
          rw [pyGet_lt hlt]
          congr 1
          have := h7 r e he
          rw [List.getElem?_eq_getElem hlt, Option.some.injEq] at this
          rw [← hee, Bool.eq_iff_iff, this]
          cases e <;> simp [Dim.isCat]
        have hbins : ∃ b, histBins A chosen[r].2.isCat chosen[r].2 bins = .ok b ∧
            Binning A chosen[r].2 bins b (if chosen[r].2.isCat then none else some chosen[r].2.boundVals) := by
          cases chosen[r].2 with
          | cat c => exact ⟨_, rfl, rfl, rfl⟩
          | real d =>
            refine ⟨_, rfl, rfl, fun h => ?_, fun h => ?_⟩ <;> simp [h]
          | int d =>
            refine ⟨_, rfl, rfl, fun h => ?_, fun h => ?_⟩ <;> simp [h]
        obtain ⟨b, hb1, hb2⟩ := hbins
        rw [pyGet_lt hr, ok_bind, hi, ok_bind, hb1, ok_bind, hvs, ok_bind]
        refine ⟨_, rfl, fun e => by omega, fun _ i d hd => ?_, fun e => by omega⟩
        rw [er] at hd
        have hd := Option.some.inj hd
        rw [hd] at hvs' hb2
        exact ⟨_, _, _, rfl, hvs', by rw [hd]; exact hb2⟩
      · rw [if_neg (by omega), if_pos h]
        obtain ⟨xs, hxs, hxs'⟩ := hcol hdc
        obtain ⟨ys, hys, hys'⟩ := hcol hdr
        obtain ⟨x, hx, hx'⟩ := hmin hdc
        obtain ⟨y, hy, hy'⟩ := hmin hdr
        rw [pyGet_lt hr, ok_bind, pyGet_lt hc, ok_bind, hxs, ok_bind, hys, ok_bind, hx, ok_bind, hy, ok_bind]
        refine ⟨_, rfl, fun e => by omega, fun e => by omega, fun _ i d i' d' hd hd' => ?_⟩
        rw [ec] at hd
        rw [er] at hd'
        have hd := Option.some.inj hd
        have hd' := Option.some.inj hd'
        rw [hd] at hxs' hx'
        rw [hd'] at hys' hy'
        exact ⟨xs, ys, x, y, rfl, hxs', hys', hx', hy'⟩)
  obtain ⟨fmts, q1, q2⟩ := panelMatrix_ok (n := chosen.length)
    (f := formatPanel chosen.length chosen (panelLabels chosen labels) "Number of samples")
    (P := FormattedFor chosen.length chosen labels "Number of samples")
    (fun r hr c hc => formatPanel_ok hlab hr hc)
  refine ⟨panels, fmts, ?_, p2, q2⟩
  have hl : checkLabels chosen.length labels = .ok () := by
    unfold checkLabels
    cases labels with
    | none => rfl
    | some ls => exact if_pos (hlab ls rfl)
  have hn : checkPanels chosen.length = .ok () := if_neg (by simpa using hne)
  unfold plotEvaluations
  simp only [h1, ok_bind, pairDims_selected hsel, List.length_map, hl, hn, chosenDims_map, p1, q1]

/-! ## Examples and refutations for `plot_evaluations` -/

/-- `Real(1, 10, name="lr")` and `Categorical(["a", "b", "c"], name="kind")`. -/
def pairSpace : List (Dim ℚ) := [.real ⟨1, 10, .uniform, 10, .normalize, some "lr", id⟩,
  .cat ⟨[.str "a", .str "b", .str "c"], none, .onehot, some "kind", fun _ => "", fun s => .ok (.str s)⟩]

theorem pairSpace_showable : ∀ p ∈ [[.num 3, .str "b"], [.num 1, .str "a"]], List.Forall₂ Showable pairSpace p := by
  have hc : ([.str "a", .str "b", .str "c"] : List (Val ℚ)).Nodup := by decide +kernel
  intro p hp
  simp only [List.mem_cons, List.not_mem_nil, or_false] at hp
  rcases hp with rfl | rfl
  · exact .cons ⟨3, rfl⟩ (.cons ⟨hc, by simp⟩ .nil)
  · exact .cons ⟨1, rfl⟩ (.cons ⟨hc, by simp⟩ .nil)

/-- Every dimension with its position. -/
def allDims (dims : List (Dim F)) : List (Nat × Dim F) := dims.zipIdx.map fun q => (q.2, q.1)

/-- By default all dimensions are shown if none is constant. -/
theorem selected_all [DecidableEq F] {dims : List (Dim F)} (h : ∀ d ∈ dims, d.isConstant = false) :
    Selected dims none (allDims dims) := by
  refine ⟨?_, fun i d => ?_⟩
  · have h : (dims.zipIdx.map Prod.snd).Pairwise (· < ·) := by
      rw [List.zipIdx_map_snd]
      exact List.pairwise_lt_range'
    rw [allDims, List.map_map]
    exact h
  · simp only [allDims, List.mem_map, Prod.mk.injEq]
    constructor
    · rintro ⟨⟨e, k⟩, h1, rfl, rfl⟩
      have h2 : dims[k]? = some e := by simpa [List.mk_mem_zipIdx_iff_getElem?] using h1
      exact ⟨h2, (varies_iff _).1 (h e (List.mem_of_getElem? h2))⟩
    · rintro ⟨h1, h2⟩
      exact ⟨(d, i), by simpa [List.mk_mem_zipIdx_iff_getElem?] using h1, rfl, rfl⟩

theorem allDims_get {dims : List (Dim F)} {k i : Nat} {d : Dim F} (h : (allDims dims)[k]? = some (i, d)) :
    i = k ∧ dims[k]? = some d := by
  simp only [allDims, List.getElem?_map, List.getElem?_zipIdx, Option.map_eq_some_iff] at h
  obtain ⟨q, ⟨e, h1, rfl⟩, h2⟩ := h
  simp only [zero_add, Prod.mk.injEq] at h2
  exact ⟨h2.1.symm, by rw [h1, h2.2]⟩

theorem pairSpace_varies : ∀ d ∈ pairSpace, d.isConstant = false := by decide +kernel

/-- The hypotheses of `C78_plot_evaluations_partial` are met, and this is what the panels show. -/
example : (∃ panels fmts, plotEvaluations ratArith pairSpace [[.num 3, .str "b"], [.num 1, .str "a"]]
      [.num 1, .str "a"] 20 none none = .ok (panels, fmts) ∧
      PanelsMeet 2 (ShowsEvaluations ratArith [[.num 3, .str "b"], [.num 1, .str "a"]] [.num 1, .str "a"] 20
        (allDims pairSpace)) panels) ∧
    (plotEvaluations ratArith pairSpace [[.num 3, .str "b"], [.num 1, .str "a"]] [.num 1, .str "a"] 20 none none).map
        Prod.fst = .ok [[.hist [3, 1] (.count 20) (some [.num 1, .num 10]), .empty],
      [.scatter [3, 1] [1, 0] (1, 0), .hist [1, 0] (.count 3) none]] := by
  refine ⟨?_, by decide +kernel⟩
  obtain ⟨panels, fmts, h1, h2, -⟩ := C78_plot_evaluations_partial ratArith pairSpace
    [[.num 3, .str "b"], [.num 1, .str "a"]] [.num 1, .str "a"] pairSpace_showable
    (pairSpace_showable _ (by simp)) 20 none none _ (selected_all pairSpace_varies) (by simp [allDims, pairSpace])
    (by simp) (by
      intro k i d h
      exact ⟨d, (allDims_get h).2, rfl⟩)
  exact ⟨panels, fmts, h1, h2⟩

/-- **C78 fails with a constant dimension.** `Categorical(["a"])` is left out of the plot, but `plot_evaluations` asks
whether the first dimension *of the space* is categorical when it draws the first dimension *of the plot*, and
raises `AttributeError` because `Real(1, 10)` has no categories. -/
theorem C78_refuted_constant_dimension :
    let dims : List (Dim ℚ) := [.cat ⟨[.str "a"], none, .onehot, none, fun _ => "", fun s => .ok (.str s)⟩,
      .real ⟨1, 10, .uniform, 10, .normalize, none, id⟩]
    pairDims dims none = [some (1, .real ⟨1, 10, .uniform, 10, .normalize, none, id⟩)] ∧
    plotEvaluations ratArith dims [[.str "a", .num 3]] [.str "a", .num 3] 20 none none = .error .attributeError := by
  refine ⟨?_, by decide +kernel⟩
  simp [pairDims, Dim.isConstant, List.zipIdx]

/-- **C78 fails for a selection.** Asked for the categorical dimension only, `plot_evaluations` draws its histogram
as if it were numeric: 20 bins, with the three categories as the range. -/
theorem C78_refuted_selection :
    (plotEvaluations ratArith pairSpace [[.num 3, .str "b"], [.num 1, .str "a"]] [.num 1, .str "a"] 20 none
      (some [.name "kind"])).map Prod.fst =
      .ok [[.hist [1, 0] (.count 20) (some [.str "a", .str "b", .str "c"])]] ∧
    plotEvaluations ratArith pairSpace.reverse [[.str "b", .num 3], [.str "a", .num 1]] [.str "a", .num 1] 20 none
      (some [.name "lr"]) = .error .attributeError := by
  refine ⟨by decide +kernel, by decide +kernel⟩

/-! ## Edges -/

/-- **C78 (logarithmic histograms).** Over exact reals the edges run from `low` to `high` in geometric progression. -/
theorem C78_log_edges (low high : ℝ) (hl : 0 < low) (hh : 0 < high) (n : Nat) (hn : 2 ≤ n) :
    (logEdges exact low high n).length = n ∧
    ∀ (k : Nat) (e : ℝ), (logEdges exact low high n)[k]? = some e →
      e = low * (high / low) ^ ((k : ℝ) / ((n : ℝ) - 1)) := by
  have hn1 : n ≠ 1 := by omega
  have hn2 : (n : ℝ) - 1 ≠ 0 := by
    have : (2 : ℝ) ≤ n := by exact_mod_cast hn
    linarith
  have hq : 0 < high / low := div_pos hh hl
  unfold logEdges linspaceA
  rw [if_neg hn1]
  refine ⟨by simp, fun k e he => ?_⟩
  rw [List.getElem?_map, List.getElem?_map, Option.map_map, Option.map_eq_some_iff] at he
  obtain ⟨k', hk', rfl⟩ := he
  obtain ⟨h1, h2⟩ := List.getElem?_eq_some_iff.1 hk'
  rw [List.getElem_range] at h2
  subst h2
  have h10 : ((10 : ℤ) : ℝ) = 10 := by norm_num
  simp only [Function.comp, exact, h10]
  have key : ∀ t : ℝ, low * (high / low) ^ t = 10 ^ (t * (Real.logb 10 high - Real.logb 10 low) + Real.logb 10 low) := by
    intro t
    rw [← Real.logb_div hh.ne' hl.ne', Real.rpow_add (by norm_num), mul_comm t, Real.rpow_mul (by norm_num),
      Real.rpow_logb (by norm_num) (by norm_num) hq, Real.rpow_logb (by norm_num) (by norm_num) hl, mul_comm]
  rw [key]
  congr 1
  split
  · next h =>
    have : (k : ℝ) = n - 1 := by
      rw [← h]; push_cast; ring
    rw [this, div_self hn2]
    ring
  · push_cast
    field_simp

example : (logEdges exact 1 100 3)[1]? = some 10 := by
  have h := C78_log_edges 1 100 (by norm_num) (by norm_num) 3 (by norm_num)
  have hl : 1 < (logEdges exact 1 100 3).length := by rw [h.1]; norm_num
  rw [List.getElem?_eq_getElem hl, h.2 1 _ (List.getElem?_eq_getElem hl)]
  congr 1
  rw [show ((1 : ℕ) : ℝ) / (((3 : ℕ) : ℝ) - 1) = 1 / 2 by norm_num, ← Real.sqrt_eq_rpow,
    show (100 / 1 : ℝ) = 10 ^ 2 by norm_num, Real.sqrt_sq (by norm_num)]
  norm_num

/-! ## `plot_objective` -/

/-- What the panel in row `r` and column `c` of `plot_objective` should show: on the diagonal the mean prediction over
the points `P` as a function of the dimension and a line at the marked point; below it the mean prediction as a
function of two dimensions, the evaluated points and the marked point. -/
def ShowsObjective (dims : List (Dim ℝ)) (predict : List (List (Val ℝ)) → Except PyErr (List ℝ)) (P : List (Point ℝ))
    (points : List (Point ℝ)) (marked : Point ℝ) (chosen : List (Nat × Dim ℝ)) (r c : Nat) (panel : ObjPanel) : Prop :=
  (r < c → panel = .empty) ∧
  (r = c → ∀ i d, chosen[r]? = some (i, d) → ∃ xs ys l, panel = .curve xs ys l ∧
    List.Forall₂ (fun x y => ∃ v, AxisValue d x v ∧ Within d v ∧ MeanOver dims predict P (fun p => p.set i v) y)
      xs ys ∧ ColumnOf exact i d [marked] [l]) ∧
  (c < r → ∀ i d i' d', chosen[c]? = some (i, d) → chosen[r]? = some (i', d') →
    ∃ xs ys zs sx sy x y, panel = .contour xs ys zs (sx, sy) (x, y) ∧
      List.Forall₂ (fun b row => ∃ w, AxisValue d' b w ∧ Within d' w ∧
        List.Forall₂ (fun a z => ∃ v, AxisValue d a v ∧ Within d v ∧
          MeanOver dims predict P (fun p => (p.set i v).set i' w) z) xs row) ys zs ∧
      ColumnOf exact i d points sx ∧ ColumnOf exact i' d' points sy ∧
      ColumnOf exact i d [marked] [x] ∧ ColumnOf exact i' d' [marked] [y])

theorem panelMatrix_meet {α : Type} {n : Nat} {f : Nat → Nat → Except PyErr α} {m : List (List α)}
    (h : panelMatrix n f = .ok m) : PanelsMeet n (fun r c a => r < n ∧ c < n ∧ f r c = .ok a) m := by
  unfold panelMatrix at h
  refine ⟨by simpa using mapE_length h, fun r row hr => ?_⟩
  have hf := List.forall₂_iff_get.1 (mapE_eq_ok.1 h)
  obtain ⟨h1, h2⟩ := List.getElem?_eq_some_iff.1 hr
  have h3 : r < n := by
    have := hf.1
    rw [List.length_range] at this
    omega
  have hrow := hf.2 r (by simpa using h3) h1
  simp only [List.get_eq_getElem, List.getElem_range, h2] at hrow
  refine ⟨by simpa using mapE_length hrow, fun c a hc => ?_⟩
  have hg := List.forall₂_iff_get.1 (mapE_eq_ok.1 hrow)
  obtain ⟨g1, g2⟩ := List.getElem?_eq_some_iff.1 hc
  have g3 : c < n := by
    have := hg.1
    rw [List.length_range] at this
    omega
  have := hg.2 c (by simpa using g3) g1
  simp only [List.get_eq_getElem, List.getElem_range, g2] at this
  exact ⟨h3, g3, this⟩

/-- **C78 (`plot_objective`).** Exact arithmetic.  If `plot_objective` returns, every panel shows the dimensions of its
row and column - the mean prediction over the sampled points `P` as a function of them, the evaluated points, and the
marked point - and every axis has the limits, scale, tick names and label of its dimension.  `P` are points of the space
whose encoding is handed to the model (random samples, or the one point of `sample_source`).

Missing: samples encoded as strings, and samples in an array of integers (`C73_integer_samples_partial`). -/
theorem C78_plot_objective_partial (dims : List (Dim ℝ)) (hv : ∀ d ∈ dims, ValidDim exact d)
    (hs : ∀ d ∈ dims, YieldsNoStr d) (predict : List (List (Val ℝ)) → Except PyErr (List ℝ))
    (hpr : PdRowwise predict) (P : List (Point ℝ)) (hPne : P ≠ []) (hP : ∀ p ∈ P, InSpace exact dims p)
    (S : List (List (Val ℝ))) (hS : Space.transform exact dims P = .ok S) (points : List (Point ℝ)) (marked : Point ℝ)
    (hp : ∀ p ∈ points, List.Forall₂ Showable dims p) (hb : List.Forall₂ Showable dims marked) (nPoints : Nat)
    (z : ZScale) (labels : Option (List String)) (sel : Option (List Space.Key)) (chosen : List (Nat × Dim ℝ))
    (hsel : Selected dims sel chosen) (panels : List (List ObjPanel)) (fmts : List (List (PanelFormat ℝ)))
    (h : plotObjective dims predict points marked false S nPoints z labels sel = .ok (panels, fmts)) :
    PanelsMeet chosen.length (ShowsObjective dims predict P points marked chosen) panels ∧
    PanelsMeet chosen.length (FormattedFor chosen.length chosen labels "Partial dependence") fmts := by
  obtain ⟨pts, mn, iscat, h1, h2, h3, h4, h5, h6, h7⟩ := C71_map_categories exact dims points marked hp hb
  have hcol : ∀ {i : Nat} {d : Dim ℝ} {xs : List ℝ}, dims[i]? = some d → drawnColumn pts i = .ok xs →
      ColumnOf exact i d points xs := by
    intro i d xs hd hx
    obtain ⟨ys, e1, e2⟩ := column_ok hp h2 h3 hd
    rw [hx] at e1
    rw [Except.ok.inj e1]
    exact e2
  have hmin : ∀ {i : Nat} {d : Dim ℝ} {x : ℝ}, dims[i]? = some d → pyGet mn i = .ok x →
      ColumnOf exact i d [marked] [x] := by
    intro i d x hd hx
    have hi := (List.getElem?_eq_some_iff.1 hd).1
    have hbl := hb.length_eq
    exact .cons ⟨marked[i]'(by omega), List.getElem?_eq_getElem (by omega),
      h5 i d _ _ hd (List.getElem?_eq_getElem (by omega)) (pyGet_eq_ok.1 hx)⟩ .nil
  unfold plotObjective at h
  simp only [pairDims_selected hsel, List.length_map, h1, ok_bind, chosenDims_map] at h
  rw [bind_eq_ok] at h
  obtain ⟨_, hl, h⟩ := h
  split at h
  · cases h
  rw [bind_eq_ok] at h
  obtain ⟨-, -, h⟩ := h
  simp only [bind_eq_ok, Except.ok.injEq, Prod.mk.injEq] at h
  obtain ⟨ps, hps, fs, hfs, rfl, rfl⟩ := h
  have hlab : ∀ ls, labels = some ls → ls.length = chosen.length := by
    rintro ls rfl
    unfold checkLabels at hl
    simp only at hl
    split at hl
    · assumption
    · cases hl
  constructor
  · obtain ⟨m1, m2⟩ := panelMatrix_meet hps
    refine ⟨m1, fun r row hr => ?_⟩
    obtain ⟨m3, m4⟩ := m2 r row hr
    refine ⟨m3, fun c a ha => ?_⟩
    obtain ⟨hr', hc', hf⟩ := m4 c a ha
    have er : chosen[r]? = some chosen[r] := List.getElem?_eq_getElem hr'
    have ec : chosen[c]? = some chosen[c] := List.getElem?_eq_getElem hc'
    have hdr : dims[chosen[r].1]? = some chosen[r].2 := selected_get hsel er
    have hdc : dims[chosen[c].1]? = some chosen[c].2 := selected_get hsel ec
    unfold objPanel at hf
    rw [pyGet_lt hr', pyGet_lt hc', ok_bind, ok_bind, ok_bind] at hf
    rcases Nat.lt_trichotomy r c with h | h | h
    · rw [if_neg (by omega), if_neg (by omega)] at hf
      exact ⟨fun _ => (Except.ok.inj hf).symm, fun e => by omega, fun e => by omega⟩
    · subst h
      rw [if_pos rfl] at hf
      simp only [bind_eq_ok, Except.ok.injEq] at hf
      obtain ⟨⟨xs, ys⟩, e1, l, e2, rfl⟩ := hf
      refine ⟨fun e => by omega, fun _ i d hd => ?_, fun e => by omega⟩
      rw [er] at hd
      have hd := Option.some.inj hd
      rw [hd] at e1 e2 hdr
      exact ⟨xs, ys, l, rfl, C73_partial_dependence_1D_partial dims hv hs predict hpr P hPne hP S hS i nPoints d hdr
        xs ys e1, hmin hdr e2⟩
    · rw [if_neg (by omega), if_pos h] at hf
      simp only [bind_eq_ok, Except.ok.injEq] at hf
      obtain ⟨⟨xs, ys, zs⟩, e1, sx, e2, sy, e3, x, e4, y, e5, rfl⟩ := hf
      refine ⟨fun e => by omega, fun e => by omega, fun _ i d i' d' hd hd' => ?_⟩
      rw [ec] at hd
      rw [er] at hd'
      have hd := Option.some.inj hd
      have hd' := Option.some.inj hd'
      rw [hd] at e1 e2 e4 hdc
      rw [hd'] at e1 e3 e5 hdr
      exact ⟨xs, ys, zs, sx, sy, x, y, rfl, C73_partial_dependence_2D_partial dims hv hs predict hpr P hPne hP S hS
        i' i nPoints d' d hdr hdc xs ys zs e1, hcol hdc e2, hcol hdr e3, hmin hdc e4, hmin hdr e5⟩
  · obtain ⟨fs', f1, f2⟩ := panelMatrix_ok (n := chosen.length)
      (f := formatPanel chosen.length chosen (panelLabels chosen labels) "Partial dependence")
      (P := FormattedFor chosen.length chosen labels "Partial dependence")
      (fun r hr c hc => formatPanel_ok hlab hr hc)
    rw [hfs] at f1
    rw [Except.ok.inj f1]
    exact f2

/-- The second dimension alone, with the evaluated point `(1, 3)` marked: the curve of C73's example. -/
example : Selected pdDims (some [.index 1]) [(1, .real ⟨0, 4, .uniform, 10, .identity, none, id⟩)] ∧
    (plotObjective pdDims pdModel [[.num 1, .num 3]] [.num 1, .num 3] false [[.num 1, .num 3]] 2 .linear none
      (some [.index 1])).map Prod.fst = .ok [[.curve [0, 4] [1, 5] 3]] := by
  constructor
  · exact .cons ⟨rfl, rfl⟩ .nil
  · have e1 : pairDims pdDims (some [.index 1]) = [some (1, .real ⟨0, 4, .uniform, 10, .identity, none, id⟩)] := rfl
    have e2 : mapCategories exact pdDims [[.num 1, .num 3]] [.num 1, .num 3] = .ok ([[1, 3]], [1, 3], [false, false]) := rfl
    have e3 : panelMatrix 1 (objPanel pdDims pdModel false [[.num 1, .num 3]] 2 [[1, 3]] [1, 3]
        [(1, .real ⟨0, 4, .uniform, 10, .identity, none, id⟩)]) = .ok [[.curve [0, 4] [1, 5] 3]] := by
      have := pd_example_last
      simp only [panelMatrix, List.range_succ, List.range_zero, List.nil_append, mapE, objPanel, if_true]
      rw [show pyGet [((1, .real ⟨0, 4, .uniform, 10, .identity, none, id⟩) : Nat × Dim ℝ)] 0 =
        .ok (1, .real ⟨0, 4, .uniform, 10, .identity, none, id⟩) from rfl, ok_bind]
      simp only [Nat.cast_one, this, ok_bind]
      rfl
    unfold plotObjective
    simp only [e1, e2, List.length_cons, List.length_nil, zero_add, checkLabels, checkPanels, one_ne_zero, if_false, ok_bind,
      reduceCtorEq]
    rw [show chosenDims [some ((1, .real ⟨0, 4, .uniform, 10, .identity, none, id⟩) : Nat × Dim ℝ)] =
      .ok [(1, .real ⟨0, 4, .uniform, 10, .identity, none, id⟩)] from rfl, ok_bind, e3, ok_bind]
    rfl

/-! ## `plot_objective_2D` -/

theorem getDim_selected [DecidableEq F] {dims : List (Dim F)} {k : Space.Key} {q : Nat × Dim F}
    (h : Selected dims (some [k]) [q]) : Space.getDim dims k = some q := by
  have := pairDims_selected h
  simpa [pairDims] using this

/-- **C78 (`plot_objective_2D`).** Exact arithmetic.  If `plot_objective_2D` returns, the horizontal axis belongs to the
dimension named first and the vertical axis to the one named second: the contour value at a position is the mean
prediction over the sampled points `P` with these two coordinates replaced, the dots are these two coordinates of the
evaluated points, the star is at these two coordinates of the marked point, and labels and scales of the axes are those
of the dimensions.

Missing: samples encoded as strings, and samples in an array of integers (`C73_integer_samples_partial`). -/
theorem C78_plot_objective_2D_partial (dims : List (Dim ℝ)) (hv : ∀ d ∈ dims, ValidDim exact d)
    (hs : ∀ d ∈ dims, YieldsNoStr d) (predict : List (List (Val ℝ)) → Except PyErr (List ℝ))
    (hpr : PdRowwise predict) (P : List (Point ℝ)) (hPne : P ≠ []) (hP : ∀ p ∈ P, InSpace exact dims p)
    (S : List (List (Val ℝ))) (hS : Space.transform exact dims P = .ok S) (points : List (Point ℝ)) (marked : Point ℝ)
    (hp : ∀ p ∈ points, List.Forall₂ Showable dims p) (hb : List.Forall₂ Showable dims marked) (nPoints : Nat)
    (z : ZScale) (key1 key2 : Space.Key) (i i' : Nat) (d d' : Dim ℝ)
    (hsel : Selected dims (some [key1, key2]) [(i, d), (i', d')]) (r : Plot2D)
    (h : plotObjective2D dims predict points marked false S nPoints z key1 key2 = .ok r) :
    List.Forall₂ (fun b row => ∃ w, AxisValue d' b w ∧ Within d' w ∧
      List.Forall₂ (fun a z => ∃ v, AxisValue d a v ∧ Within d v ∧
        MeanOver dims predict P (fun p => (p.set i v).set i' w) z) r.xs row) r.ys r.zs ∧
    ColumnOf exact i d points r.samples.1 ∧ ColumnOf exact i' d' points r.samples.2 ∧
    ColumnOf exact i d [marked] [r.star.1] ∧ ColumnOf exact i' d' [marked] [r.star.2] ∧
    r.labels = (d.name, d'.name) ∧
    (r.logs.1 = true ↔ LogScaled d) ∧ (r.logs.2 = true ↔ LogScaled d') ∧ (r.logLevels = true ↔ z = .log) := by
  obtain ⟨pts, mn, iscat, h1, h2, h3, h4, h5, h6, h7⟩ := C71_map_categories exact dims points marked hp hb
  have hcol : ∀ {i : Nat} {d : Dim ℝ} {xs : List ℝ}, dims[i]? = some d → drawnColumn pts i = .ok xs →
      ColumnOf exact i d points xs := by
    intro i d xs hd hx
    obtain ⟨ys, e1, e2⟩ := column_ok hp h2 h3 hd
    rw [hx] at e1
    rw [Except.ok.inj e1]
    exact e2
  have hmin : ∀ {i : Nat} {d : Dim ℝ} {x : ℝ}, dims[i]? = some d → pyGet mn i = .ok x →
      ColumnOf exact i d [marked] [x] := by
    intro i d x hd hx
    have hi := (List.getElem?_eq_some_iff.1 hd).1
    have hbl := hb.length_eq
    exact .cons ⟨marked[i]'(by omega), List.getElem?_eq_getElem (by omega),
      h5 i d _ _ hd (List.getElem?_eq_getElem (by omega)) (pyGet_eq_ok.1 hx)⟩ .nil
  have hd : dims[i]? = some d := selected_get hsel (k := 0) rfl
  have hd' : dims[i']? = some d' := selected_get hsel (k := 1) rfl
  have s1 : Space.getDim dims key1 = some (i, d) := by
    cases hsel with | cons a _ => exact getDim_selected (.cons a .nil)
  have s2 : Space.getDim dims key2 = some (i', d') := by
    cases hsel with | cons _ b => cases b with | cons b _ => exact getDim_selected (.cons b .nil)
  unfold plotObjective2D at h
  simp only [h1, ok_bind, s1, s2, bind_eq_ok, Except.ok.injEq] at h
  obtain ⟨xs, e1, ys, e2, x, e3, y, e4, ⟨cx, cy, cz⟩, e5, rfl⟩ := h
  refine ⟨C73_partial_dependence_2D_partial dims hv hs predict hpr P hPne hP S hS i' i nPoints d' d hd' hd cx cy cz e5,
    hcol hd e1, hcol hd' e2, hmin hd e3, hmin hd' e4, rfl, ?_, ?_, by simp⟩
  · cases d <;> simp [Dim.logPrior, LogScaled]
  · cases d' <;> simp [Dim.logPrior, LogScaled]

/-- The space of C73's example, vertical axis first: contour data as there, and the evaluated point `(1, 3)`. -/
example : Selected pdDims (some [.index 0, .index 1])
      [(0, .real ⟨0, 2, .uniform, 10, .identity, none, id⟩), (1, .real ⟨0, 4, .uniform, 10, .identity, none, id⟩)] ∧
    (plotObjective2D pdDims pdModel [[.num 1, .num 3]] [.num 1, .num 3] false [[.num 1, .num 3]] 2 .linear (.index 0) (.index 1)).map
      (fun r => (r.xs, r.ys, r.zs, r.samples, r.star)) =
      .ok ([0, 2], [0, 4], [[0, 2], [4, 6]], ([1], [3]), (1, 3)) := by
  constructor
  · exact .cons ⟨rfl, rfl⟩ (.cons ⟨rfl, rfl⟩ .nil)
  · have e2 : mapCategories exact pdDims [[.num 1, .num 3]] [.num 1, .num 3] = .ok ([[1, 3]], [1, 3], [false, false]) := rfl
    have s1 : Space.getDim pdDims (.index 0) = some (0, .real ⟨0, 2, .uniform, 10, .identity, none, id⟩) := rfl
    have s2 : Space.getDim pdDims (.index 1) = some (1, .real ⟨0, 4, .uniform, 10, .identity, none, id⟩) := rfl
    unfold plotObjective2D
    simp only [e2, ok_bind, s1, s2, pd_example_2D]
    rfl

/-! ## The marked point -/

/-- **C78 (marked point).** The point marked by `plot_objective` and used for `sample_source`: the best observation, the
list given by the user, or a point of the space with the best prediction found. -/
theorem C78_marked_point [LinearOrder F] {M : Type} (A : Arith F) (hA : OrderlyRounding A) (dims : List (Dim F))
    (hne : dims ≠ []) (hv : ∀ d ∈ dims, ValidDim A d)
    (hmix : (∀ d ∈ dims, YieldsNoStr d) ∨ (∀ d ∈ dims, YieldsNoNum d)) (models : List M) (m : M)
    (hm : models.getLast? = some m) (predict : Predictor F M) (hp : RowwisePredictor predict) (mini : Minimiser F)
    (hmini : SoundMinimiser mini) (best : Point F) (params : MinParams F) (nSearch : Option Nat)
    (draws : Nat → List (RawDraw F)) (hdr : ∀ n, (draws n).length = dims.length ∧
      ∀ r ∈ draws n, r.nums.length = n ∧ r.idxs.length = n)
    (x : Point F) (h : evaluateMinParams A dims models predict mini best params nSearch draws = .ok x) :
    match params with
    | .result => x = best
    | .list p => x = p ∧ p.length = best.length
    | .expectedMinimum => List.Forall₂ Within dims x ∧ ∃ w, PredictedAt A dims predict m x (.fin w) ∧
        ∀ u, PredictedAt A dims predict m best (.fin u) → w ≤ u
    | .expectedMinimumRandom => nSearch ≠ some 0 → InSpace A dims x ∧ ∃ samples v,
        Space.rvs A dims (draws (nSearch.getD (10 ^ best.length))) = .ok samples ∧
        samples.length = nSearch.getD (10 ^ best.length) ∧ x ∈ samples ∧ PredictedAt A dims predict m x v ∧
        ∀ p ∈ samples, ∃ u, PredictedAt A dims predict m p u ∧ v ≤ u
    | _ => False := by
  cases params with
  | result => exact (Except.ok.inj h).symm
  | list p =>
    simp only [evaluateMinParams] at h
    split at h
    · next hl => exact ⟨(Except.ok.inj h).symm, hl⟩
    · cases h
  | expectedMinimum =>
    simp only [evaluateMinParams] at h
    split at h
    · cases h
    · next hc =>
      rw [bind_eq_ok] at h
      obtain ⟨⟨y, v⟩, h1, h2⟩ := h
      cases h2
      have hnc : ∀ d ∈ dims, d.isCat = false := by
        intro d hd
        by_contra hcd
        exact hc (List.any_eq_true.2 ⟨d, hd, by simpa using hcd⟩)
      obtain ⟨w, rfl, g1, g2, _, g3, _⟩ := C74_expected_minimum_partial A dims hnc models m hm predict mini hmini best _
        draws y v h1
      exact ⟨g3, w, g1, g2⟩
  | expectedMinimumRandom =>
    simp only [evaluateMinParams] at h
    rw [bind_eq_ok] at h
    obtain ⟨⟨y, v⟩, h1, h2⟩ := h
    cases h2
    intro h0
    obtain ⟨l1, l2⟩ := hdr (nSearch.getD (10 ^ best.length))
    have hpos : 0 < nSearch.getD (10 ^ best.length) := by
      cases nSearch with
      | none => exact pow_pos (by norm_num) _
      | some k =>
        simp only [Option.getD_some]
        refine Nat.pos_of_ne_zero fun e => h0 (by rw [e])
    obtain ⟨g1, g2, samples, g3, g4, g5, g6⟩ := C74_random_sampling A hA dims hne hv hmix models m hm predict hp _ hpos _
      l1 l2 y v h1
    exact ⟨g1, samples, v, g3, g4, g5, g2, g6⟩
  | otherString => cases h
  | other => cases h

/-- The point given by the user and the best observation, on a space of two dimensions. -/
example (predict : Predictor ℚ Unit) (mini : Minimiser ℚ) :
    evaluateMinParams ratArith pairSpace [()] predict mini [.num 3, .str "b"] .result none (fun _ => []) =
      .ok [.num 3, .str "b"] ∧
    evaluateMinParams ratArith pairSpace [()] predict mini [.num 3, .str "b"] (.list [.num 1, .str "a"]) none
      (fun _ => []) = .ok [.num 1, .str "a"] ∧
    evaluateMinParams ratArith pairSpace [()] predict mini [.num 3, .str "b"] .expectedMinimum none (fun _ => []) =
      .error .valueError := by
  refine ⟨rfl, rfl, rfl⟩

/-! ## `plot_histogram` -/

theorem dictSet_keys {K V : Type} [DecidableEq K] (d : List (K × V)) (k : K) (v : V) :
    (dictSet d k v).map Prod.fst = if k ∈ d.map Prod.fst then d.map Prod.fst else d.map Prod.fst ++ [k] := by
  by_cases h : k ∈ d.map Prod.fst
  · obtain ⟨p, hp, hk⟩ := List.mem_map.1 h
    rw [if_pos h]
    unfold dictSet
    rw [if_pos (List.any_eq_true.2 ⟨p, hp, by simpa using hk⟩), List.map_map]
    refine List.map_congr_left fun q _ => ?_
    simp only [Function.comp]
    split
    · next e => exact e.symm
    · rfl
  · rw [if_neg h, dictSet_new h, List.map_append]
    rfl

theorem dictSet_entry {K V : Type} [DecidableEq K] {d : List (K × V)} {k : K} {v : V} {p : K × V}
    (h : p ∈ dictSet d k v) : p = (k, v) ∨ (p ∈ d ∧ p.1 ≠ k) := by
  unfold dictSet at h
  split at h
  · obtain ⟨q, hq, rfl⟩ := List.mem_map.1 h
    split
    · exact Or.inl rfl
    · next hn => exact Or.inr ⟨hq, hn⟩
  · next hn =>
    rcases List.mem_append.1 h with h | h
    · refine Or.inr ⟨h, fun e => hn (List.any_eq_true.2 ⟨p, h, by simpa using e⟩)⟩
    · exact Or.inl (by simpa using h)

theorem counter_spec [DecidableEq F] (vs : List (Val F)) :
    ((counter vs).map Prod.fst).Nodup ∧ (∀ v, v ∈ (counter vs).map Prod.fst ↔ v ∈ vs) ∧
    ∀ v n, (v, n) ∈ counter vs → n = vs.count v := by
  induction vs using List.reverseRecOn with
  | nil => exact ⟨List.nodup_nil, fun v => Iff.rfl, fun v n h => by cases h⟩
  | append_singleton vs a ih =>
    obtain ⟨i1, i2, i3⟩ := ih
    have e : counter (vs ++ [a]) = dictSet (counter vs) a ((dictGet (counter vs) a).toOption.getD 0 + 1) := by
      unfold counter; rw [List.foldl_append]; rfl
    rw [e]
    have hget : (dictGet (counter vs) a).toOption.getD 0 = vs.count a := by
      cases h : dictGet (counter vs) a with
      | ok n => exact i3 a n (dictGet_eq_ok_mem h)
      | error e' =>
        show 0 = _
        symm
        rw [List.count_eq_zero]
        intro hm
        obtain ⟨p, hp, hpa⟩ := List.mem_map.1 ((i2 a).2 hm)
        have := dictGet_of_mem i1 (k := a) (v := p.2) (by rw [← hpa]; exact hp)
        rw [h] at this; cases this
    refine ⟨?_, fun v => ?_, fun v n h => ?_⟩
    · rw [dictSet_keys]
      split
      · exact i1
      · next h => exact List.nodup_append.2 ⟨i1, List.nodup_singleton a, fun x hx y hy hxy => h (by
          rw [List.mem_singleton.1 hy] at hxy; rw [← hxy]; exact hx)⟩
    · rw [dictSet_keys]
      split
      · next h =>
        rw [i2, List.mem_append, List.mem_singleton]
        exact ⟨Or.inl, fun h' => h'.elim id fun h' => h' ▸ (i2 a).1 h⟩
      · rw [List.mem_append, i2, List.mem_append]
    · rcases dictSet_entry h with h | ⟨h, hne⟩
      · cases h
        rw [hget, List.count_append, List.count_singleton_self]
      · rw [i3 v n h, List.count_append, List.count_singleton, if_neg (by simpa using fun e => hne e.symm), Nat.add_zero]

theorem counter_total [DecidableEq F] (vs : List (Val F)) : ((counter vs).map Prod.snd).sum = vs.length := by
  obtain ⟨h1, h2, h3⟩ := counter_spec vs
  have e : (counter vs).map Prod.snd = ((counter vs).map Prod.fst).map (fun v => vs.count v) := by
    rw [List.map_map]
    exact List.map_congr_left fun p hp => h3 p.1 p.2 hp
  rw [e]
  have : ∀ ks : List (Val F), ks.Nodup → ∀ ws : List (Val F), (∀ w ∈ ws, w ∈ ks) →
      (ks.map fun v => ws.count v).sum = ws.length := by
    intro ks hks ws
    induction ws with
    | nil => intro _; simp
    | cons w ws ih =>
      intro hw
      have hsplit : (ks.map fun v => (w :: ws).count v).sum =
          (ks.map fun v => ws.count v).sum + ks.count w := by
        clear hks ih hw
        induction ks with
        | nil => rfl
        | cons k ks ih =>
          rw [List.map_cons, List.sum_cons, ih, List.map_cons, List.sum_cons, List.count_cons, List.count_cons]
          by_cases hk : w = k
          · subst hk; simp only [beq_self_eq_true, if_true]; omega
          · have hk' : ¬ k = w := fun e => hk e.symm
            simp only [beq_iff_eq, hk, hk', if_false]; omega
      rw [hsplit, ih fun v hv => hw v (List.mem_cons_of_mem _ hv), List.count_eq_one_of_mem hks (hw w List.mem_cons_self)]
      rfl
  exact this _ h1 vs fun v hv => (h2 v).2 hv

/-- **C78 (histogram).** `plot_histogram` shows the values of the chosen coordinate of all evaluated points: for a
categorical dimension one bar for each category that occurs, its height being the number of points with that category,
so that the heights add up to the number of points; otherwise a histogram of the values between the bounds. -/
theorem C78_plot_histogram [DecidableEq F] (A : Arith F) (dims : List (Dim F)) (points : List (Point F))
    (key : Space.Key) (bins : Nat) (plot : HistPlot F) (h : plotHistogram A dims points key bins = .ok plot) :
    ∃ (i : Nat) (d : Dim F) (vs : List (Val F)), Selected dims (some [key]) [(i, d)] ∧
      List.Forall₂ (fun p v => p[i]? = some v) points vs ∧
      match d with
      | .cat _ => ∃ names counts, plot = .bars names counts ∧ names.Nodup ∧ (∀ v, v ∈ names ↔ v ∈ vs) ∧
          counts = names.map (fun v => vs.count v) ∧ counts.sum = points.length
      | d => ∃ b range log, plot = .hist vs b range log ∧ Binning A d bins b (some range) ∧ (log = true ↔ LogScaled d) := by
  unfold plotHistogram at h
  cases hd : Space.getDim dims key with
  | none => rw [hd] at h; cases h
  | some q =>
    obtain ⟨i, d⟩ := q
    rw [hd] at h
    simp only [bind_eq_ok] at h
    obtain ⟨vs, hvs, h⟩ := h
    rw [mapE_eq_ok] at hvs
    have hvs' : List.Forall₂ (fun p v => p[i]? = some v) points vs := hvs.imp fun p v hpv => pyGet_eq_ok.1 hpv
    have hsel : Selected dims (some [key]) [(i, d)] := by
      refine .cons ?_ .nil
      cases key with
      | name s =>
        rcases getDimFrom_name (s := s) (n := 0) (dims := dims) with ⟨_, g⟩ | ⟨j, e, g1, g2, g3, g⟩
        · unfold Space.getDim at hd; rw [g] at hd; cases hd
        · unfold Space.getDim at hd
          rw [g, Nat.zero_add] at hd
          cases hd
          exact ⟨g1, g2, g3⟩
      | index k =>
        unfold Space.getDim at hd
        rw [getDimFrom_index] at hd
        split at hd
        · next hk =>
          obtain ⟨e, he, heq⟩ := Option.map_eq_some_iff.1 hd
          cases heq
          refine ⟨?_, ?_⟩
          · simpa using he
          · show k = (k.toNat : ℤ)
            have : (0 : ℤ) ≤ k := by simpa using hk
            omega
        · cases hd
    refine ⟨i, d, vs, hsel, hvs', ?_⟩
    cases d with
    | cat c =>
      cases h
      obtain ⟨h1, h2, h3⟩ := counter_spec vs
      refine ⟨_, _, rfl, h1, h2, ?_, ?_⟩
      · rw [List.map_map]
        exact List.map_congr_left fun p hp => h3 p.1 p.2 hp
      · rw [counter_total, hvs'.length_eq]
    | real r =>
      cases h
      refine ⟨_, _, _, rfl, ⟨rfl, fun e => ?_, fun e => ?_⟩, ?_⟩
      · rw [if_neg]; rw [e]; exact fun h => by cases h
      · exact if_pos e
      · simp [LogScaled]
    | int r =>
      cases h
      refine ⟨_, _, _, rfl, ⟨rfl, fun e => ?_, fun e => ?_⟩, ?_⟩
      · rw [if_neg]; rw [e]; exact fun h => by cases h
      · exact if_pos e
      · simp [LogScaled]

/-- **C78 (histogram, unknown dimension).** A name or an index the space does not have is refused with `TypeError`. -/
theorem C78_plot_histogram_unknown [DecidableEq F] (A : Arith F) (dims : List (Dim F)) (points : List (Point F))
    (bins : Nat) :
    (∀ s, (∀ d ∈ dims, d.name ≠ some s) → plotHistogram A dims points (.name s) bins = .error .typeError) ∧
    (∀ k : ℤ, k < 0 ∨ dims.length ≤ k → plotHistogram A dims points (.index k) bins = .error .typeError) := by
  constructor
  · intro s hs
    have : Space.getDim dims (.name s) = none := by
      rcases getDimFrom_name (s := s) (n := 0) (dims := dims) with ⟨_, g⟩ | ⟨j, e, g1, g2, -⟩
      · exact g
      · exact absurd g2 (hs e (List.mem_of_getElem? g1))
    unfold plotHistogram
    rw [this]
  · intro k hk
    have : Space.getDim dims (.index k) = none := by
      unfold Space.getDim
      rw [getDimFrom_index]
      split
      · rw [List.getElem?_eq_none (by omega)]
        rfl
      · rfl
    unfold plotHistogram
    rw [this]

example : plotHistogram ratArith pairSpace [[.num 3, .str "b"]] (.name "sort") 20 = .error .typeError ∧
    plotHistogram ratArith pairSpace [[.num 3, .str "b"]] (.index (-1)) 20 = .error .typeError := by
  constructor <;> decide +kernel


/-- Meets the hypotheses of `C78_plot_histogram`. -/
example : plotHistogram ratArith pairSpace [[.num 3, .str "b"], [.num 1, .str "a"], [.num 2, .str "b"]] (.name "kind") 20 =
    .ok (.bars [.str "b", .str "a"] [2, 1]) ∧
    plotHistogram ratArith pairSpace [[.num 3, .str "b"], [.num 1, .str "a"], [.num 2, .str "b"]] (.index 0) 20 =
    .ok (.hist [.num 3, .num 1, .num 2] (.count 20) [.num 1, .num 10] false) := by
  refine ⟨by decide +kernel, by decide +kernel⟩

/-- The number of bars of a histogram: matplotlib takes a number of bins, or their edges. -/
def Bins.number : Bins F → Nat
  | .count n => n
  | .edges es => es.length - 1

/-- **C78 refuted (number of bins).** The parameter `bins` is documented as the number of bins of the histogram.  For a
log-uniform dimension it is the number of edges, so the histogram has one bin less, in every arithmetic and for every
number: `np.logspace(…, bins)` should be `np.logspace(…, bins + 1)` (plots.py:834 and 1246). -/
theorem C78_refuted_number_of_bins (A : Arith F) (low high : F) (bins : Nat) :
    (Bins.edges (logEdges A low high bins)).number = bins - 1 ∧ ((Bins.count bins : Bins F)).number = bins := by
  refine ⟨?_, rfl⟩
  simp only [Bins.number, logEdges, linspaceA, List.length_map]
  split
  · next h => simp [h]
  · simp

end Skopt

import Verif.Model.PartialDependence
import Verif.Model.ExpectedMinimum

/-!
# Model of the matrix plots and histograms of skopt/plots.py

What the panels show is modelled: the numbers handed to matplotlib and the limits, scales, tick names and labels of the
axes.  Colours, sizes, rotations and tick locators are not.
-/

namespace Skopt

variable {F : Type}

/-- The dimensions to be plotted, plots.py:683-691 and 806-814: all but the constant ones, or the ones asked for;
`none` stands for the `(None, None)` of a lookup that fails. -/
def pairDims [DecidableEq F] (dims : List (Dim F)) : Option (List Space.Key) → List (Option (Nat × Dim F))
  | none => (dims.zipIdx.filter fun q => !q.1.isConstant).map fun q => some (q.2, q.1)
  | some keys => keys.map (Space.getDim dims)

/-- Using the entries of `plot_dims`: using the `None` of a failed lookup as a dimension raises (`AttributeError` in
plots.py:831-832; `TypeError` in plots.py:724, here also given as `AttributeError`). -/
def chosenDims (ds : List (Option (Nat × Dim F))) : Except PyErr (List (Nat × Dim F)) :=
  mapE (fun q => match q with | some d => .ok d | none => .error .attributeError) ds

/-- The `bins` argument of `hist`: a number of bins or their edges.  (plots.py:830-842) -/
inductive Bins (F : Type) where
  | count (n : Nat)
  | edges (es : List F)
  deriving DecidableEq

/-- `np.linspace(lo, hi, n)` as numpy computes it: `lo + i * step`, the last entry set to `hi`.
(plots.py:834, 1246 through `np.logspace`) -/
def linspaceA (A : Arith F) (lo hi : F) (n : Nat) : List F :=
  if n = 1 then [lo]
  else (List.range n).map fun i : Nat => if i + 1 = n then hi
    else A.add (A.mul (A.ofInt i) (A.div (A.sub hi lo) (A.ofInt ((n : ℤ) - 1)))) lo

/-- `np.logspace(np.log10(low), np.log10(high), bins)`, plots.py:833-834 and 1246. -/
def logEdges (A : Arith F) (low high : F) (n : Nat) : List F :=
  (linspaceA A (A.log10 low) (A.log10 high) n).map fun x => A.pow (A.ofInt 10) x

/-- `dim.bounds` as values: the bounds, or the categories.  (space.py:353-355, 540-542, 711-713) -/
def Dim.boundVals : Dim F → List (Val F)
  | .real d => [.num d.low, .num d.high]
  | .int d => [.num d.low, .num d.high]
  | .cat c => c.cats

/-- `dim.prior == 'log-uniform'`.  (plots.py:419, 425, 445, 832, 1165, 1244) -/
def Dim.logPrior : Dim F → Bool
  | .real d => d.prior = .logUniform
  | .int d => d.prior = .logUniform
  | .cat _ => false

/-- A panel of `plot_evaluations`: a histogram (values, bins, range), a scatter plot (abscissas and ordinates of the
samples, and of the best point), or nothing.  (plots.py:826-852) -/
inductive EvalPanel (F : Type) where
  | hist (values : List F) (bins : Bins F) (range : Option (List (Val F)))
  | scatter (xs ys : List F) (best : F × F)
  | empty
  deriving DecidableEq

/-- `samples[:, index]`.  (plots.py:746, 841, 849) -/
def drawnColumn (pts : List (List F)) (i : Nat) : Except PyErr (List F) := mapE (fun row => pyGet row i) pts

/-- `bins_` of a diagonal panel, plots.py:830-836; `cat` is `iscat[j]`. -/
def histBins (A : Arith F) (cat : Bool) (d : Dim F) (bins : Nat) : Except PyErr (Bins F) :=
  if cat then match d with
    | .cat c => .ok (.count c.cats.length)
    | _ => .error .attributeError
  else match d with
    | .real r => .ok (if r.prior = .logUniform then .edges (logEdges A r.low r.high bins) else .count bins)
    | .int r => .ok (if r.prior = .logUniform then .edges (logEdges A r.low r.high bins) else .count bins)
    | .cat _ => .ok (.count bins)

/-- One panel of `plot_evaluations`, plots.py:828-852. -/
def evalPanel (A : Arith F) (pts : List (List F)) (mn : List F) (iscat : List Bool) (chosen : List (Nat × Dim F))
    (bins i j : Nat) : Except PyErr (EvalPanel F) :=
  if i = j then do
    let q ← pyGet chosen i
    let cat ← pyGet iscat j
    let b ← histBins A cat q.2 bins
    let vs ← drawnColumn pts q.1
    .ok (.hist vs b (if cat then none else some q.2.boundVals))
  else if j < i then do
    let qi ← pyGet chosen i
    let qj ← pyGet chosen j
    let xs ← drawnColumn pts qj.1
    let ys ← drawnColumn pts qi.1
    let bx ← pyGet mn qj.1
    let by' ← pyGet mn qi.1
    .ok (.scatter xs ys (bx, by'))
  else .ok .empty

/-- `for i in range(n_dims): for j in range(n_dims)`.  (plots.py:720-721, 826-827, 381-382) -/
def panelMatrix {α : Type} (n : Nat) (f : Nat → Nat → Except PyErr α) : Except PyErr (List (List α)) :=
  mapE (fun i => mapE (fun j => f i j) (List.range n)) (List.range n)

/-- An axis of a panel: its limits (`none`: chosen by matplotlib), whether it is logarithmic, the categories that name
its ticks, its label, and whether its tick labels are removed.  (plots.py:391-452) -/
structure Axis (F : Type) where
  lim : Option (List (Val F)) := none
  log : Bool := false
  cats : Option (List (Val F)) := none
  label : Option String := none
  hidden : Bool := false
  deriving DecidableEq

/-- The formatting of a panel: nothing is shown, or there are two axes.  (plots.py:389-452) -/
inductive PanelFormat (F : Type) where
  | off
  | axes (x y : Axis F)
  deriving DecidableEq

/-- The labels, plots.py:373-375: the ones given, else the name of the dimension or `$X_{i}$`. -/
def panelLabels (chosen : List (Nat × Dim F)) : Option (List String) → List String
  | some ls => ls
  | none => chosen.map fun q => q.2.name.getD s!"$X_\{{q.1}}$"

/-- The categories of a categorical dimension, `partial(_cat_format, dim)`, plots.py:396-399, 404-406, 450-452 and
1334-1337. -/
def Dim.tickNames : Dim F → Option (List (Val F))
  | .cat c => some c.cats
  | _ => none

/-- The limits of the axis of a dimension: `*dim.bounds` unless it is categorical, plots.py:394-395, 400-401,
433-435. -/
def Dim.axisLimits : Dim F → Option (List (Val F))
  | .cat _ => none
  | d => some d.boundVals

/-- A label that is set in some panels only, plots.py:402-403, 411-416. -/
def labelIf (b : Bool) (labels : List String) (k : Nat) : Except PyErr (Option String) :=
  if b then (pyGet labels k).map some else .ok none

/-- One panel in `_format_scatter_plot_axes`, plots.py:387-452.  The common limits of the diagonal's `y` axes depend on
what matplotlib chose and are left out; `i < n_dims - 1` is `i + 1 ≠ n` here, as `i < n`. -/
def formatPanel (n : Nat) (chosen : List (Nat × Dim F)) (labels : List String) (ylabel : String) (i j : Nat) :
    Except PyErr (PanelFormat F) := do
  let qi ← pyGet chosen i
  let qj ← pyGet chosen j
  if i < j then .ok .off
  else if j < i then do
    let xl ← labelIf (decide (i + 1 = n)) labels j
    let yl ← labelIf (decide (j = 0)) labels i
    .ok (.axes
      { lim := qj.2.axisLimits, log := qj.2.logPrior, cats := qj.2.tickNames, label := xl, hidden := decide (i + 1 ≠ n) }
      { lim := qi.2.axisLimits, log := qi.2.logPrior, cats := if j = 0 then qi.2.tickNames else none, label := yl
        hidden := decide (j ≠ 0) })
  else do
    let l ← pyGet labels j
    .ok (.axes { lim := qi.2.axisLimits, log := qi.2.logPrior
                 cats := if qi.2.logPrior then none else qi.2.tickNames, label := some l }
      { label := some ylabel })

/-- `assert len(dimensions) == n_dims`.  (plots.py:694-695, 817-818) -/
def checkLabels (n : Nat) (labels : Option (List String)) : Except PyErr Unit :=
  match labels with
  | some ls => if ls.length = n then .ok () else .error .assertionError
  | none => .ok ()

/-- `plt.subplots(n_dims, n_dims)`, which raises without any row.  (plots.py:714, 820) -/
def checkPanels (n : Nat) : Except PyErr Unit := if n = 0 then .error .valueError else .ok ()

/-- `plot_evaluations`, plots.py:798-857: the contents and the formatting of the panels. -/
def plotEvaluations [DecidableEq F] (A : Arith F) (dims : List (Dim F)) (xIters : List (Point F)) (best : Point F)
    (bins : Nat) (labels : Option (List String)) (sel : Option (List Space.Key)) :
    Except PyErr (List (List (EvalPanel F)) × List (List (PanelFormat F))) := do
  let m ← mapCategories A dims xIters best
  let n := (pairDims dims sel).length
  checkLabels n labels
  checkPanels n
  let chosen ← chosenDims (pairDims dims sel)
  let panels ← panelMatrix n (evalPanel A m.1 m.2.1 m.2.2 chosen bins)
  let fmts ← panelMatrix n (formatPanel n chosen (panelLabels chosen labels) "Number of samples")
  .ok (panels, fmts)

/-! ## plot_objective -/

/-- A panel of `plot_objective`: the curve of partial dependence and the position of the vertical line, or the contour
data, the samples and the position of the star.  (plots.py:720-749) -/
inductive ObjPanel where
  | curve (xs ys : List ℝ) (line : ℝ)
  | contour (xs ys : List ℝ) (zs : List (List ℝ)) (samples : List ℝ × List ℝ) (star : ℝ × ℝ)
  | empty

/-- One panel of `plot_objective`, plots.py:722-749 (with `show_points`). -/
noncomputable def objPanel (dims : List (Dim ℝ)) (predict : List (List (Val ℝ)) → Except PyErr (List ℝ))
    (whole : Bool) (samples : List (List (Val ℝ))) (nPoints : Nat) (pts : List (List ℝ)) (mn : List ℝ) (chosen : List (Nat × Dim ℝ))
    (i j : Nat) : Except PyErr ObjPanel :=
  if i = j then do
    let q ← pyGet chosen i
    let c ← partialDependence1D dims predict q.1 whole samples nPoints
    let l ← pyGet mn q.1
    .ok (.curve c.1 c.2 l)
  else if j < i then do
    let q1 ← pyGet chosen i
    let q2 ← pyGet chosen j
    let c ← partialDependence2D dims predict q1.1 q2.1 whole samples nPoints
    let xs ← drawnColumn pts q2.1
    let ys ← drawnColumn pts q1.1
    let sx ← pyGet mn q2.1
    let sy ← pyGet mn q1.1
    .ok (.contour c.1 c.2.1 c.2.2 (xs, ys) (sx, sy))
  else .ok .empty

/-- `zscale`, plots.py:706-712. -/
inductive ZScale where
  | log | linear | other
  deriving DecidableEq

/-- `plot_objective`, plots.py:681-755, from the point to be marked (`xVals`, see `evaluateMinParams`) and the encoded
samples. -/
noncomputable def plotObjective (dims : List (Dim ℝ)) (predict : List (List (Val ℝ)) → Except PyErr (List ℝ))
    (xIters : List (Point ℝ)) (xVals : Point ℝ) (whole : Bool)
    (samples : List (List (Val ℝ))) (nPoints : Nat) (z : ZScale)
    (labels : Option (List String)) (sel : Option (List Space.Key)) :
    Except PyErr (List (List ObjPanel) × List (List (PanelFormat ℝ))) := do
  let n := (pairDims dims sel).length
  checkLabels n labels
  let m ← mapCategories exact dims xIters xVals
  if z = .other then .error .valueError
  else do
    checkPanels n
    let chosen ← chosenDims (pairDims dims sel)
    let panels ← panelMatrix n (objPanel dims predict whole samples nPoints m.1 m.2.1 chosen)
    let fmts ← panelMatrix n (formatPanel n chosen (panelLabels chosen labels) "Partial dependence")
    .ok (panels, fmts)

/-! ## _evaluate_min_params -/

/-- What `plot_objective_2D` draws: the contour data, the evaluated points, the marked point, the labels of the axes, and
whether the axes and the contour levels are logarithmic.  (plots.py:1141-1171) -/
structure Plot2D where
  xs : List ℝ
  ys : List ℝ
  zs : List (List ℝ)
  samples : List ℝ × List ℝ
  star : ℝ × ℝ
  labels : Option String × Option String
  logs : Bool × Bool
  logLevels : Bool

/-- `plot_objective_2D`, plots.py:1109-1171, from the point to be marked (`xVals`, see `evaluateMinParams`) and the
encoded samples.  An unknown key gives `(None, None)`; NumPy accepts `None` as an index, but
`space.dimensions[None]` raises TypeError.  The label `None` of a dimension without name is passed on to matplotlib. -/
noncomputable def plotObjective2D (dims : List (Dim ℝ)) (predict : List (List (Val ℝ)) → Except PyErr (List ℝ))
    (xIters : List (Point ℝ)) (xVals : Point ℝ) (whole : Bool)
    (samples : List (List (Val ℝ))) (nPoints : Nat) (z : ZScale)
    (key1 key2 : Space.Key) : Except PyErr Plot2D := do
  let m ← mapCategories exact dims xIters xVals
  match Space.getDim dims key1, Space.getDim dims key2 with
  | some (index1, dimension1), some (index2, dimension2) => do
    let samples1 ← drawnColumn m.1 index1
    let samples2 ← drawnColumn m.1 index2
    let best1 ← pyGet m.2.1 index1
    let best2 ← pyGet m.2.1 index2
    let c ← partialDependence2D dims predict index2 index1 whole samples nPoints
    .ok { xs := c.1, ys := c.2.1, zs := c.2.2, samples := (samples1, samples2), star := (best1, best2)
          labels := (dimension1.name, dimension2.name), logs := (dimension1.logPrior, dimension2.logPrior)
          logLevels := decide (z = .log) }
  | _, _ => .error .typeError

/-- The `minimum` and `sample_source` arguments.  (plots.py:1346-1396) -/
inductive MinParams (F : Type) where
  | result | expectedMinimum | expectedMinimumRandom
  | otherString
  | list (x : Point F)
  | other

/-- `_evaluate_min_params`, plots.py:1340-1397; `x` is `result.x`, `draws n` are the draws behind `space.rvs(n)`. -/
def evaluateMinParams [LinearOrder F] {M : Type} (A : Arith F) (dims : List (Dim F)) (models : List M)
    (predict : Predictor F M) (mini : Minimiser F) (x : Point F) (params : MinParams F) (nSearch : Option Nat)
    (draws : Nat → List (RawDraw F)) : Except PyErr (Point F) :=
  match params with
  | .result => .ok x
  | .expectedMinimum =>
      if Space.isPartlyCategorical dims then .error .valueError
      else do
        let r ← expectedMinimum A dims models predict mini x
          (match nSearch with | some 0 => 20 | some n => n | none => 20) draws
        .ok r.1
  | .expectedMinimumRandom => do
      let r ← expectedMinimumSampling A dims models predict (draws (nSearch.getD (10 ^ x.length)))
      .ok r.1
  | .otherString => .error .valueError
  | .list p => if p.length = x.length then .ok p else .error .assertionError
  | .other => .error .valueError

/-! ## plot_histogram -/

/-- `Counter(samples)`: the distinct values in order of first appearance with their numbers.  (plots.py:1223-1228) -/
def counter [DecidableEq F] (vs : List (Val F)) : List (Val F × Nat) :=
  vs.foldl (fun d v => dictSet d v ((dictGet d v).toOption.getD 0 + 1)) []

/-- What `plot_histogram` draws: bars with names and heights, or a histogram with its range.  (plots.py:1214-1255) -/
inductive HistPlot (F : Type) where
  | bars (names : List (Val F)) (counts : List Nat)
  | hist (values : List (Val F)) (bins : Bins F) (range : List (Val F)) (log : Bool)
  deriving DecidableEq

/-- `plot_histogram`, plots.py:1203-1255.  An unknown key gives `(None, None)` and `x[None]` raises (there is at least one
evaluated point in a result). -/
def plotHistogram [DecidableEq F] (A : Arith F) (dims : List (Dim F)) (xIters : List (Point F)) (key : Space.Key)
    (bins : Nat) : Except PyErr (HistPlot F) :=
  match Space.getDim dims key with
  | none => .error .typeError
  | some (i, d) => do
    let samples ← mapE (fun p => pyGet p i) xIters
    match d with
    | .cat _ => .ok (.bars ((counter samples).map Prod.fst) ((counter samples).map Prod.snd))
    | .real r => .ok (.hist samples (if r.prior = .logUniform then .edges (logEdges A r.low r.high bins) else .count bins)
        [.num r.low, .num r.high] (decide (r.prior = .logUniform)))
    | .int r => .ok (.hist samples (if r.prior = .logUniform then .edges (logEdges A r.low r.high bins) else .count bins)
        [.num r.low, .num r.high] (decide (r.prior = .logUniform)))

end Skopt

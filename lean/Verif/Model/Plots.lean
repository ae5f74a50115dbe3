import Verif.Model.Optimizer
import Verif.Model.Exact

/-!
# Model of the numbers computed in skopt/plots.py

Only what is computed is modelled; drawing is not.
-/

namespace Skopt

variable {F M : Type}

/-- `[np.min(func_vals[:i]) for i in range(1, n_calls + 1)]`, plots.py:81-82, 89-90. -/
def convergenceTrace [LinearOrder F] (nCalls : Nat) (vals : List (Flt F)) : Except PyErr (List (Flt F)) :=
  mapE (fun i => fltMin (vals.take (i + 1))) (List.range nCalls)

/-- What `plot_convergence` draws for one result, plots.py:79-84. -/
def plotConvergence [LinearOrder F] (r : Result F M) : Except PyErr (List (Flt F)) :=
  convergenceTrace r.xIters.length r.funcVals

/-- `np.mean(rows, axis=0)` of a rectangular array.  (skopt/plots.py:95, 352) -/
def meanRows (A : Arith F) (n : Nat) (rows : List (List (Flt F))) : List (Flt F) :=
  (List.range n).map fun i => fltMean A (rows.map fun r => r.getD i .nan)

/-- What `plot_convergence` draws for a list of results, plots.py:86-96: one trace per result, as long as the first
result, and their mean. -/
def plotConvergenceMany [LinearOrder F] (A : Arith F) (rs : List (Result F M)) :
    Except PyErr (List (List (Flt F)) × List (Flt F)) := do
  let r0 ← pyGet rs 0
  let n := r0.xIters.length
  let mins ← mapE (fun r => convergenceTrace n r.funcVals) rs
  .ok (mins, meanRows A n mins)

/-- Subtraction with NaN propagating.  (plots.py:338, 346) -/
def fltSub (A : Arith F) : Flt F → Flt F → Flt F
  | .fin x, .fin y => .fin (A.sub x y)
  | _, _ => .nan

/-- `np.sum` (numpy sums pairwise, the model from the left).  (plots.py:338, 346) -/
def fltSum (A : Arith F) (xs : List (Flt F)) : Flt F := xs.foldl (fltAdd A) (.fin (A.ofInt 0))

/-- `[np.sum(func_vals[:i] - true_minimum) for i in range(1, n_calls + 1)]`, plots.py:338-339 and 346-347. -/
def regretTrace (A : Arith F) (nCalls : Nat) (vals : List (Flt F)) (trueMinimum : Flt F) : List (Flt F) :=
  (List.range nCalls).map fun i => fltSum A ((vals.take (i + 1)).map fun v => fltSub A v trueMinimum)

/-- `true_minimum = np.min([np.min(r.func_vals) for r in results])`, plots.py:328. -/
def regretMinimum [LinearOrder F] (results : List (List (Flt F))) : Except PyErr (Flt F) := do
  let ms ← mapE fltMin results
  fltMin ms

/-! ## The figures of plot_convergence and plot_regret, plots.py:26-106 and 270-358 -/

/-- What is drawn: a trace through the points `(n, value)` with its colour (`colors[i]`, one per argument), its label
and whether it is drawn in transparency, or the dashed horizontal line labelled "True minimum".  (plots.py:63-106, 307-358) -/
inductive Drawn (F : Type) where
  | trace (colour : Nat) (label : Option String) (faint : Bool) (points : List (Nat × Flt F))
  | level (y : F)

/-- The curves of a figure and whether it has a legend; titles, axis labels, the grid and the scale of the axis are
left out.  (plots.py:63-71, 98-106) -/
structure Figure (F : Type) where
  drawn : List (Drawn F)
  legend : Bool

/-- What an argument shows: one result, a list of results, or something else (which is skipped silently).
(plots.py:79, 86) -/
inductive Shown (F M : Type) where
  | result (r : Result F M)
  | results (rs : List (Result F M))
  | other

/-- An argument: a pair of a label and what is shown, or only what is shown (`name = None`).  (plots.py:74-77) -/
structure PlotArg (F M : Type) where
  name : Option String
  shown : Shown F M

/-- `ax.plot(range(1, n_calls + 1), ys)`, plots.py:83, 93, 95. -/
def curve (colour : Nat) (label : Option String) (faint : Bool) (ys : List (Flt F)) : Drawn F :=
  .trace colour label faint ((List.range' 1 ys.length).zip ys)

/-- The body of the loop over the arguments, plots.py:74-96 and 331-353; `f n vals` is the trace computed from the
values of one result. -/
def drawArg (A : Arith F) (f : Nat → List (Flt F) → Except PyErr (List (Flt F))) (colour : Nat) (a : PlotArg F M) :
    Except PyErr (List (Drawn F)) :=
  match a.shown with
  | .result r => do
    let t ← f r.xIters.length r.funcVals
    .ok [curve colour a.name false t]
  | .results rs => do
    let r0 ← pyGet rs 0
    let n := r0.xIters.length
    let ts ← mapE (fun r => f n r.funcVals) rs
    .ok (ts.map (curve colour none true) ++ [curve colour a.name false (meanRows A n ts)])
  | .other => .ok []

/-- The loop `for results, color in zip(args, colors)`, plots.py:73-96 and 330-353. -/
def drawArgs (A : Arith F) (f : Nat → List (Flt F) → Except PyErr (List (Flt F))) (args : List (PlotArg F M)) :
    Except PyErr (List (Drawn F)) := do
  let ds ← mapE (fun (p : PlotArg F M × Nat) => drawArg A f p.2 p.1) (args.zip (List.range args.length))
  .ok ds.flatten

/-- `bool(name)` of the variable `name` after the loop: the label of the last argument; `UnboundLocalError` if there
is no argument.  (plots.py:103, 355) -/
def lastName (args : List (PlotArg F M)) : Except PyErr Bool :=
  match args.getLast? with
  | none => .error .unboundLocalError
  | some a => .ok (match a.name with | some s => decide (s ≠ "") | none => false)

/-- `plot_convergence(*args, true_minimum=...)`, plots.py:26-106. -/
def plotConvergenceFigure [LinearOrder F] (A : Arith F) (args : List (PlotArg F M)) (trueMinimum : Option F) :
    Except PyErr (Figure F) := do
  let ds ← drawArgs A convergenceTrace args
  let shown : Option F := match trueMinimum with
    | some t => if t = A.ofInt 0 then none else some t
    | none => none
  match shown with
  | some t => .ok ⟨ds ++ [.level t], true⟩
  | none => do
    let named ← lastName args
    .ok ⟨ds, named⟩

/-- The results among the arguments, plots.py:319-327. -/
def allResults (args : List (PlotArg F M)) : List (Result F M) :=
  args.flatMap fun a => match a.shown with
    | .result r => [r]
    | .results rs => rs
    | .other => []

/-- The reference value of the regret, plots.py:302, 318-328. -/
def regretReference [LinearOrder F] (args : List (PlotArg F M)) : Option F → Except PyErr (Flt F)
  | some t => .ok (.fin t)
  | none => regretMinimum ((allResults args).map fun r => r.funcVals)

/-- `plot_regret(*args, true_minimum=...)`, plots.py:270-358. -/
def plotRegretFigure [LinearOrder F] (A : Arith F) (args : List (PlotArg F M)) (trueMinimum : Option F) :
    Except PyErr (Figure F) := do
  let m ← regretReference args trueMinimum
  let ds ← drawArgs A (fun n vals => .ok (regretTrace A n vals m)) args
  let named ← lastName args
  .ok ⟨ds, named⟩

/-! ## _map_categories and _evenly_sample, plots.py:1264-1331 -/

/-- `catmap[cat]` with `catmap = dict(zip(dim.categories, count()))`, plots.py:1289-1291: a later equal category
overwrites an earlier one. -/
def catIndex [DecidableEq F] (cats : List (Val F)) (v : Val F) : Except PyErr Nat :=
  dictGet (dictOf (cats.zip (List.range cats.length))) v

/-- One coordinate in `_map_categories`, plots.py:1287-1294; `ofNat` is the conversion of the index to a float. -/
def mapCategory [DecidableEq F] (A : Arith F) (d : Dim F) (v : Val F) : Except PyErr F :=
  match d with
  | .cat c => do
    let k ← catIndex c.cats v
    .ok (A.ofInt k)
  | _ => v.toNum

/-- `_map_categories`, plots.py:1264-1295. -/
def mapCategories [DecidableEq F] (A : Arith F) (dims : List (Dim F)) (points : List (Point F)) (minimum : Point F) :
    Except PyErr (List (List F) × List F × List Bool) := do
  let pts ← mapE (fun p => mapE (fun (dv : Dim F × Val F) => mapCategory A dv.1 dv.2) (dims.zip p)) points
  let mn ← mapE (fun (dv : Dim F × Val F) => mapCategory A dv.1 dv.2) (dims.zip minimum)
  .ok (pts, mn, dims.map fun d => match d with | .cat _ => true | _ => false)

/-- `np.linspace(0, m - 1, n, dtype=int)` for `n` points, exactly: `floor(i * (m - 1) / (n - 1))`. -/
def linspaceInt (m n : Nat) : List Nat :=
  if n = 1 then [0] else (List.range n).map fun i => i * (m - 1) / (n - 1)

/-- The indices `_evenly_sample` picks for a categorical dimension with `m` categories, plots.py:1322-1324. -/
def evenlySampleCat (m nPoints : Nat) : List Nat := linspaceInt m (min m nPoints)

/-- `np.linspace(lo, hi, n)` over the real numbers, plots.py:1329. -/
noncomputable def linspaceReal (lo hi : ℝ) (n : Nat) : List ℝ :=
  if n = 1 then [lo] else (List.range n).map fun i : Nat => lo + (i : ℝ) * ((hi - lo) / ((n : ℝ) - 1))

end Skopt

import Verif.Model.Plots

/-!
# Model of `partial_dependence`, skopt/plots.py:457-539, 896-1055

Over the real numbers.  The model's `predict` is a parameter.  numpy converts an assigned value to the dtype of the
array: into an array of integers a number is stored without its fraction (`stored`).  Whether the encoded samples are an
array of integers is a parameter, because `Val` does not tell `int` from `float`.  Conversion to strings is left out.
-/

namespace Skopt

/-- `np.linspace(*bounds, n_points)` and `dim.transform`, or evenly spaced categories and their encodings,
plots.py:1321-1331: the values for the axis and the rows for the model. -/
noncomputable def evenlySample (d : Dim ℝ) (n : Nat) : Except PyErr (List ℝ × List (List (Val ℝ))) :=
  match d with
  | .cat c =>
    if c.cats.isEmpty then .error .indexError
    else do
      let idx := evenlySampleCat c.cats.length n
      let vs ← mapE (fun k => pyGet c.cats k) idx
      let rows ← Dim.transform exact d vs
      .ok (idx.map fun k : Nat => (k : ℝ), rows)
  | .real r => do
      let xs := linspaceReal r.low r.high n
      let rows ← Dim.transform exact d (xs.map .num)
      .ok (xs, rows)
  | .int r => do
      let xs := linspaceReal r.low r.high n
      let rows ← Dim.transform exact d (xs.map .num)
      .ok (xs, rows)

/-- `np.cumsum([0] + [d.transformed_size for d in space.dimensions])`, plots.py:950, 1032. -/
def dimLocs {F : Type} (dims : List (Dim F)) : List Nat := (dims.map Dim.transformedSize).scanl (· + ·) 0

/-- `row[a:b] = t` for one row: `t` has the width of the slice, or it is a single value that is repeated.
(skopt/plots.py:962, 1043-1044) -/
def assignSlice {α : Type} (a b : Nat) (t row : List α) : Except PyErr (List α) :=
  let w := min b row.length - min a row.length
  if t.length = w then .ok (row.take a ++ t ++ row.drop (max a b))
  else match t with
    | [v] => .ok (row.take a ++ List.replicate w v ++ row.drop (max a b))
    | _ => .error .valueError

/-- The whole part of a number, `x.astype(int)`: the fraction is dropped.  (NumPy's conversion at plots.py:962, 1043-1044) -/
noncomputable def towardZero (x : ℝ) : ℝ := if 0 ≤ x then (⌊x⌋ : ℝ) else (⌈x⌉ : ℝ)

/-- What an array holds after an assignment of `t`: the same values, or their whole parts if it is an array of integers.
(plots.py:962, 1043-1044) -/
noncomputable def stored (whole : Bool) (t : List (Val ℝ)) : List (Val ℝ) :=
  if whole then t.map fun v => match v with
    | .num x => .num (towardZero x)
    | w => w
  else t

/-- `np.mean` of predictions.  (plots.py:966, 1045) -/
noncomputable def meanReal (ys : List ℝ) : ℝ := ys.sum / ys.length

/-- `_calc` of `partial_dependence_1D`, plots.py:952-966. -/
noncomputable def pdCalc1 (predict : List (List (Val ℝ)) → Except PyErr (List ℝ)) (whole : Bool)
    (samples : List (List (Val ℝ))) (a b : Nat) (x : List (Val ℝ)) : Except PyErr ℝ := do
  let rows ← mapE (assignSlice a b (stored whole x)) samples
  let ys ← predict rows
  .ok (meanReal ys)

/-- `partial_dependence_1D`, plots.py:896-971.  `i` is any Python index. -/
noncomputable def partialDependence1D (dims : List (Dim ℝ)) (predict : List (List (Val ℝ)) → Except PyErr (List ℝ))
    (i : ℤ) (whole : Bool) (samples : List (List (Val ℝ))) (n : Nat) : Except PyErr (List ℝ × List ℝ) := do
  let d ← pyGetI dims i
  let g ← evenlySample d n
  let a ← pyGetI (dimLocs dims) i
  let b ← pyGetI (dimLocs dims) (i + 1)
  let yi ← mapE (pdCalc1 predict whole samples a b) g.2
  .ok (g.1, yi)

/-- `_calc` of `partial_dependence_2D`, plots.py:1034-1045: the block of `j` is set to `x`, then that of `i` to `y`. -/
noncomputable def pdCalc2 (predict : List (List (Val ℝ)) → Except PyErr (List ℝ)) (whole : Bool)
    (samples : List (List (Val ℝ))) (ai bi aj bj : Nat) (x y : List (Val ℝ)) : Except PyErr ℝ := do
  let rows ← mapE (assignSlice aj bj (stored whole x)) samples
  let rows' ← mapE (assignSlice ai bi (stored whole y)) rows
  let ys ← predict rows'
  .ok (meanReal ys)

/-- `partial_dependence_2D`, plots.py:974-1055. -/
noncomputable def partialDependence2D (dims : List (Dim ℝ)) (predict : List (List (Val ℝ)) → Except PyErr (List ℝ))
    (i j : ℤ) (whole : Bool) (samples : List (List (Val ℝ))) (n : Nat) : Except PyErr (List ℝ × List ℝ × List (List ℝ)) := do
  let dj ← pyGetI dims j
  let gx ← evenlySample dj n
  let di ← pyGetI dims i
  let gy ← evenlySample di n
  let ai ← pyGetI (dimLocs dims) i
  let bi ← pyGetI (dimLocs dims) (i + 1)
  let aj ← pyGetI (dimLocs dims) j
  let bj ← pyGetI (dimLocs dims) (j + 1)
  let zi ← mapE (fun y => mapE (fun x => pdCalc2 predict whole samples ai bi aj bj x y) gx.2) gy.2
  .ok (gx.1, gy.1, zi)

/-- The samples `partial_dependence` averages over, plots.py:528-532: the given ones, the encoded `x_eval`, or encoded
random samples (`raws` are the draws behind `space.rvs`). -/
noncomputable def pdSamples (dims : List (Dim ℝ)) (samples : Option (List (List (Val ℝ)))) (xEval : Option (Point ℝ))
    (raws : List (RawDraw ℝ)) : Except PyErr (List (List (Val ℝ))) :=
  match samples, xEval with
  | none, none => do
      let pts ← Space.rvs exact dims raws
      Space.transform exact dims pts
  | none, some x => Space.transform exact dims [x]
  | some s, _ => .ok s

end Skopt

import Verif.Model.Optimizer

/-!
# Model of `expected_minimum` and `expected_minimum_random_sampling`, skopt/utils.py:203-298

The surrogate's `predict` and scipy's `minimize` are parameters.  A prediction may be NaN; infinite predictions
are not represented.
-/

namespace Skopt

variable {F M : Type}

/-- `model.predict(X)` of the fitted surrogate models.  (skopt/utils.py:239, 294) -/
abbrev Predictor (F M : Type) := M → List (List (Val F)) → Except PyErr (List (Flt F))

/-- `scipy.optimize.minimize(func, x0, bounds=bounds)`: the attributes `x` and `fun` of what it returns.
(skopt/utils.py:249) -/
abbrev Minimiser (F : Type) :=
  (Point F → Except PyErr (Flt F)) → Point F → List (F × F) → Except PyErr (List F × Flt F)

/-- `Space.is_partly_categorical`, space.py:1109-1112. -/
def Space.isPartlyCategorical (dims : List (Dim F)) : Bool := dims.any Dim.isCat

/-- `dim.bounds` of `Real` and `Integer`, space.py:353-355, 540-542.  (`Categorical.bounds` are the categories,
space.py:711-713; the code asks for bounds of spaces without categorical dimensions only.) -/
def Dim.bounds : Dim F → Except PyErr (F × F)
  | .real d => .ok (d.low, d.high)
  | .int d => .ok (d.low, d.high)
  | .cat _ => .error .unmodelled

/-- `expected_minimum_random_sampling`, utils.py:289-298; `raws` are the draws behind `space.rvs(n)`. -/
def expectedMinimumSampling [LinearOrder F] (A : Arith F) (dims : List (Dim F)) (models : List M)
    (predict : Predictor F M) (raws : List (RawDraw F)) : Except PyErr (Point F × Flt F) := do
  let samples ← Space.rvs A dims raws
  let model ← pyGetI models (-1)
  let rows ← Space.transform A dims samples
  let ys ← predict model rows
  let i ← npArgmin ys
  let x ← pyGet samples i
  let y ← pyGet ys i
  .ok (x, y)

/-- The inner function `func` of `expected_minimum`, utils.py:236-239. -/
def surrogateAt [LinearOrder F] (A : Arith F) (dims : List (Dim F)) (models : List M) (predict : Predictor F M)
    (x : Point F) : Except PyErr (Flt F) := do
  let reg ← pyGetI models (-1)
  let rows ← Space.transform A dims [x]
  let ys ← predict reg rows
  pyGet ys 0

/-- One turn of the loop, utils.py:251-253: `r.fun < best_fun`, where `best_fun` starts as `inf` and a comparison
with NaN is false. -/
def keepBetter [LinearOrder F] (best : Option (List F × F)) (r : List F × Flt F) : Option (List F × F) :=
  match r.2 with
  | .nan => best
  | .fin v => match best with
    | none => some (r.1, v)
    | some b => if v < b.2 then some (r.1, v) else some b

/-- The loop over the starting points, utils.py:248-253. -/
def descend [LinearOrder F] (mini : Minimiser F) (f : Point F → Except PyErr (Flt F)) (bounds : List (F × F)) :
    List (Point F) → Option (List F × F) → Except PyErr (Option (List F × F))
  | [], best => .ok best
  | x0 :: xs, best => do
      let r ← mini f x0 bounds
      descend mini f bounds xs (keepBetter best r)

/-- The random starting points, utils.py:242-243. -/
def randomStarts [LinearOrder F] (A : Arith F) (dims : List (Dim F)) (n : ℤ) (draws : Nat → List (RawDraw F)) :
    Except PyErr (List (Point F)) :=
  if 0 < n then Space.rvs A dims (draws n.toNat) else .ok []

/-- `expected_minimum`, utils.py:232-255.  `draws n` are the draws behind `space.rvs(n)`, `x` is `res.x`; iterating
over `best_x = None` raises `TypeError`. -/
def expectedMinimum [LinearOrder F] (A : Arith F) (dims : List (Dim F)) (models : List M) (predict : Predictor F M)
    (mini : Minimiser F) (x : Point F) (n : ℤ) (draws : Nat → List (RawDraw F)) :
    Except PyErr (Point F × Flt F) :=
  if Space.isPartlyCategorical dims then
    expectedMinimumSampling A dims models predict (draws 100000)
  else do
    let more ← randomStarts A dims n draws
    let bounds ← mapE Dim.bounds dims
    match (← descend mini (surrogateAt A dims models predict) bounds (x :: more) none) with
    | none => .error .typeError
    | some b => .ok (b.1.map .num, .fin b.2)

end Skopt

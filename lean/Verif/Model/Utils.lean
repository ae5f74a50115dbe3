import Verif.Model.Space

/-!
# Model of the input checks and point conversions of `skopt/utils.py`, of `check_dimension` and of
the equality of dimensions and spaces (`skopt/space/space.py`)
-/

namespace Skopt

variable {F : Type}

/-! ## check_x_in_space, skopt/utils.py:177-200 -/

/-- `is_2Dlistlike(x)` of a list, utils.py:181-182: all elements are lists or tuples (true for an
empty list). -/
def is2D (xs : List (Val F)) : Bool := xs.all Val.isSeq

/-- The components of a list/tuple element.  (skopt/utils.py:177-200) -/
def Val.items : Val F → List (Val F)
  | .seq xs => xs
  | _ => []

/-- `check_x_in_space(x, space)` for a list or tuple `x`, utils.py:185-200.  All membership tests are
evaluated (list comprehension) before the verdict; `ValueError` on a negative verdict.
Arguments that are not lists or tuples are not modelled: non-sequences raise `TypeError` in
`is_2Dlistlike`, while numpy arrays and strings fall through both branches unchecked. -/
def checkXInSpace [LinearOrder F] (dims : List (Dim F)) (xs : List (Val F)) : Except PyErr Unit :=
  if is2D xs then do
    let bs ← mapE (fun p => Space.contains dims p.items) xs
    if bs.all id then
      if xs.any (fun p => decide (p.items.length ≠ dims.length)) then .error .valueError
      else .ok ()
    else .error .valueError
  else do
    let b ← Space.contains dims xs
    if b then
      if xs.length ≠ dims.length then .error .valueError else .ok ()
    else .error .valueError

/-! ## Points as dictionaries, skopt/utils.py:453-566 -/

/-- `sorted(search_space.keys())`.  (utils.py:484, 524, 564) -/
def sortedKeys {V : Type} (space : List (String × V)) : List String :=
  (space.map Prod.fst).insertionSort (· ≤ ·)

/-- `dimensions_aslist`, utils.py:483-486. -/
def dimensionsAslist {V : Type} (space : List (String × V)) : Except PyErr (List V) :=
  mapE (dictGet space) (sortedKeys space)

/-- `point_asdict`, utils.py:523-526. -/
def pointAsdict {V W : Type} (space : List (String × V)) (point : List W) : List (String × W) :=
  ((sortedKeys space).zip point).foldl (fun d p => dictSet d p.1 p.2) []

/-- `point_aslist`, utils.py:563-566. -/
def pointAslist {V W : Type} (space : List (String × V)) (d : List (String × W)) :
    Except PyErr (List W) :=
  mapE (dictGet d) (sortedKeys space)

/-! ## use_named_args, skopt/utils.py:634-795 -/

/-- `check_dimension_names`, utils.py:653-660: the names, or `ValueError` if one is missing. -/
def checkDimensionNames (dims : List (Dim F)) : Except PyErr (List String) :=
  mapE (fun d : Dim F => match d.name with
    | some n => .ok n
    | none => .error .valueError) dims

/-- `use_named_args(dimensions)(func)(x)`, utils.py:752-793.  The first component is the trace of
calls of the objective (each with its keyword dictionary), the second the outcome.  (The check of
the dimension types, utils.py:753, is not modelled: arguments are dimensions.) -/
def useNamedArgs {R : Type} (dims : List (Dim F)) (func : List (String × Val F) → Except PyErr R)
    (x : Point F) : List (List (String × Val F)) × Except PyErr R :=
  match checkDimensionNames dims with
  | .error e => ([], .error e)
  | .ok names =>
    if x.length ≠ dims.length then ([], .error .valueError)
    else
      let arg := dictOf (names.zip x)
      ([arg], func arg)

/-! ## check_dimension, skopt/space/space.py:43-136 -/

/-- A Python literal in a dimension specification.  `npint`/`npfloat` are numpy scalars that are
`numbers.Integral`/`numbers.Real` but not instances of `int`/`float` (e.g. `np.int64`,
`np.float32`); Python's `bool` is an instance of `int`.  (skopt/space/space.py:87-136) -/
inductive Lit (F : Type) where
  | int (k : ℤ)
  | float (x : F)
  | bool (b : Bool)
  | npint (k : ℤ)
  | npfloat (x : F)
  | npbool (b : Bool)
  | str (s : String)
  | other (id : Nat)

namespace Lit

/-- `isinstance(d, int)` (true for `bool`).  (space.py:114, 124) -/
def isInt : Lit F → Bool
  | .int _ => true
  | .bool _ => true
  | _ => false

/-- `isinstance(d, (float, int))`.  (space.py:117, 128) -/
def isFloatOrInt : Lit F → Bool
  | .int _ => true
  | .bool _ => true
  | .float _ => true
  | _ => false

/-- `isinstance(d, numbers.Integral)` (not true for `np.bool_`).  (space.py:105) -/
def isIntegral : Lit F → Bool
  | .int _ => true
  | .bool _ => true
  | .npint _ => true
  | _ => false

/-- `isinstance(d, numbers.Real)`.  (space.py:107) -/
def isReal : Lit F → Bool
  | .int _ => true
  | .bool _ => true
  | .npint _ => true
  | .float _ => true
  | .npfloat _ => true
  | _ => false

/-- `isinstance(d, (str, bool)) or isinstance(d, np.bool_)`.  (space.py:102-103) -/
def isStrOrBool : Lit F → Bool
  | .str _ => true
  | .bool _ => true
  | .npbool _ => true
  | _ => false

/-- `d in ["uniform", "log-uniform"]`.  (space.py:115, 118) -/
def isPrior : Lit F → Bool
  | .str s => s == "uniform" || s == "log-uniform"
  | _ => false

/-- `d == "log-uniform"`.  (space.py:125, 129) -/
def isLogUniform : Lit F → Bool
  | .str s => s == "log-uniform"
  | _ => false

end Lit

/-- The constructor chosen by `check_dimension`; it is called with the elements of the
specification as positional arguments (or with the whole list as categories).  (space.py:93-136) -/
inductive DimKind where
  | integer | real | categorical
  deriving DecidableEq, Repr

/-- `check_dimension`, space.py:87-136: which constructor is called. -/
def checkDimension (spec : List (Lit F)) : Except PyErr DimKind :=
  match spec with
  | [_] => .ok .categorical
  | [a, b] =>
    if a.isStrOrBool || b.isStrOrBool then .ok .categorical
    else if a.isIntegral && b.isIntegral then .ok .integer
    else if a.isReal || b.isReal then .ok .real
    else .error .valueError
  | [a, b, p] =>
    if (a.isInt || b.isInt) && p.isPrior then .ok .integer
    else if (a.isFloatOrInt || b.isFloatOrInt) && p.isPrior then .ok .real
    else .ok .categorical
  | [a, b, p, base] =>
    if (a.isInt || b.isInt) && p.isLogUniform && base.isInt then .ok .integer
    else if (a.isFloatOrInt || b.isFloatOrInt) && p.isLogUniform && base.isInt then .ok .real
    else .ok .categorical
  | [] => .error .valueError
  | _ => .ok .categorical

/-! ## Equality of dimensions and spaces -/

/-- `np.allclose(a, b)` for two scalars: `|a - b| <= 1e-8 + 1e-5 * |b|`, with the tolerances as
parameters.  (space.py:326-331, 513-516, 661-664) -/
def npIsclose [LinearOrder F] (A : Arith F) (atol rtol a b : F) : Bool :=
  decide (absDiff A a b ≤ A.add atol (A.mul rtol (absDiff A b (A.ofInt 0))))

/-- `prior_` of a `Categorical`, space.py:617-620: the given prior or the uniform one. -/
def CatDim.priorVals (A : Arith F) (c : CatDim F) : List F :=
  match c.prior with
  | some p => p
  | none => List.replicate c.cats.length (A.div (A.ofInt 1) (A.ofInt c.cats.length))

/-- `Real.__eq__` (space.py:326-331), `Integer.__eq__` (513-516), `Categorical.__eq__` (661-664).
`np.allclose` of priors of different lengths (possible only for explicit malformed priors) raises
in Python and is `false` here. -/
def Dim.eqv [LinearOrder F] (A : Arith F) (atol rtol : F) : Dim F → Dim F → Bool
  | .real a, .real b => npIsclose A atol rtol a.low b.low && npIsclose A atol rtol a.high b.high &&
      decide (a.prior = b.prior) && decide (a.transform = b.transform)
  | .int a, .int b => npIsclose A atol rtol a.low b.low && npIsclose A atol rtol a.high b.high
  | .cat a, .cat b => decide (a.cats = b.cats) &&
      decide ((a.priorVals A).length = (b.priorVals A).length) &&
      ((a.priorVals A).zip (b.priorVals A)).all fun p => npIsclose A atol rtol p.1 p.2
  | _, _ => false

/-- `Space.__eq__`, space.py:773-774: `zip` stops at the shorter space. -/
def Space.eqv [LinearOrder F] (A : Arith F) (atol rtol : F) (s t : List (Dim F)) : Bool :=
  (s.zip t).all fun p => p.1.eqv A atol rtol p.2

end Skopt

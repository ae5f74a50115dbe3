import Verif.Model.Space
import Verif.Model.Optimizer

/-!
# The constructors `Real`, `Integer` and `Categorical` with unchecked arguments

`mkReal`, `mkInt` and `mkCat` (Model/Space) take arguments of the right kind.  Here the arguments are what a caller
may pass: any strings, a name that is no string, any `dtype`, NaN as a bound.  Warnings (`np.log10(0)`) are not
modelled; `base` is a number.
-/

namespace Skopt

variable {F : Type}

/-- An argument `name`: `None`, a string or anything else.  (skopt/space/space.py:196-200) -/
inductive NameArg where
  | none
  | str (s : String)
  | other

/-- The types that are told apart as `dtype`; `longdouble` stands for the other subtypes of `np.floating`, `other` for
all other types.  (skopt/space/space.py:272, 464-466) -/
inductive PyType where
  | float | float16 | float32 | float64 | longdouble
  | int | int8 | int16 | int32 | int64 | uint8 | uint16 | uint32 | uint64
  | other
  deriving DecidableEq

/-- An argument `dtype`: a string, a type, or anything else (such as a `np.dtype`), which no check looks at.
(skopt/space/space.py:266-275) -/
inductive DTypeArg where
  | str (s : String)
  | type (t : PyType)
  | other

/-- The arguments of `Real` and `Integer`.  (skopt/space/space.py:252-253, 437-438) -/
structure NumArgs (F : Type) where
  low : Flt F
  high : Flt F
  prior : String
  base : F
  transform : Option String
  name : NameArg
  dtype : DTypeArg

/-- The attributes of a `Real` or `Integer` after construction.  (skopt/space/space.py:260-268, 447-456) -/
structure NumObj (F : Type) where
  low : Flt F
  high : Flt F
  prior : String
  base : F
  transform : String
  name : Option String
  dtype : DTypeArg

/-- `high <= low` for two floats: false if one of them is NaN.  (skopt/space/space.py:254, 439) -/
def Flt.atMost [LinearOrder F] : Flt F → Flt F → Bool
  | .fin x, .fin y => decide (x ≤ y)
  | _, _ => false

/-- The setter of `name`, skopt/space/space.py:196-200. -/
def setName : NameArg → Except PyErr (Option String)
  | .none => .ok none
  | .str s => .ok (some s)
  | .other => .error .valueError

/-- The check of `dtype` in `Real.__init__`, skopt/space/space.py:269-277 (`np.issubdtype(dtype, np.floating)`). -/
def checkRealDtype : DTypeArg → Except PyErr Unit
  | .str s => if s ∈ ["float", "float16", "float32", "float64"] then .ok () else .error .valueError
  | .type t => if t ∈ [PyType.float, .float16, .float32, .float64, .longdouble] then .ok ()
      else .error .valueError
  | .other => .ok ()

/-- The check of `dtype` in `Integer.__init__`, skopt/space/space.py:458-471. -/
def checkIntDtype : DTypeArg → Except PyErr Unit
  | .str s => if s ∈ ["int", "int8", "int16", "int32", "int64", "uint8", "uint16", "uint32", "uint64"] then .ok ()
      else .error .valueError
  | .type t => if t ∈ [PyType.int, .int8, .int16, .int32, .int64, .uint8, .uint16, .uint32, .uint64] then .ok ()
      else .error .valueError
  | .other => .ok ()

/-- `Real.set_transformer` and `Integer.set_transformer`: the check of the name, skopt/space/space.py:295-297,
486-488. -/
def checkNumTransform (t : String) : Except PyErr Unit :=
  if t ∈ ["normalize", "identity"] then .ok () else .error .valueError

/-- `Real.__init__` and `Integer.__init__`, skopt/space/space.py:252-282 and 437-475; they differ in the check of
`dtype`. -/
def numInit [LinearOrder F] (checkDtype : DTypeArg → Except PyErr Unit) (a : NumArgs F) :
    Except PyErr (NumObj F) :=
  if Flt.atMost a.high a.low then .error .valueError
  else if a.prior ∉ ["uniform", "log-uniform"] then .error .valueError
  else do
    let name ← setName a.name
    checkDtype a.dtype
    checkNumTransform (a.transform.getD "identity")
    .ok { low := a.low, high := a.high, prior := a.prior, base := a.base, transform := a.transform.getD "identity",
          name := name, dtype := a.dtype }

/-- `Real.__init__`, skopt/space/space.py:252-282. -/
def realInit [LinearOrder F] (a : NumArgs F) : Except PyErr (NumObj F) := numInit checkRealDtype a

/-- `Integer.__init__`, skopt/space/space.py:437-475. -/
def intInit [LinearOrder F] (a : NumArgs F) : Except PyErr (NumObj F) := numInit checkIntDtype a

/-- The prior as the model of the space sees it.  (skopt/space/space.py:306, 316) -/
def priorOf (s : String) : Prior := if s = "uniform" then .uniform else .logUniform

/-- The transform as the model of the space sees it.  (skopt/space/space.py:301, 490) -/
def transformOf (s : String) : TKind := if s = "normalize" then .normalize else .identity

/-- The `Real` with finite bounds as the model of the space sees it; `cast` is the conversion of its `dtype`.
(skopt/space/space.py:212-390) -/
def NumObj.toReal (cast : DTypeArg → F → F) (o : NumObj F) : Option (Dim F) :=
  match o.low, o.high with
  | .fin l, .fin h => some (.real ⟨l, h, priorOf o.prior, o.base, transformOf o.transform, o.name, cast o.dtype⟩)
  | _, _ => none

/-- The `Integer` with finite bounds as the model of the space sees it; `wrap` is the conversion of its `dtype`.
(skopt/space/space.py:393-574) -/
def NumObj.toInt (wrap : DTypeArg → ℤ → ℤ) (o : NumObj F) : Option (Dim F) :=
  match o.low, o.high with
  | .fin l, .fin h => some (.int ⟨l, h, priorOf o.prior, o.base, transformOf o.transform, o.name, wrap o.dtype⟩)
  | _, _ => none

/-- The attributes of a `Categorical`.  (skopt/space/space.py:605-620) -/
structure CatObj (F : Type) where
  cats : List (Val F)
  prior : Option (List F)
  /-- `prior_` -/
  priorVals : List F
  transform : String
  name : Option String

/-- What scikit-learn's encoders and `rv_discrete` say to the categories and the prior (skopt/space/space.py:636-659):
`fit t cats` for the encoder of the transform `t`, `discrete n prior` for the distribution on `range(n)`. -/
structure CatChecks (F : Type) where
  fit : String → List (Val F) → Except PyErr Unit
  discrete : Nat → List F → Except PyErr Unit

/-- `prior_`, skopt/space/space.py:616-620. -/
def catPrior (A : Arith F) (cats : List (Val F)) : Option (List F) → Except PyErr (List F)
  | some p => .ok p
  | none => if cats.length = 0 then .error .zeroDivisionError
      else .ok (List.replicate cats.length (A.div (A.ofInt 1) (A.ofInt cats.length)))

/-- `Categorical.__init__`, skopt/space/space.py:604-659. -/
def catInit (A : Arith F) (K : CatChecks F) (cats : List (Val F)) (prior : Option (List F))
    (transform : Option String) (name : NameArg) : Except PyErr (CatObj F) := do
  let name ← setName name
  let priorVals ← catPrior A cats prior
  if transform.getD "onehot" ∉ ["identity", "onehot", "string", "normalize", "label"] then .error .valueError
  else do
    K.fit (transform.getD "onehot") cats
    if transform.getD "onehot" = "normalize" then .ok () else K.discrete cats.length priorVals
    .ok { cats := cats, prior := prior, priorVals := priorVals, transform := transform.getD "onehot", name := name }

/-! ## `repr` -/

/-- The text of `repr(dimension)` as an expression; `none` among the categories or prior stands for `...`.  That
`eval(str(x))` gives a finite number back is left to Python.  (skopt/space/space.py:333-335, 518-520, 666-677) -/
inductive ReprText (F : Type) where
  | real (low high : F) (prior : Prior) (transform : TKind)
  | integer (low high : F) (prior : Prior) (transform : TKind)
  | categorical (cats : List (Option (Val F))) (prior : Option (List (Option F)))

/-- `xs[:3] + ... + xs[-3:]` if there are more than seven.  (skopt/space/space.py:667-675) -/
def abbreviate {α : Type} (xs : List α) : List (Option α) :=
  if 7 < xs.length then (xs.take 3).map some ++ [none] ++ (xs.drop (xs.length - 3)).map some
  else xs.map some

/-- `repr` of a dimension, skopt/space/space.py:333-335, 518-520, 666-677.  `listPrior`: the prior of the `Categorical`
was given as a list (to a tuple or an array no list can be added, line 673). -/
def Dim.repr (listPrior : Bool) : Dim F → Except PyErr (ReprText F)
  | .real d => .ok (.real d.low d.high d.prior d.transform)
  | .int d => .ok (.integer d.low d.high d.prior d.transform)
  | .cat c =>
    match c.prior with
    | none => .ok (.categorical (abbreviate c.cats) none)
    | some p =>
      if 7 < p.length ∧ listPrior = false then .error .typeError
      else .ok (.categorical (abbreviate c.cats) (some (abbreviate p)))

/-- Evaluating the text: the constructors with their default arguments, `...` being Python's `Ellipsis` (an object
among the categories, an error in a prior).  (skopt/space/space.py:252-253, 437-438, 604) -/
def ReprText.eval [LinearOrder F] (A : Arith F) (ellipsis : Nat) (str : Val F → String)
    (castStr : String → Except PyErr (Val F)) (wrap : ℤ → ℤ) : ReprText F → Except PyErr (Dim F)
  | .real l h p t => mkReal l h p (A.ofInt 10) (some t) none id
  | .integer l h p t => mkInt l h p (A.ofInt 10) (some t) none wrap
  | .categorical cats none => mkCat (cats.map fun c => c.getD (.obj ellipsis)) none none none str castStr
  | .categorical cats (some p) =>
    if none ∈ p.map (fun x => x.map fun _ => ()) then .error .typeError
    else mkCat (cats.map fun c => c.getD (.obj ellipsis)) (some (p.filterMap id)) none none str castStr

/-- `repr` of a space: the middle dimensions are left out if there are more than 31 (`none`).
(skopt/space/space.py:776-781) -/
def Space.repr (listPrior : Bool) (dims : List (Dim F)) : Except PyErr (List (Option (ReprText F))) :=
  if 31 < dims.length then do
    let a ← mapE (Dim.repr listPrior) (dims.take 15)
    let b ← mapE (Dim.repr listPrior) (dims.drop (dims.length - 15))
    .ok (a.map some ++ [none] ++ b.map some)
  else do
    let a ← mapE (Dim.repr listPrior) dims
    .ok (a.map some)

/-- Evaluating the text of a space; `...` is no dimension (`check_dimension` raises `ValueError`,
skopt/space/space.py:87-98). -/
def evalSpace [LinearOrder F] (A : Arith F) (ellipsis : Nat) (str : Val F → String)
    (castStr : String → Except PyErr (Val F)) (wrap : ℤ → ℤ) (ds : List (Option (ReprText F))) :
    Except PyErr (List (Dim F)) :=
  mapE (fun
    | some s => s.eval A ellipsis str castStr wrap
    | none => .error .valueError) ds

end Skopt

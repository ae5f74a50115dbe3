import Verif.Model.Utils

/-!
# Model of the dimension objects behind `Space.set_transformer`, and of `Space.from_yaml`

`Verif.Model.Space` identifies the attribute `transform_` with the installed transformer, which is
what `set_transformer` leaves behind when it returns.  Here the two are kept apart, because
`set_transformer` assigns `transform_` *before* it checks the name.
-/

namespace Skopt

variable {F : Type}

/-- A dimension object with its two separate attributes: `dim` carries the immutable fields and
(in its `transform` field) which transformer is installed in `self.transformer` and `self._rvs`;
`label` is `self.transform_`.  (space.py:293-324, 484-511, 632-659) -/
structure DimObj (F : Type) where
  dim : Dim F
  label : String

/-- The names accepted by `set_transformer` of this kind of dimension and the transformer each one
installs.  (space.py:295-324 `Real`, 486-511 `Integer`, 633-652 `Categorical`) -/
def Dim.kindOfName (d : Dim F) (s : String) : Option TKind :=
  match d with
  | .cat _ =>
    if s = "identity" then some .identity
    else if s = "onehot" then some .onehot
    else if s = "string" then some .string
    else if s = "normalize" then some .normalize
    else if s = "label" then some .label
    else none
  | _ =>
    if s = "normalize" then some .normalize
    else if s = "identity" then some .identity
    else none

/-- Install the transformer of the given kind.  (space.py:302-324, 490-511, 637-659) -/
def Dim.install (d : Dim F) (t : TKind) : Dim F :=
  match d with
  | .real r => .real { r with transform := t }
  | .int r => .int { r with transform := t }
  | .cat c => .cat { c with transform := t }

/-- `Dimension.set_transformer(name)`, space.py:284-324, 475-511, 623-659: the object afterwards and
the exception raised, if any.  `self.transform_ = transform` comes first (293, 484, 632).  (Fitting
the encoder of a `Categorical`, 637-652, is assumed not to raise.) -/
def DimObj.setTransformer (o : DimObj F) (s : String) : DimObj F × Option PyErr :=
  let o := { o with label := s }
  match o.dim.kindOfName s with
  | none => (o, some .valueError)
  | some t => ({ o with dim := o.dim.install t }, none)

/-- `transformed_bounds` of one object (space.py:366-374, 553-558, 722-727, 702-709): these
properties read `transform_`, not the installed transformer. -/
def DimObj.transformedBounds [LinearOrder F] (A : Arith F) (o : DimObj F) : List (F × F) :=
  match o.dim with
  | .real r =>
    if o.label = "normalize" then [(A.ofInt 0, A.ofInt 1)]
    else match r.prior with
      | .uniform => [(r.low, r.high)]
      | .logUniform => [(A.log10 r.low, A.log10 r.high)]
  | .int r => if o.label = "normalize" then [(A.ofInt 0, A.ofInt 1)] else [(r.low, r.high)]
  | .cat c =>
    List.replicate
      (if o.label = "onehot" then (if c.cats.length = 2 then 1 else c.cats.length) else 1)
      (A.ofInt 0, A.ofInt 1)

/-- The argument of `Space.set_transformer`: one name or a list of names.  (space.py:905-920) -/
inductive TransformArg where
  | one (s : String)
  | each (ss : List String)

namespace SpaceObj

/-- `get_transformer`, space.py:938-940. -/
def getTransformer (os : List (DimObj F)) : List String := os.map DimObj.label

/-- The loop of `set_transformer` with a list of names, space.py:915-918: dimensions are changed one
after the other; an exception leaves the earlier ones changed.  `transform[j]` raises `IndexError`
when the list is too short. -/
def setEach : List (DimObj F) → List String → List (DimObj F) × Option PyErr
  | [], _ => ([], none)
  | o :: os, [] => (o :: os, some .indexError)
  | o :: os, s :: ss =>
    match o.setTransformer s with
    | (o', some e) => (o' :: os, some e)
    | (o', none) =>
      let r := setEach os ss
      (o' :: r.1, r.2)

/-- The loop of `set_transformer` with one name (space.py:915-920) and of `set_transformer_by_type`
(space.py:922-936), which skips the dimensions of other types. -/
def setWhere (p : Dim F → Bool) (s : String) : List (DimObj F) → List (DimObj F) × Option PyErr
  | [] => ([], none)
  | o :: os =>
    if p o.dim then
      match o.setTransformer s with
      | (o', some e) => (o' :: os, some e)
      | (o', none) =>
        let r := setWhere p s os
        (o' :: r.1, r.2)
    else
      let r := setWhere p s os
      (o :: r.1, r.2)

/-- `Space.set_transformer`, space.py:905-920. -/
def setTransformer (os : List (DimObj F)) : TransformArg → List (DimObj F) × Option PyErr
  | .one s => setWhere (fun _ => true) s os
  | .each ss => setEach os ss

/-- `Space.set_transformer_by_type`, space.py:922-936; `p` is `isinstance(dim, dim_type)`. -/
def setTransformerByType (os : List (DimObj F)) (s : String) (p : Dim F → Bool) :
    List (DimObj F) × Option PyErr :=
  setWhere p s os

/-- `Space.transform`, space.py:942-974, which uses the installed transformers. -/
def transform [LinearOrder F] (A : Arith F) (os : List (DimObj F)) (X : List (Point F)) :
    Except PyErr (List (List (Val F))) :=
  Space.transform A (os.map DimObj.dim) X

/-- `Space.transformed_bounds`, space.py:1091-1102. -/
def transformedBounds [LinearOrder F] (A : Arith F) (os : List (DimObj F)) : List (F × F) :=
  os.flatMap (DimObj.transformedBounds A)

end SpaceObj

/-! ## `Space.from_yaml`, skopt/space/space.py:807-865 -/

/-- What `yaml.safe_load` returns (space.py:841); mapping keys are strings here. -/
inductive Yaml (F : Type) where
  | null
  | num (x : F)
  | str (s : String)
  | seq (xs : List (Yaml F))
  | map (kvs : List (String × Yaml F))

/-- `dimension_classes`, space.py:843-845, looked up with the lower-cased name (863-867). -/
def dimClassOf (s : String) : Option DimKind :=
  if s.toLower = "real" then some .real
  else if s.toLower = "integer" then some .integer
  else if s.toLower = "categorical" then some .categorical
  else none

/-- `{k.lower(): v for k, v in option[key].items()}`, space.py:864: a later key replaces the value
of an equal earlier one. -/
def lowerKeys (kvs : List (String × Yaml F)) : List (String × Yaml F) :=
  dictOf (kvs.map fun p => (p.1.toLower, p.2))

/-- The value stored under a key of a mapping.  (space.py:852) -/
def yamlGet (k : String) : List (String × Yaml F) → Except PyErr (Yaml F)
  | [] => .error .keyError
  | (k', v) :: kvs => if k' = k then .ok v else yamlGet k kvs

/-- `options`, space.py:848-856. -/
def yamlOptions (ns : Option String) : Yaml F → Except PyErr (Yaml F)
  | .map kvs =>
    match ns with
    | none => match kvs with
      | [] => .error .stopIteration
      | (_, v) :: _ => .ok v
    | some n => yamlGet n kvs
  | .seq xs => .ok (.seq xs)
  | _ => .error .typeError

/-- The body of the loop, space.py:861-868: a dimension, or nothing when the class is unknown.
`build` is the constructor called with the values as keyword arguments. -/
def yamlEntry (build : DimKind → List (String × Yaml F) → Except PyErr (Dim F)) :
    Yaml F → Except PyErr (Option (Dim F))
  | .map [] => .error .stopIteration
  | .map ((k, v) :: _) =>
    match v with
    | .map kvs =>
      match dimClassOf k with
      | some c => do let d ← build c (lowerKeys kvs); .ok (some d)
      | none => .ok none
    | _ => .error .attributeError
  | _ => .error .attributeError

/-- `for option in options`, space.py:860: iterating a mapping or a string gives strings. -/
def yamlItems : Yaml F → Except PyErr (List (Yaml F))
  | .seq xs => .ok xs
  | .map kvs => .ok (kvs.map fun p => .str p.1)
  | .str s => .ok (s.toList.map fun c => .str c.toString)
  | _ => .error .typeError

/-- `Space.from_yaml`, space.py:840-872, given the parsed file. -/
def fromYaml (build : DimKind → List (String × Yaml F) → Except PyErr (Dim F))
    (config : Yaml F) (ns : Option String) : Except PyErr (List (Dim F)) := do
  let options ← yamlOptions ns config
  let items ← yamlItems options
  let ds ← mapE (yamlEntry build) items
  .ok (ds.filterMap id)

end Skopt

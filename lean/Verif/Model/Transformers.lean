import Verif.Basic
import Mathlib.Data.List.Dedup
import Mathlib.Data.List.Sort

/-!
# Model of `skopt/space/transformers.py`

A column (the values of one dimension for all samples) is a `List (Val F)`.  All scalar
transformers are `Stage`s; a `Transformer` is either a pipeline of stages (a lone stage is a
one-stage pipeline, skopt/space/transformers.py:279-310) or the one-hot encoder, whose output has
several columns.  Rows of the transformed matrix are lists.
-/

namespace Skopt

variable {F : Type}

/-! ## Normalize, skopt/space/transformers.py:221-276 -/

/-- `Normalize.__init__`, transformers.py:237-241 (`_eps` is `A.eps`). -/
structure Normalize (F : Type) where
  low : F
  high : F
  isInt : Bool

/-- `Normalize.transform`, transformers.py:243-265.  The range checks are done on the whole array
first; an interval of width `0.` gives zeros. -/
def Normalize.transform [LinearOrder F] (A : Arith F) (n : Normalize F) (X : List F) :
    Except PyErr (List F) :=
  let r : F → F := fun x => A.ofInt (A.round x)
  if n.isInt && X.any (fun x => decide (n.high < r x)) then .error .valueError
  else if n.isInt && X.any (fun x => decide (r x < n.low)) then .error .valueError
  else if !n.isInt && X.any (fun x => decide (A.add n.high A.eps < x)) then .error .valueError
  else if !n.isInt && X.any (fun x => decide (x < A.sub n.low A.eps)) then .error .valueError
  else if A.sub n.high n.low = A.ofInt 0 then .ok (X.map fun x => A.mul x (A.ofInt 0))
  else if n.isInt then
    .ok (X.map fun x => A.div (A.sub (r x) n.low) (A.sub n.high n.low))
  else .ok (X.map fun x => A.div (A.sub x n.low) (A.sub n.high n.low))

/-- `Normalize.inverse_transform`, transformers.py:267-276. -/
def Normalize.inverse [LinearOrder F] (A : Arith F) (n : Normalize F) (X : List F) :
    Except PyErr (List F) :=
  if X.any (fun x => decide (A.add (A.ofInt 1) A.eps < x)) then .error .valueError
  else if X.any (fun x => decide (x < A.sub (A.ofInt 0) A.eps)) then .error .valueError
  else
    let orig : F → F := fun x => A.add (A.mul x (A.sub n.high n.low)) n.low
    if n.isInt then .ok (X.map fun x => A.ofInt (A.round (orig x)))
    else .ok (X.map orig)

/-! ## LogN, skopt/space/transformers.py:85-95 -/

/-- `LogN.transform`, transformers.py:91-92. -/
def logNTransform (A : Arith F) (base x : F) : F := A.div (A.log10 x) (A.log10 base)

/-- `LogN.inverse_transform`, transformers.py:94-95. -/
def logNInverse (A : Arith F) (base x : F) : F := A.pow base x

/-! ## LabelEncoder, skopt/space/transformers.py:155-218 -/

/-- Order used by `np.unique` on a homogeneous array (numbers by `≤`, strings by code points).
(transformers.py:175) -/
def valLe [LinearOrder F] : Val F → Val F → Bool
  | .num x, .num y => decide (x ≤ y)
  | .str x, .str y => decide (x ≤ y)
  | .num _, _ => true
  | .str _, .num _ => false
  | .str _, _ => true
  | .obj _, .num _ => false
  | .obj _, .str _ => false
  | .obj _, _ => true
  | .seq _, .seq _ => true
  | .seq _, _ => false

/-- `np.unique`: sorted distinct values.  (transformers.py:175) -/
def npUnique [LinearOrder F] (xs : List (Val F)) : List (Val F) :=
  (xs.dedup).insertionSort (fun a b => valLe a b = true)

/-- Fitted label encoder: `mapping_` and `inverse_mapping_`.  (transformers.py:169-178) -/
structure LabelEnc (F : Type) where
  mapping : List (Val F × Nat)
  inverse : List (Nat × Val F)

/-- `LabelEncoder.fit`, transformers.py:161-179: enumeration order for object arrays, sorted order
otherwise. -/
def LabelEnc.fit [LinearOrder F] (A : Arith F) (X : List (Val F)) : Except PyErr (LabelEnc F) := do
  let X' ← npArray A X
  let keys := if isObjectDtype X' then X' else npUnique X'
  let mapping := dictOf keys.zipIdx
  .ok { mapping := mapping, inverse := dictOf (mapping.map fun p => (p.2, p.1)) }

/-- `LabelEncoder.transform`, transformers.py:181-196. -/
def LabelEnc.transform [LinearOrder F] (A : Arith F) (e : LabelEnc F) (X : List (Val F)) :
    Except PyErr (List (Val F)) := do
  let X' ← npArray A X
  mapE (fun v => do let i ← dictGet e.mapping v; .ok (.num (A.ofInt i))) X'

/-- `LabelEncoder.inverse_transform`, transformers.py:198-218: `inverse_mapping_[int(round(i))]`.
A negative or too large rounded label is a `KeyError`. -/
def LabelEnc.inverseTransform (A : Arith F) (e : LabelEnc F) (X : List F) :
    Except PyErr (List (Val F)) :=
  mapE (fun x => if A.round x < 0 then .error .keyError else dictGet e.inverse (A.round x).toNat) X

/-! ## CategoricalEncoder, skopt/space/transformers.py:98-152, with sklearn's LabelBinarizer -/

/-- Fitted one-hot encoder: `mapping_`, `inverse_mapping_` and `_lb.classes_`.  (transformers.py:98-118) -/
structure OneHot (F : Type) where
  mapping : List (Val F × Nat)
  inverse : List (Nat × Val F)
  classes : List Nat

/-- `CategoricalEncoder.fit`, transformers.py:105-118.  `LabelBinarizer.fit` stores the sorted
distinct labels and raises `ValueError` on an empty list. -/
def OneHot.fit [DecidableEq F] (X : List (Val F)) : Except PyErr (OneHot F) := do
  let mapping := dictOf X.zipIdx
  let inv := dictOf (mapping.map fun p => (p.2, p.1))
  let labels ← mapE (dictGet mapping) X
  if labels.isEmpty then .error .valueError
  else .ok { mapping := mapping, inverse := inv,
             classes := labels.dedup.insertionSort (· ≤ ·) }

/-- `LabelBinarizer.transform` of one label: one class gives the single column 0, two classes the
indicator of the second class, more classes one indicator column per class.  (called at transformers.py:133) -/
def binarize (A : Arith F) (classes : List Nat) (i : Nat) : List F :=
  let ind : Nat → F := fun c => if i = c then A.ofInt 1 else A.ofInt 0
  match classes with
  | [] => []
  | [_] => [A.ofInt 0]
  | [_, c1] => [ind c1]
  | cs => cs.map ind

/-- `CategoricalEncoder.transform`, transformers.py:120-133. -/
def OneHot.transform [DecidableEq F] (A : Arith F) (e : OneHot F) (X : List (Val F)) :
    Except PyErr (List (List (Val F))) :=
  mapE (fun v => do
    let i ← dictGet e.mapping v
    .ok ((binarize A e.classes i).map .num)) X

/-- `LabelBinarizer.inverse_transform` of the rows: arg-max for three or more classes
(`classes.take(argmax, mode="clip")`), thresholding at 0.5 for two classes (column 1 if there are
two columns, otherwise all entries are raveled), the only class for one class.  (called at transformers.py:149-152) -/
def unbinarize [LinearOrder F] (A : Arith F) (classes : List Nat) (rows : List (List F)) :
    Except PyErr (List Nat) :=
  match classes with
  | [] => .error .valueError
  | [c] => .ok (rows.map fun _ => c)
  | [c0, c1] =>
    let pick : F → Nat := fun y => if A.half < y then c1 else c0
    if rows.all (fun r => r.length == 2) then
      mapE (fun r => do let y ← pyGet r 1; .ok (pick y)) rows
    else .ok (rows.flatten.map pick)
  | cs => mapE (fun r => do
      let k ← npArgmax r
      pyGet cs (min k (cs.length - 1))) rows

/-- `CategoricalEncoder.inverse_transform`, transformers.py:135-152. -/
def OneHot.inverseTransform [LinearOrder F] (A : Arith F) (e : OneHot F) (rows : List (List F)) :
    Except PyErr (List (Val F)) := do
  let ks ← unbinarize A e.classes rows
  mapE (dictGet e.inverse) ks

/-! ## Scalar stages and pipelines -/

/-- The scalar transformers: `Identity` (transformers.py:20-28), `StringEncoder` (31-82, given by
its `str` and `dtype` conversions), `LogN` (85-95), `LabelEncoder` (155-218), `Normalize`
(221-276). -/
inductive Stage (F : Type) where
  | identity
  | string (str : Val F → String) (cast : String → Except PyErr (Val F))
  | logN (base : F)
  | label (e : LabelEnc F)
  | normalize (n : Normalize F)

/-- `transform` of a scalar stage on a column.  Numeric stages raise `TypeError` on non-numbers.
(transformers.py:20-276) -/
def Stage.transform [LinearOrder F] (A : Arith F) (s : Stage F) (X : List (Val F)) :
    Except PyErr (List (Val F)) :=
  match s with
  | .identity => .ok X
  | .string str _ => .ok (X.map fun v => .str (str v))
  | .logN b => do
      let xs ← mapE Val.toNum X
      .ok (xs.map fun x => .num (logNTransform A b x))
  | .label e => e.transform A X
  | .normalize n => do
      let xs ← mapE Val.toNum X
      let ys ← n.transform A xs
      .ok (ys.map .num)

/-- `inverse_transform` of a scalar stage on a column. `StringEncoder` (transformers.py:82) applies
`dtype` to every entry; on a non-string that is not modelled. -/
def Stage.inverse [LinearOrder F] (A : Arith F) (s : Stage F) (X : List (Val F)) :
    Except PyErr (List (Val F)) :=
  match s with
  | .identity => .ok X
  | .string _ cast => mapE (fun v => match v with
      | .str t => cast t
      | _ => .error .unmodelled) X
  | .logN b => do
      let xs ← mapE Val.toNum X
      .ok (xs.map fun x => .num (logNInverse A b x))
  | .label e => do
      let xs ← mapE Val.toNum X
      e.inverseTransform A xs
  | .normalize n => do
      let xs ← mapE Val.toNum X
      let ys ← n.inverse A xs
      .ok (ys.map .num)

/-- `Pipeline.transform`, transformers.py:302-305: stages in order. -/
def pipelineTransform [LinearOrder F] (A : Arith F) : List (Stage F) → List (Val F) →
    Except PyErr (List (Val F))
  | [], X => .ok X
  | s :: ss, X => do
      let Y ← s.transform A X
      pipelineTransform A ss Y

/-- The loop of `Pipeline.inverse_transform`, transformers.py:307-310, over the stages it is
given (the caller passes them reversed). -/
def pipelineInverseLoop [LinearOrder F] (A : Arith F) : List (Stage F) → List (Val F) →
    Except PyErr (List (Val F))
  | [], X => .ok X
  | s :: ss, X => do
      let Y ← s.inverse A X
      pipelineInverseLoop A ss Y

/-- `Pipeline.inverse_transform`, transformers.py:307-310: `self.transformers[::-1]`. -/
def pipelineInverse [LinearOrder F] (A : Arith F) (ss : List (Stage F)) (X : List (Val F)) :
    Except PyErr (List (Val F)) :=
  pipelineInverseLoop A ss.reverse X

/-- A fitted transformer of a dimension.  (transformers.py:279-310 and 98-152) -/
inductive Transformer (F : Type) where
  | pipeline (ss : List (Stage F))
  | onehot (e : OneHot F)

/-- `transformer.transform(column)` followed by `np.asarray(c).reshape((n, -1))`
(skopt/space/space.py:972): rows of the block of this dimension. -/
def Transformer.transform [LinearOrder F] (A : Arith F) (t : Transformer F) (X : List (Val F)) :
    Except PyErr (List (List (Val F))) :=
  match t with
  | .pipeline ss => do
      let Y ← pipelineTransform A ss X
      .ok (Y.map fun v => [v])
  | .onehot e => e.transform A X

/-- The single entry of a row of a one-column block.  (skopt/space/space.py:998-999) -/
def scalarRow : List (Val F) → Except PyErr (Val F)
  | [v] => .ok v
  | _ => .error .unmodelled

/-- `transformer.inverse_transform(block)`.  For a scalar transformer the block is the 1-d column
`Xt[:, start]` (skopt/space/space.py:998-999), i.e. rows of length one. -/
def Transformer.inverse [LinearOrder F] (A : Arith F) (t : Transformer F)
    (rows : List (List (Val F))) : Except PyErr (List (Val F)) :=
  match t with
  | .pipeline ss => do
      let col ← mapE scalarRow rows
      pipelineInverse A ss col
  | .onehot e => do
      let rs ← mapE (mapE Val.toNum) rows
      e.inverseTransform A rs

end Skopt

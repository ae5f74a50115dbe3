import Verif.Model.Transformers

/-!
# Model of `skopt/space/space.py`

Dimensions store the constructor arguments; the transformer is recomputed from them
(`Dim.transformer`), because the only method that replaces it, `set_transformer`, derives it from
the same immutable fields.  `dtype` is represented by the conversion it performs in
`inverse_transform` (`cast` for Real, `wrap` for Integer; both the identity for the default dtypes).
-/

namespace Skopt

variable {F : Type}

/-- `prior` of a numeric dimension, space.py:257. -/
inductive Prior where
  | uniform | logUniform
  deriving DecidableEq, Repr

/-- The legal values of `transform_` over all dimension kinds, space.py:295, 486, 633. -/
inductive TKind where
  | identity | normalize | onehot | string | label
  deriving DecidableEq, Repr

/-- `Real`, space.py:212-390. -/
structure RealDim (F : Type) where
  low : F
  high : F
  prior : Prior
  base : F
  transform : TKind
  name : Option String
  /-- `.astype(self.dtype)`, space.py:346 -/
  cast : F → F

/-- `Integer`, space.py:393-574.  The code does not check that the bounds are integers, so they are
numbers here. -/
structure IntDim (F : Type) where
  low : F
  high : F
  prior : Prior
  base : F
  transform : TKind
  name : Option String
  /-- `.astype(self.dtype)` on integers, space.py:532-535 -/
  wrap : ℤ → ℤ

/-- `Categorical`, space.py:577-746.  `str`/`castStr` are the conversions of the `StringEncoder`
for this category type. -/
structure CatDim (F : Type) where
  cats : List (Val F)
  prior : Option (List F)
  transform : TKind
  name : Option String
  str : Val F → String
  castStr : String → Except PyErr (Val F)

/-- A dimension object.  (space.py:139-746) -/
inductive Dim (F : Type) where
  | real (d : RealDim F)
  | int (d : IntDim F)
  | cat (d : CatDim F)

/-- `Real.__init__`, space.py:252-282: bounds, prior and transform checks (base, name and dtype
validity are not modelled). -/
def mkReal [LinearOrder F] (low high : F) (prior : Prior) (base : F) (transform : Option TKind)
    (name : Option String) (cast : F → F) : Except PyErr (Dim F) :=
  if high ≤ low then .error .valueError
  else match transform.getD .identity with
    | .normalize => .ok (.real ⟨low, high, prior, base, .normalize, name, cast⟩)
    | .identity => .ok (.real ⟨low, high, prior, base, .identity, name, cast⟩)
    | _ => .error .valueError

/-- `Integer.__init__`, space.py:437-473. -/
def mkInt [LinearOrder F] (low high : F) (prior : Prior) (base : F) (transform : Option TKind)
    (name : Option String) (wrap : ℤ → ℤ) : Except PyErr (Dim F) :=
  if high ≤ low then .error .valueError
  else match transform.getD .identity with
    | .normalize => .ok (.int ⟨low, high, prior, base, .normalize, name, wrap⟩)
    | .identity => .ok (.int ⟨low, high, prior, base, .identity, name, wrap⟩)
    | _ => .error .valueError

/-- `Categorical.__init__`, space.py:604-621: an empty category list divides by zero
(line 617) when no prior is given and otherwise fails inside `rv_discrete`/the encoders. -/
def mkCat (cats : List (Val F)) (prior : Option (List F)) (transform : Option TKind)
    (name : Option String) (str : Val F → String) (castStr : String → Except PyErr (Val F)) :
    Except PyErr (Dim F) :=
  if cats.isEmpty then .error .zeroDivisionError
  else .ok (.cat ⟨cats, prior, transform.getD .onehot, name, str, castStr⟩)

/-- `self.transform_`.  (space.py:293, 484, 632) -/
def Dim.tkind : Dim F → TKind
  | .real d => d.transform
  | .int d => d.transform
  | .cat d => d.transform

/-- `self.name`.  (space.py:193-202) -/
def Dim.name : Dim F → Option String
  | .real d => d.name
  | .int d => d.name
  | .cat d => d.name

/-- `isinstance(dim, Categorical)`.  (space.py:1107, 1112) -/
def Dim.isCat : Dim F → Bool
  | .cat _ => true
  | _ => false

/-- `Real.set_transformer` (space.py:284-324), `Integer.set_transformer` (475-511),
`Categorical.set_transformer` (623-659): legality of the transform name per kind. -/
def Dim.setTransformer (d : Dim F) (t : TKind) : Except PyErr (Dim F) :=
  match d with
  | .real r => match t with
    | .normalize => .ok (.real { r with transform := .normalize })
    | .identity => .ok (.real { r with transform := .identity })
    | _ => .error .valueError
  | .int r => match t with
    | .normalize => .ok (.int { r with transform := .normalize })
    | .identity => .ok (.int { r with transform := .identity })
    | _ => .error .valueError
  | .cat c => .ok (.cat { c with transform := t })

/-- `self.transformer` of a `Real`, space.py:299-324. -/
def RealDim.transformer (A : Arith F) (d : RealDim F) : Transformer F :=
  let lg : F → F := fun x => A.div (A.log10 x) (A.log10 d.base)
  match d.transform, d.prior with
  | .normalize, .uniform => .pipeline [.identity, .normalize ⟨d.low, d.high, false⟩]
  | .normalize, .logUniform => .pipeline [.logN d.base, .normalize ⟨lg d.low, lg d.high, false⟩]
  | _, .uniform => .pipeline [.identity]
  | _, .logUniform => .pipeline [.logN d.base]

/-- `self.transformer` of an `Integer`, space.py:490-511. -/
def IntDim.transformer (A : Arith F) (d : IntDim F) : Transformer F :=
  let lg : F → F := fun x => A.div (A.log10 x) (A.log10 d.base)
  match d.transform, d.prior with
  | .normalize, .uniform => .pipeline [.identity, .normalize ⟨d.low, d.high, true⟩]
  | .normalize, .logUniform => .pipeline [.logN d.base, .normalize ⟨lg d.low, lg d.high, false⟩]
  | _, .uniform => .pipeline [.identity]
  | _, .logUniform => .pipeline [.logN d.base]

/-- `self.transformer` of a `Categorical`, space.py:637-652. -/
def CatDim.transformer [LinearOrder F] (A : Arith F) (d : CatDim F) :
    Except PyErr (Transformer F) :=
  match d.transform with
  | .onehot => do let e ← OneHot.fit d.cats; .ok (.onehot e)
  | .string => .ok (.pipeline [.string d.str d.castStr])
  | .label => do let e ← LabelEnc.fit A d.cats; .ok (.pipeline [.label e])
  | .normalize => do
      let e ← LabelEnc.fit A d.cats
      .ok (.pipeline [.label e,
        .normalize ⟨A.ofInt 0, A.ofInt ((d.cats.length : ℤ) - 1), true⟩])
  | .identity => .ok (.pipeline [.identity])

/-- The transformer of a dimension (fitting a categorical encoder can raise).  (space.py:160-168) -/
def Dim.transformer [LinearOrder F] (A : Arith F) : Dim F → Except PyErr (Transformer F)
  | .real d => .ok (d.transformer A)
  | .int d => .ok (d.transformer A)
  | .cat d => d.transformer A

/-- `Dimension.transform`, space.py:160-162. -/
def Dim.transform [LinearOrder F] (A : Arith F) (d : Dim F) (X : List (Val F)) :
    Except PyErr (List (List (Val F))) := do
  let t ← d.transformer A
  t.transform A X

/-- `Real.inverse_transform`, space.py:337-351: clip to the bounds, then convert to `dtype`. -/
def RealDim.inverse [LinearOrder F] (A : Arith F) (d : RealDim F) (rows : List (List (Val F))) :
    Except PyErr (List (Val F)) := do
  let vs ← (d.transformer A).inverse A rows
  let xs ← mapE Val.toNum vs
  .ok (xs.map fun x => .num (d.cast (npClip d.low d.high x)))

/-- `Integer.inverse_transform`, space.py:522-538: clip to the bounds, round, convert to `dtype`. -/
def IntDim.inverse [LinearOrder F] (A : Arith F) (d : IntDim F) (rows : List (List (Val F))) :
    Except PyErr (List (Val F)) := do
  let vs ← (d.transformer A).inverse A rows
  let xs ← mapE Val.toNum vs
  .ok (xs.map fun x => .num (A.ofInt (d.wrap (A.round (npClip d.low d.high x)))))

/-- `Categorical.inverse_transform`, space.py:679-688: the encoders return Python lists, which
`np.array` promotes to a common type; `Identity` returns the array slice unchanged. -/
def CatDim.inverse [LinearOrder F] (A : Arith F) (d : CatDim F) (rows : List (List (Val F))) :
    Except PyErr (List (Val F)) := do
  let t ← d.transformer A
  let vs ← t.inverse A rows
  match d.transform with
  | .identity => .ok vs
  | _ => npArray A vs

/-- `inverse_transform` of a dimension on its block of rows.  (space.py:164-168, 337-351, 522-538, 679-688) -/
def Dim.inverse [LinearOrder F] (A : Arith F) (d : Dim F) (rows : List (List (Val F))) :
    Except PyErr (List (Val F)) :=
  match d with
  | .real r => r.inverse A rows
  | .int r => r.inverse A rows
  | .cat c => c.inverse A rows

/-- `transformed_size`, space.py:177-179 and 702-709. -/
def Dim.transformedSize : Dim F → Nat
  | .cat c => match c.transform with
    | .onehot => if c.cats.length = 2 then 1 else c.cats.length
    | _ => 1
  | _ => 1

/-- `is_constant`, space.py:357-359, 544-546, 715-717. -/
def Dim.isConstant [DecidableEq F] : Dim F → Bool
  | .real d => decide (d.low = d.high)
  | .int d => decide (d.low = d.high)
  | .cat c => decide (c.cats.length ≤ 1)

/-- `__contains__`, space.py:361-364, 548-551, 719-720.  Comparing a non-number with the bounds
raises `TypeError`; a sequence component is turned into an array there, which is not modelled
(reported as `TypeError` as well). -/
def Dim.contains [LinearOrder F] (d : Dim F) (v : Val F) : Except PyErr Bool :=
  match d with
  | .real r => do let x ← v.toNum; .ok (decide (r.low ≤ x) && decide (x ≤ r.high))
  | .int r => do let x ← v.toNum; .ok (decide (r.low ≤ x) && decide (x ≤ r.high))
  | .cat c => .ok (decide (v ∈ c.cats))

/-- `transformed_bounds` of one dimension as a list of intervals, space.py:366-374, 553-558,
722-727. -/
def Dim.transformedBounds [LinearOrder F] (A : Arith F) (d : Dim F) : List (F × F) :=
  match d with
  | .real r => match r.transform, r.prior with
    | .normalize, _ => [(A.ofInt 0, A.ofInt 1)]
    | _, .uniform => [(r.low, r.high)]
    | _, .logUniform => [(A.log10 r.low, A.log10 r.high)]
  | .int r => match r.transform with
    | .normalize => [(A.ofInt 0, A.ofInt 1)]
    | _ => [(r.low, r.high)]
  | .cat c => List.replicate (Dim.cat c).transformedSize (A.ofInt 0, A.ofInt 1)

/-- Absolute value of a difference, `abs(a - b)`, space.py:390, 574. -/
def absDiff [LinearOrder F] (A : Arith F) (a b : F) : F :=
  let d := A.sub a b
  if d < A.ofInt 0 then A.sub (A.ofInt 0) d else d

/-- `distance`, space.py:376-390, 560-574, 729-746; `RuntimeError` outside the dimension. -/
def Dim.distance [LinearOrder F] (A : Arith F) (d : Dim F) (a b : Val F) : Except PyErr F := do
  let ia ← d.contains a
  if !ia then .error .runtimeError
  else
    let ib ← d.contains b
    if !ib then .error .runtimeError
    else match d with
      | .cat _ => .ok (if a = b then A.ofInt 0 else A.ofInt 1)
      | _ => do
        let x ← a.toNum
        let y ← b.toNum
        .ok (absDiff A x y)

/-! ## Space, skopt/space/space.py:749-1140 -/

/-- `_transpose_list_array`, space.py:27-40. -/
def transposeListArray {α : Type} (x : List (List α)) : Except PyErr (List (List α)) :=
  match x with
  | [] => .error .assertionError
  | c :: _ => mapE (fun i => mapE (fun col => pyGet col i) x) (List.range c.length)

namespace Space

/-- The loop `columns[j].append(X[i][j])`, space.py:959-965, column by column. -/
def columns (n : Nat) (X : List (Point F)) : Except PyErr (List (List (Val F))) :=
  mapE (fun j => mapE (fun p => pyGet p j) X) (List.range n)

/-- Glue two blocks of rows side by side (`np.hstack`).  (space.py:972) -/
def glue {α : Type} (a b : List (List α)) : List (List α) := List.zipWith (· ++ ·) a b

/-- `np.asarray(c)` of one transformed column, including numpy's type promotion, space.py:972. -/
def asBlock (A : Arith F) (b : List (List (Val F))) : List (List (Val F)) :=
  b.map fun r => r.map (promote A b.flatten)

/-- `np.hstack` of the blocks of all columns, each made an array first, including numpy's type
promotion across the blocks, space.py:972. -/
def hstack (A : Arith F) (n : Nat) (blocks : List (List (List (Val F)))) :
    List (List (Val F)) :=
  let rows := (blocks.map (asBlock A)).foldr glue (List.replicate n [])
  rows.map fun r => r.map (promote A rows.flatten)

/-- `Space.transform`, space.py:942-974.  `reshape((0, -1))` of an empty sample list raises
`ValueError`; so does `hstack` of no columns. -/
def transform [LinearOrder F] (A : Arith F) (dims : List (Dim F)) (X : List (Point F)) :
    Except PyErr (List (List (Val F))) := do
  let cols ← columns dims.length X
  let blocks ← mapE (fun p => Dim.transform A p.1 p.2) (dims.zip cols)
  if X.isEmpty || dims.isEmpty then .error .valueError
  else .ok (hstack A X.length blocks)

/-- One step of the loop of `Space.inverse_transform`, space.py:994-1004: the block of the
dimension starting at column `start` (`Xt[:, start]` or `Xt[:, start:start+offset]`). -/
def block (start offset : Nat) (Xt : List (List (Val F))) :
    Except PyErr (List (List (Val F))) :=
  if offset = 1 then mapE (fun r => do let v ← pyGet r start; .ok [v]) Xt
  else .ok (Xt.map fun r => (r.drop start).take offset)

/-- The loop over dimensions with the running offset `start`, space.py:992-1004. -/
def inverseCols [LinearOrder F] (A : Arith F) : List (Dim F) → Nat → List (List (Val F)) →
    Except PyErr (List (List (Val F)))
  | [], _, _ => .ok []
  | d :: ds, start, Xt => do
      let b ← block start d.transformedSize Xt
      let c ← d.inverse A b
      let cs ← inverseCols A ds (start + d.transformedSize) Xt
      .ok (c :: cs)

/-- `Space.inverse_transform`, space.py:976-1007.  An empty list is a 1-d array, so
`Xt[:, start]` raises `IndexError`.  (The two-dimensional arrays without rows that the generators
would pass for `n_samples = 0` are not distinguished from it; the code maps them to `[]`.) -/
def inverseTransform [LinearOrder F] (A : Arith F) (dims : List (Dim F))
    (Xt : List (List (Val F))) : Except PyErr (List (Point F)) := do
  let cols ← inverseCols A dims 0 Xt
  if Xt.isEmpty && !dims.isEmpty then .error .indexError
  else transposeListArray cols

/-- `transformed_n_dims`, space.py:1014-1017. -/
def transformedNDims (dims : List (Dim F)) : Nat := (dims.map Dim.transformedSize).sum

/-- `transformed_bounds`, space.py:1091-1102. -/
def transformedBounds [LinearOrder F] (A : Arith F) (dims : List (Dim F)) : List (F × F) :=
  dims.flatMap (Dim.transformedBounds A)

/-- `__contains__`, space.py:1032-1037: components are zipped with dimensions. -/
def contains [LinearOrder F] : List (Dim F) → Point F → Except PyErr Bool
  | d :: ds, v :: vs => do
      let b ← d.contains v
      if b then contains ds vs else .ok false
  | _, _ => .ok true

/-- `is_categorical`, space.py:1104-1107. -/
def isCategorical (dims : List (Dim F)) : Bool := dims.all Dim.isCat

/-- `n_constant_dimensions`, space.py:1114-1123. -/
def nConstant [DecidableEq F] (dims : List (Dim F)) : Nat := (dims.filter Dim.isConstant).length

/-- `distance`, space.py:1125-1140: sum over zipped components, accumulated from the left. -/
def distanceFrom [LinearOrder F] (A : Arith F) (acc : F) :
    List (Dim F) → Point F → Point F → Except PyErr F
  | d :: ds, a :: as, b :: bs => do
      let x ← d.distance A a b
      distanceFrom A (A.add acc x) ds as bs
  | _, _, _ => .ok acc

/-- `distance`, space.py:1136-1140. -/
def distance [LinearOrder F] (A : Arith F) (dims : List (Dim F)) (a b : Point F) :
    Except PyErr F :=
  distanceFrom A (A.ofInt 0) dims a b

/-- `get_transformer`, space.py:938-940. -/
def getTransformer (dims : List (Dim F)) : List TKind := dims.map Dim.tkind

/-- `set_transformer` with a list, space.py:905-920 (`transform[j]` raises `IndexError` when the
list is too short; extra entries are ignored). -/
def setTransformers : List (Dim F) → List TKind → Except PyErr (List (Dim F))
  | [], _ => .ok []
  | _ :: _, [] => .error .indexError
  | d :: ds, t :: ts => do
      let d' ← d.setTransformer t
      let ds' ← setTransformers ds ts
      .ok (d' :: ds')

/-- `set_transformer` with a single name, space.py:905-920. -/
def setTransformer (dims : List (Dim F)) (t : TKind) : Except PyErr (List (Dim F)) :=
  mapE (fun d => Dim.setTransformer d t) dims

/-- `dimension_names`, space.py:786-799. -/
def dimensionNames (dims : List (Dim F)) : List String :=
  dims.zipIdx.map fun p => match p.1.name with
    | none => "X_" ++ toString p.2
    | some n => n

/-- A key of `Space.__getitem__`.  (space.py:1039-1089) -/
inductive Key where
  | name (s : String)
  | index (i : ℤ)
  deriving DecidableEq

/-- `_get`, space.py:1065-1075: the first dimension whose name equals the key or whose index equals
the key.  `(None, None)` is `none`. -/
def getDimFrom (k : Key) : Nat → List (Dim F) → Option (Nat × Dim F)
  | _, [] => none
  | i, d :: ds =>
    match k with
    | .name s => if d.name = some s then some (i, d) else getDimFrom k (i + 1) ds
    | .index j => if j = (i : ℤ) then some (i, d) else getDimFrom k (i + 1) ds

/-- `Space.__getitem__` with a single key, space.py:1077-1079. -/
def getDim (dims : List (Dim F)) (k : Key) : Option (Nat × Dim F) := getDimFrom k 0 dims

end Space

/-! ## Random samples -/

/-- What the scipy distribution of a dimension returns for `n_samples` draws: numbers in the
transformed space, or indices of categories.  (space.py:154-157, 691) -/
structure RawDraw (F : Type) where
  nums : List F
  idxs : List Nat

/-- `Dimension.rvs` (space.py:144-158) and `Categorical.rvs` (690-700) given the raw draws: numeric
dimensions and normalized categoricals apply `inverse_transform` to the draws, other categoricals
index into the categories.  (Space.rvs always passes an `n_samples`, so draws are arrays.) -/
def Dim.rvs [LinearOrder F] (A : Arith F) (d : Dim F) (raw : RawDraw F) :
    Except PyErr (List (Val F)) :=
  match d with
  | .cat c => match c.transform with
    | .normalize => (Dim.cat c).inverse A (raw.nums.map fun x => [.num x])
    | _ => mapE (fun i => pyGet c.cats i) raw.idxs
  | _ => d.inverse A (raw.nums.map fun x => [.num x])

/-- `Space.rvs`, space.py:894-903, with the raw draws of every dimension in order. -/
def Space.rvs [LinearOrder F] (A : Arith F) (dims : List (Dim F)) (raws : List (RawDraw F)) :
    Except PyErr (List (Point F)) := do
  let cols ← mapE (fun p => Dim.rvs A p.1 p.2) (dims.zip raws)
  transposeListArray cols

end Skopt

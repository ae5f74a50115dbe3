import Verif.Model.Halton

/-!
# Model of `skopt/sampler/lhs.py`

Random draws (`rng.rand`, `rng.permutation`) are parameters: each call of `_lhs_normalized` consumes
one `LhsDraw`.
-/

namespace Skopt

variable {F : Type}

/-- `lhs_type`, lhs.py:28-30. -/
inductive LhsType where
  | classic | centered | other
  deriving DecidableEq

/-- `criterion`, lhs.py:32-38. -/
inductive LhsCriterion where
  | none | correlation | maximin | ratio | other
  deriving DecidableEq

/-- The attributes of an `Lhs` instance, lhs.py:43-47. -/
structure Lhs where
  lhsType : LhsType := .classic
  criterion : LhsCriterion := .maximin
  iterations : Nat := 1000

/-- The random numbers consumed by one `_lhs_normalized` call: `rng.rand(n_samples, n_dim)` as rows
(lhs.py:135) and one permutation per dimension (lhs.py:18). -/
structure LhsDraw (F : Type) where
  u : List (List F)
  orders : List (List Nat)

/-- `np.linspace(0, 1, n+1)[i]` (lhs.py:134): `i * (1/n)`, and exactly 1 at the end. -/
def lhsEdge (A : Arith F) (n i : Nat) : F :=
  if i = n then A.ofInt 1 else linspaceAt A n i

/-- Entry `(i, j)` of `h` before permuting, lhs.py:137-144:
`np.diff(x) / 2.0 + x[:n]` or `u[:, j] * np.diff(x) + x[:n]`. -/
def lhsEntry (A : Arith F) (kind : LhsType) (n : Nat) (u : List (List F)) (i j : Nat) :
    Except PyErr F :=
  let d := A.sub (lhsEdge A n (i + 1)) (lhsEdge A n i)
  match kind with
  | .centered => .ok (A.add (A.div d (A.ofInt 2)) (lhsEdge A n i))
  | .classic => do
      let r ← pyGet u i
      let x ← pyGet r j
      .ok (A.add (A.mul x d) (lhsEdge A n i))
  | .other => .error .valueError

/-- `_lhs_normalized` (lhs.py:132-145) followed by `_random_permute_matrix` (lhs.py:13-20):
`h_rand_perm[:, j] = h[order_j, j]`, written row by row. -/
def lhsNormalized (A : Arith F) (kind : LhsType) (nDim n : Nat) (draw : LhsDraw F) :
    Except PyErr (List (List F)) := do
  if kind = .other then .error .valueError
  else
    let h ← mapE (fun i => mapE (fun j => lhsEntry A kind n draw.u i j) (List.range nDim))
      (List.range n)
    mapE (fun i => mapE (fun j => do
        let order ← pyGet draw.orders j
        let k ← pyGet order i
        let row ← pyGet h k
        pyGet row j) (List.range nDim)) (List.range n)

/-- `scipy.spatial.distance.pdist(h, 'euclidean')`: the distances of all pairs of rows; the
distance function is a parameter.  (skopt/sampler/lhs.py:106, 117) -/
def pdist (dist : List F → List F → F) : List (List F) → List F
  | [] => []
  | r :: rs => rs.map (dist r) ++ pdist dist rs

/-- `np.min` / `np.max` of a 1-d array, `ValueError` if empty.  (lhs.py:107-121) -/
def npMin [LinearOrder F] (xs : List F) : Except PyErr F :=
  match xs with
  | [] => .error .valueError
  | x :: xs => .ok (xs.foldl min x)

/-- See `npMin`.  (lhs.py:119-121) -/
def npMax [LinearOrder F] (xs : List F) : Except PyErr F :=
  match xs with
  | [] => .error .valueError
  | x :: xs => .ok (xs.foldl max x)

/-- External numerics used by the criteria: the Euclidean distance and `np.corrcoef(h.T)`, plus the
constant `1e-8` of lhs.py:95, 106. -/
structure LhsNum (F : Type) where
  dist : List F → List F → F
  corrcoef : List (List F) → List (List F)
  tiny : F

/-- The off-diagonal correlations that are not exactly 1, `np.abs(r[r != 1])`, lhs.py:96-97. -/
def absNotOne [LinearOrder F] (A : Arith F) (r : List (List F)) : List F :=
  (r.flatten.filter fun x => x ≠ A.ofInt 1).map fun x => absDiff A x (A.ofInt 0)

/-- `np.max(np.abs(r - np.eye(r.shape[0])))`, lhs.py:98. -/
def absMinusEye [LinearOrder F] (A : Arith F) (r : List (List F)) : List F :=
  (r.zipIdx.map fun p => p.1.zipIdx.map fun q =>
    absDiff A q.1 (A.ofInt (if p.2 = q.2 then 1 else 0))).flatten

/-- `x < c` where `none` is `np.inf`, lhs.py:97, 122. -/
def ltInf [LinearOrder F] (x : F) : Option F → Bool
  | none => true
  | some c => decide (x < c)

/-- One round of the `correlation` loop, lhs.py:92-100.  `none` is `np.inf`; the state is the current
score and the best design so far (`none`: the initial one). -/
def corrStep [LinearOrder F] (A : Arith F) (num : LhsNum F) (h : List (List F))
    (st : Option F × Option (List (List F))) :
    Except PyErr (Option F × Option (List (List F))) :=
  let r := num.corrcoef h
  match npMax (absNotOne A r) with
  | .error _ => .ok st
  | .ok m =>
    if ltInf m st.1 then do
      let m' ← npMax (absMinusEye A r)
      .ok (some m', some h)
    else .ok st

/-- One round of the `maximin` loop, lhs.py:104-110. -/
def maximinStep [LinearOrder F] (num : LhsNum F) (h : List (List F))
    (st : F × Option (List (List F))) : Except PyErr (F × Option (List (List F))) := do
  let m ← npMin (pdist num.dist h)
  if st.1 < m then .ok (m, some h) else .ok st

/-- `ratio` of lhs.py:117-121. -/
def lhsRatio [LinearOrder F] (A : Arith F) (num : LhsNum F) (h : List (List F)) :
    Except PyErr F := do
  let p := pdist num.dist h
  let lo ← npMin p
  let hi ← npMax p
  if lo = A.ofInt 0 then .ok (A.div hi num.tiny) else .ok (A.div hi lo)

/-- One round of the `ratio` loop, lhs.py:115-125. -/
def ratioStep [LinearOrder F] (A : Arith F) (num : LhsNum F) (h : List (List F))
    (st : Option F × Option (List (List F))) :
    Except PyErr (Option F × Option (List (List F))) := do
  let r ← lhsRatio A num h
  if ltInf r st.1 then .ok (some r, some h) else .ok st

/-- `for i in range(self.iterations): h = self._lhs_normalized(...); <step>`.  (lhs.py:92, 104, 115) -/
def lhsLoop {S : Type} (gen : LhsDraw F → Except PyErr (List (List F)))
    (step : List (List F) → S → Except PyErr S) : List (LhsDraw F) → S → Except PyErr S
  | [], st => .ok st
  | d :: ds, st => do
      let h ← gen d
      let st' ← step h st
      lhsLoop gen step ds st'

/-- The unit-cube design chosen by `Lhs.generate`, lhs.py:82-128: `first` is the draw of the initial
design, `draws` those of the iterations (the code draws `iterations` of them).  The code maps the
current best into the space each time it changes; only the last of these results is returned, and it
is the image of the design chosen here (the mapping raises for one design in the unit cube iff it
raises for all; see `Lhs.generate`). -/
def Lhs.choose [LinearOrder F] (A : Arith F) (num : LhsNum F) (l : Lhs) (nDim n : Nat)
    (first : LhsDraw F) (draws : List (LhsDraw F)) : Except PyErr (List (List F)) := do
  let h0 ← lhsNormalized A l.lhsType nDim n first
  if l.criterion = .none ∨ n = 1 then .ok h0
  else
    let gen := lhsNormalized A l.lhsType nDim n
    match l.criterion with
    | .correlation => do
        let st ← lhsLoop gen (corrStep A num) draws (none, none)
        .ok (st.2.getD h0)
    | .maximin => do
        let st ← lhsLoop gen (maximinStep num) draws (A.ofInt 0, none)
        .ok (st.2.getD h0)
    | .ratio => do
        let st ← lhsLoop gen (ratioStep A num) draws (none, none)
        .ok (st.2.getD h0)
    | _ => .error .valueError

/-- `Lhs.generate`, lhs.py:49-130. -/
def Lhs.generate [LinearOrder F] (A : Arith F) (num : LhsNum F) (l : Lhs) (dims : List (Dim F))
    (n : Nat) (first : LhsDraw F) (draws : List (LhsDraw F)) : GenResult F :=
  withNormalized dims fun dims' => do
    let h ← l.choose A num dims.length n first draws
    Space.inverseTransform A dims' (numRows h)

end Skopt

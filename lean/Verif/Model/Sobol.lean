import Verif.Model.Halton

/-!
# Model of `skopt/sampler/sobol.py`

The code stores integers in float arrays; all of them are below 2^53, so they are natural numbers
here.  The random shift is a parameter.
-/

namespace Skopt

variable {F : Type}

/-- The table of initial direction numbers, sobol.py:118-152: column `c` starts at row `fst`. -/
def sobolTable : List (Nat × List Nat) :=
  [(0, [1, 1, 1, 1, 1, 1, 1, 1, 1, 1, 1, 1, 1, 1, 1, 1, 1, 1, 1, 1, 1, 1, 1, 1, 1, 1, 1, 1, 1, 1, 1, 1,
    1, 1, 1, 1, 1, 1, 1, 1]),
   (2, [1, 3, 1, 3, 1, 3, 3, 1, 3, 1, 3, 1, 3, 1, 1, 3, 1, 3, 1, 3, 1, 3, 3, 1, 3, 1, 3, 1, 3, 1, 1, 3,
    1, 3, 1, 3, 1, 3]),
   (3, [7, 5, 1, 3, 3, 7, 5, 5, 7, 7, 1, 3, 3, 7, 5, 1, 1, 5, 3, 3, 1, 7, 5, 1, 3, 3, 7, 5, 1, 1, 5, 7,
    7, 5, 1, 3, 3]),
   (5, [1, 7, 9, 13, 11, 1, 3, 7, 9, 5, 13, 13, 11, 3, 15, 5, 3, 15, 7, 9, 13, 9, 1, 11, 7, 5, 15, 1,
    15, 11, 5, 3, 1, 7, 9]),
   (7, [9, 3, 27, 15, 29, 21, 23, 19, 11, 25, 7, 13, 17, 1, 25, 29, 3, 31, 11, 5, 23, 27, 19, 21, 5, 1,
    17, 13, 7, 15, 9, 31, 9]),
   (13, [37, 33, 7, 5, 11, 39, 63, 27, 17, 15, 23, 29, 3, 21, 13, 31, 25, 9, 49, 33, 19, 29, 11, 19, 27,
    15, 25]),
   (19, [13, 33, 115, 41, 79, 17, 29, 119, 75, 73, 105, 7, 59, 65, 21, 3, 113, 61, 89, 45, 107]),
   (37, [7, 23, 39])]

/-- `self.poly`, sobol.py:155-158. -/
def sobolPoly : List Nat :=
  [1, 3, 7, 11, 13, 19, 25, 37, 59, 47, 61, 55, 41, 67, 97, 91, 109, 103, 115, 131, 193, 137, 145, 143,
   241, 157, 185, 167, 229, 171, 213, 191, 253, 203, 211, 239, 247, 285, 369, 299]

/-- `self.v[r, c]` after the table has been filled in (zero where the table has no entry),
sobol.py:117-152. -/
def sobolInitial (r c : Nat) : Nat :=
  match sobolTable[c]? with
  | some (off, xs) => if off ≤ r then xs.getD (r - off) 0 else 0
  | none => 0

/-- `_bit_hi1`, sobol.py:365-379: the number of binary digits. -/
def bitHi1 (n : Nat) : Nat := (Nat.digits 2 n).length

/-- `self.maxcol = _bit_hi1(2**30 - 1)`, sobol.py:161. -/
def sobolMaxcol : Nat := 30

/-- The degree of a polynomial from its binary encoding, sobol.py:179-184. -/
def polyDegree (p : Nat) : Nat := bitHi1 (p / 2)

/-- `includ[k-1]`, sobol.py:188-193: bit `m - k` of the polynomial. -/
def polyIncludes (p m k : Nat) : Bool := p.testBit (m - k)

/-- One new direction number, sobol.py:198-205: `prev` is the row so far (columns 0 … j-2). -/
def sobolNext (p m : Nat) (prev : List Nat) : Nat :=
  let j := prev.length + 1
  (List.range m).foldl (fun newv i =>
    let k := i + 1
    if polyIncludes p m k then newv ^^^ (2 ^ k * prev.getD (j - k - 1) 0) else newv)
    (prev.getD (j - m - 1) 0)

/-- `for j in range(m + 1, maxcol + 1)`, sobol.py:197-205. -/
def sobolExtend (p m : Nat) : Nat → List Nat → List Nat
  | 0, row => row
  | fuel + 1, row => sobolExtend p m fuel (row ++ [sobolNext p m row])

/-- Row `r` (0-based) of `v` before scaling, sobol.py:164, 175-205. -/
def sobolRawRow (r : Nat) : List Nat :=
  if r = 0 then List.replicate sobolMaxcol 1
  else
    let p := sobolPoly.getD r 0
    let m := polyDegree p
    sobolExtend p m (sobolMaxcol - m) ((List.range m).map (sobolInitial r))

/-- Row `r` of `v` after scaling column `j` (1-based) by `2 ^ (maxcol - j)`, sobol.py:206-210. -/
def sobolRow (r : Nat) : List Nat :=
  (sobolRawRow r).zipIdx.map fun p => p.1 * 2 ^ (sobolMaxcol - 1 - p.2)

/-- The binary digits written by `np.binary_repr`, most significant first.  (skopt/sampler/sobol.py:374, 391) -/
def binaryRepr (n : Nat) : List Nat := if n = 0 then [0] else (Nat.digits 2 n).reverse

/-- `_bit_lo0`, sobol.py:382-395. -/
def bitLo0 (n : Nat) : Nat :=
  let rev := (binaryRepr n).reverse
  (match rev.findIdx? (· = 0) with
    | some i => i
    | none => rev.length) + 1

/-- The mutable state of a `Sobol` instance, sobol.py:99-113.  `v = none`: no valid table (before the
first `init`, or after an `init` that raised).  Attributes that are constants once set (`dim_max`,
`log_max`, `atmost`, `maxcol`, `poly`, `recipd`) are not fields. -/
structure Sobol where
  skip : Nat := 0
  randomize : Bool := true
  numGenerated : Nat := 0
  lastq : List Nat := []
  v : Option (List (List Nat)) := none
  seedSave : ℤ := -1
  dimNumSave : ℤ := -1

/-- `Sobol.__init__`, sobol.py:90-113: the skip must be a power of two or zero. -/
def Sobol.new (skip : Nat) (randomize : Bool) : Except PyErr Sobol :=
  if skip &&& (skip - 1) = 0 then .ok { skip := skip, randomize := randomize }
  else .error .valueError

/-- `Sobol.init`, sobol.py:115-214.  The saved dimension is updated before the range check. -/
def Sobol.init (s : Sobol) (dim : Nat) : Sobol × Except PyErr Unit :=
  if dim < 1 ∨ 40 < dim then
    ({ s with dimNumSave := dim, v := none }, .error .valueError)
  else
    ({ s with dimNumSave := dim, v := some ((List.range dim).map sobolRow),
              lastq := List.replicate dim 0 }, .ok ())

/-- `lastq[i] = bitwise_xor(lastq[i], v[i, pos - 1])` for all `i`, sobol.py:327-330, 338-341,
356-357. -/
def xorColumn (v : List (List Nat)) (lastq : List Nat) (pos : Nat) : Except PyErr (List Nat) :=
  mapE (fun p => do let x ← pyGet p.1 (pos - 1); .ok (p.2 ^^^ x)) (v.zip lastq)

/-- `for seed_temp in range(lo, lo + len)`: the catch-up loops, sobol.py:325-330 and 336-341. -/
def catchUp (v : List (List Nat)) : Nat → Nat → List Nat → Except PyErr (List Nat)
  | _, 0, lastq => .ok lastq
  | lo, len + 1, lastq => do
      let q ← xorColumn v lastq (bitLo0 lo)
      catchUp v (lo + 1) len q

/-- The state changes of `_sobol` before the new point is computed, sobol.py:303-343: the new
`lastq`, the new `seed_save` and `pos_lo0`. -/
def Sobol.locate (s : Sobol) (v : List (List Nat)) (dim seed : Nat) :
    Except PyErr (List Nat × ℤ × Nat) :=
  if seed = 0 then .ok (List.replicate dim 0, s.seedSave, 1)
  else if (seed : ℤ) = s.seedSave + 1 then .ok (s.lastq, s.seedSave, bitLo0 seed)
  else if (seed : ℤ) ≤ s.seedSave then do
    let q ← catchUp v 0 seed (List.replicate dim 0)
    .ok (q, 0, bitLo0 seed)
  else do
    let q ← catchUp v (s.seedSave + 1).toNat (seed - (s.seedSave + 1).toNat) s.lastq
    .ok (q, s.seedSave, bitLo0 seed)

/-- `_sobol`, sobol.py:278-362: the new state and the vector with the next seed.  A negative seed is
treated as 0 (line 305); seeds are natural numbers here.  (When a catch-up loop raises, its partial
update of `lastq` is not recorded.) -/
def Sobol.next (A : Arith F) (s : Sobol) (dim seed : Nat) :
    Sobol × Except PyErr (List F × Nat) :=
  let (s, r) := if (dim : ℤ) ≠ s.dimNumSave then s.init dim else (s, .ok ())
  match r with
  | .error e => (s, .error e)
  | .ok () =>
    match s.v with
    | none => (s, .error .unmodelled)
    | some v =>
      match s.locate v dim seed with
      | .error e => (s, .error e)
      | .ok (q, save, pos) =>
        if sobolMaxcol < pos then ({ s with lastq := q, seedSave := save }, .error .valueError)
        else match xorColumn v q pos with
          | .error e => (s, .error e)
          | .ok q' =>
            ({ s with lastq := q', seedSave := seed },
              .ok (q.map fun x : Nat => A.mul (A.ofInt (x : ℤ)) (A.div (A.ofInt 1) (A.ofInt (2 ^ 30))),
                seed + 1))

/-- `for j in range(n_samples): r[j], seed = self._sobol(n_dim, seed)`, sobol.py:264-266. -/
def Sobol.rows (A : Arith F) (dim : Nat) : Nat → Sobol → Nat → Sobol × Except PyErr (List (List F))
  | 0, s, _ => (s, .ok [])
  | n + 1, s, seed =>
    match s.next A dim seed with
    | (s', .error e) => (s', .error e)
    | (s', .ok (row, seed')) =>
      match Sobol.rows A dim n s' seed' with
      | (s'', .error e) => (s'', .error e)
      | (s'', .ok rest) => (s'', .ok (row :: rest))

/-- `_random_shift`, sobol.py:398-428: the same shift for every row, `(dm + shift) % 1`.  `mod1` is
`% 1`. -/
def randomShift (A : Arith F) (mod1 : F → F) (shift : List F) (M : List (List F)) :
    List (List F) :=
  M.map fun r => List.zipWith (fun x s => mod1 (A.add x s)) r shift

/-- Whether `Sobol.generate` warns about the balance of the points, sobol.py:244-250. -/
def Sobol.warns (s : Sobol) (n : Nat) : Bool :=
  let total := s.numGenerated + n
  !decide (total &&& (total - 1) = 0)

/-- `Sobol.generate`, sobol.py:216-276: new state of the instance, dimensions after the call and
outcome (for the warning see `Sobol.warns`). -/
def Sobol.generate [LinearOrder F] (A : Arith F) (mod1 : F → F) (s : Sobol) (dims : List (Dim F))
    (n : Nat) (shift : List F) : Sobol × GenResult F :=
  if s.skip ≠ 0 ∧ s.numGenerated + n > s.skip then (s, (dims, .error .valueError))
  else
    let (s', r) := s.rows A dims.length n s.skip
    let res := withNormalized dims fun dims' => do
      let M ← r
      Space.inverseTransform A dims' (numRows
        (if s.randomize then randomShift A mod1 shift M else M))
    match res.2 with
    | .error _ => (s', res)
    | .ok _ => ({ s' with numGenerated := s'.numGenerated + n }, res)

end Skopt

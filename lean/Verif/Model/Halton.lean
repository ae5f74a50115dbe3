import Verif.Model.Space
import Mathlib.Data.Nat.Digits.Defs

/-!
# Model of `skopt/sampler/halton.py` and `skopt/sampler/hammersly.py`

Random draws are parameters.  Unit-cube matrices are lists of rows.
-/

namespace Skopt

variable {F : Type}

/-- What a generator run leaves behind: the (shared) dimension objects after the call and the
outcome of the call.  (skopt/sampler/halton.py:70-104) -/
abbrev GenResult (F : Type) := List (Dim F) × Except PyErr (List (Point F))

/-- The frame shared by all generators: `transformer = space.get_transformer();
space.set_transformer("normalize"); …; space.set_transformer(transformer); return out`
(halton.py:77-78,103-104, hammersly.py:78-79,91-92, lhs.py:79-81,87-88,129-130, grid.py:114-115,
168-170, sobol.py:260-261,271-276).  `body` is what happens in between; when it raises, the
transforms are not restored.  (`Space(dimensions)` keeps the caller's Dimension objects.) -/
def withNormalized (dims : List (Dim F))
    (body : List (Dim F) → Except PyErr (List (Point F))) : GenResult F :=
  let old := Space.getTransformer dims
  match Space.setTransformer dims .normalize with
  | .error e => (dims, .error e)
  | .ok dims' =>
    match body dims' with
    | .error e => (dims', .error e)
    | .ok pts =>
      match Space.setTransformers dims' old with
      | .error e => (dims', .error e)
      | .ok dims'' => (dims'', .ok pts)

/-- A matrix of floats handed to `Space.inverse_transform`.  (halton.py:102, hammersly.py:90) -/
def numRows (M : List (List F)) : List (List (Val F)) := M.map fun r => r.map Val.num

/-! ## `_create_primes`, halton.py:148-182 -/

/-- The inner loop `while idy < half: numbers[idy] = 0; idy += counter`, halton.py:175-179, with
`counter = 2*idx+3`. -/
def crossOut (half idx : Nat) (numbers : List Nat) (idy : Nat) : List Nat :=
  if idy < half then crossOut half idx (numbers.set idy 0) (idy + (2 * idx + 3)) else numbers
termination_by half - idy

/-- The outer loop, halton.py:171-181.  `counter <= threshold ** 0.5` is written
`counter * counter ≤ threshold` (the same for integers the double format represents).
`int((counter*counter-3)/2)` is exact because the counter is odd. -/
def sieveLoop (t half : Nat) (numbers : List Nat) (idx : Nat) : Except PyErr (List Nat) :=
  if (2 * idx + 3) * (2 * idx + 3) ≤ t then do
    let x ← pyGet numbers idx
    if x ≠ 0 then
      let idy := ((2 * idx + 3) * (2 * idx + 3) - 3) / 2
      if idy < numbers.length then
        sieveLoop t half (crossOut half idx (numbers.set idy 0) idy) (idx + 1)
      else .error .indexError
    else sieveLoop t half numbers (idx + 1)
  else .ok numbers
termination_by t - idx
decreasing_by
  all_goals
    have : idx < (2 * idx + 3) * (2 * idx + 3) := by nlinarith
    omega

/-- `_create_primes(threshold)`, halton.py:148-182.  `numbers = list(range(3, threshold+1, 2))`,
`half = int((threshold+1)/2-1)`. -/
def createPrimes (t : Nat) : Except PyErr (List Nat) :=
  if t = 2 then .ok [2]
  else if t < 2 then .ok []
  else do
    let numbers := (List.range ((t - 1) / 2)).map fun i => 2 * i + 3
    let out ← sieveLoop t ((t - 1) / 2) numbers 0
    .ok (2 :: out.filter (· ≠ 0))

/-! ## `_van_der_corput_samples`, halton.py:107-145 -/

/-- The loop of halton.py:139-144 for one entry.  The code runs all entries in lockstep with a mask
of active entries; entries do not interact, and an entry is updated until its index is no longer
positive, so the loop is written per entry here. -/
def vdcLoop (A : Arith F) (b : Nat) (idx : ℤ) (base out : F) : F :=
  let out' := A.add out (A.div (A.ofInt (idx % (b : ℤ))) base)
  if _h : 1 < b ∧ 0 < idx / (b : ℤ) then
    vdcLoop A b (idx / (b : ℤ)) (A.mul base (A.ofInt b)) out'
  else out'
termination_by idx.toNat
decreasing_by
  have _hb : (1 : ℤ) < b := by exact_mod_cast _h.1
  have h0 : 0 < idx := by
    have := Int.mul_ediv_self_le (x := idx) (k := (b : ℤ)) (by omega)
    nlinarith [_h.2]
  have := Int.ediv_lt_self_of_pos_of_ne_one h0 (by omega : (b : ℤ) ≠ 1)
  omega

/-- One entry of `_van_der_corput_samples`, halton.py:133-145: `assert number_base > 1`,
`base = float(number_base)`. -/
def vanDerCorput (A : Arith F) (b : Nat) (idx : ℤ) : Except PyErr F :=
  if 1 < b then .ok (vdcLoop A b idx (A.ofInt b) (A.ofInt 0)) else .error .assertionError

/-! ## `Halton.generate`, halton.py:42-104 -/

/-- The attributes of a `Halton` (and `Hammersly`) instance, halton.py:37-40. -/
structure Halton where
  minSkip : ℤ := 0
  maxSkip : ℤ := 0
  primes : Option (List Nat) := none

/-- `while len(primes) < n_dim: primes = _create_primes(prime_order); prime_order *= 2`,
halton.py:81-83.  `fuel` bounds the number of iterations (C21 proves that it is never exhausted). -/
def growPrimes : Nat → Nat → Nat → List Nat → Except PyErr (List Nat)
  | 0, _, _, _ => .error .unmodelled
  | fuel + 1, n, order, primes =>
    if primes.length < n then do
      let ps ← createPrimes order
      growPrimes fuel n (order * 2) ps
    else .ok primes

/-- The bases, halton.py:71-86.  Too few user bases are discarded altogether. -/
def Halton.bases (h : Halton) (n : Nat) : Except PyErr (List Nat) := do
  let ps := h.primes.getD []
  let qs ← if ps.length < n then do
      let r ← growPrimes (n + 2) n (10 * n) ps
      .ok (r.take n)
    else .ok ps
  if qs.length = n then .ok qs else .error .assertionError

/-- `np.max(a, axis)` of a 0-d array: numpy accepts the axes 0 and -1, otherwise `AxisError` (a
`ValueError`).  (halton.py:93) -/
def npMaxAxis (a axis : ℤ) : Except PyErr ℤ :=
  if axis = 0 ∨ axis = -1 then .ok a else .error .valueError

/-- The skipped index, halton.py:88-95; `draw` is the value of `rng.randint(min_skip, max_skip)`,
which raises `ValueError` when the range is empty. -/
def Halton.skip (h : Halton) (bases : List Nat) (draw : ℤ) : Except PyErr ℤ :=
  if h.minSkip = h.maxSkip then .ok h.minSkip
  else if h.minSkip < 0 ∧ h.maxSkip < 0 then
    match bases.max? with
    | some m => .ok m
    | none => .error .valueError
  else if h.minSkip < 0 ∨ h.maxSkip < 0 then npMaxAxis h.minSkip h.maxSkip
  else if h.maxSkip ≤ h.minSkip then .error .valueError
  else .ok draw

/-- The transposed unit-cube matrix, halton.py:97-101: row `i` has one entry per base. -/
def haltonRows (A : Arith F) (bases : List Nat) (skip : ℤ) (n : Nat) :
    Except PyErr (List (List F)) :=
  mapE (fun i : Nat => mapE (fun b => vanDerCorput A b ((i : ℤ) + skip)) bases) (List.range n)

/-- Everything before the mapping into the space, halton.py:70-101. -/
def Halton.unit (A : Arith F) (h : Halton) (nDim n : Nat) (draw : ℤ) :
    Except PyErr (List (List F)) := do
  let bases ← h.bases nDim
  let s ← h.skip bases draw
  haltonRows A bases s n

/-- `Halton.generate`, halton.py:42-104. -/
def Halton.generate [LinearOrder F] (A : Arith F) (h : Halton) (dims : List (Dim F)) (n : Nat)
    (draw : ℤ) : GenResult F :=
  withNormalized dims fun dims' => do
    let M ← h.unit A dims.length n draw
    Space.inverseTransform A dims' (numRows M)

/-! ## `Hammersly.generate`, hammersly.py:44-92 -/

/-- `Real(0., 1.)`, what `Space` makes of the tuple `(0., 1.)` (hammersly.py:86, space.py:43-136). -/
def unitReal (A : Arith F) : Dim F :=
  .real ⟨A.ofInt 0, A.ofInt 1, .uniform, A.ofInt 10, .identity, none, id⟩

/-- `np.linspace(0, 1, n+1)[:-1]` entry `i`: numpy computes `i * (1/n)`, hammersly.py:89. -/
def linspaceAt (A : Arith F) (n i : Nat) : F :=
  A.mul (A.ofInt i) (A.div (A.ofInt 1) (A.ofInt n))

/-- The matrix for at least two dimensions, hammersly.py:84-90: Halton points of the unit cube of
one dimension less, mapped through a space of `Real(0., 1.)`, plus the regular grid. -/
def Hammersly.unit [LinearOrder F] (A : Arith F) (h : Halton) (nDim n : Nat) (draw : ℤ) :
    Except PyErr (List (List F)) := do
  let pts ← (h.generate A (List.replicate (nDim - 1) (unitReal A)) n draw).2
  let rows ← mapE (fun p => mapE Val.toNum p) pts
  .ok (List.zipWith (fun (r : List F) i => r ++ [linspaceAt A n i]) rows (List.range n))

/-- `Hammersly.generate`, hammersly.py:44-92.  In one dimension it delegates to `Halton.generate`
on the same dimension objects (already set to `normalize`). -/
def Hammersly.generate [LinearOrder F] (A : Arith F) (h : Halton) (dims : List (Dim F)) (n : Nat)
    (draw : ℤ) : GenResult F :=
  withNormalized dims fun dims' =>
    if dims.length = 1 then (h.generate A dims' n draw).2
    else do
      let M ← Hammersly.unit A h dims.length n draw
      Space.inverseTransform A dims' (numRows M)

end Skopt

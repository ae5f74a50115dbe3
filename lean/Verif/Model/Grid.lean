import Verif.Model.Halton
import Mathlib.Data.Nat.Sqrt

/-!
# Model of `skopt/sampler/grid.py`
-/

namespace Skopt

variable {F : Type}

/-- One round of the loop of `_quadrature_combine`, grid.py:20-24:
`np.tile(out, len(arg)).reshape(-1, out.shape[1])` repeats every row `len(arg)` times in a row,
`np.tile(arg.T, len(out)).reshape(1, -1).T` repeats the whole column `len(out)` times, `hstack` glues
them. -/
def combineStep (out : List (List F)) (arg : List F) : List (List F) :=
  let left := out.flatMap fun r => List.replicate arg.length r
  let right := (List.replicate out.length (arg.map fun x => [x])).flatten
  List.zipWith (· ++ ·) left right

/-- `_quadrature_combine`, grid.py:11-25, for 1-d arguments: `size` is the product of the lengths
times the number of arguments. -/
def quadratureCombine (args : List (List F)) : Except PyErr (List (List F)) :=
  if (args.map List.length).prod * args.length > 10 ^ 9 then .error .memoryError
  else match args with
    | [] => .error .indexError
    | a :: as => .ok (as.foldl combineStep (a.map fun x => [x]))

/-- `np.arange(1, order + 1) / (order + 1.)`, grid.py:31. -/
def lineExclude (A : Arith F) (order : Nat) : List F :=
  (List.range order).map fun i : Nat => A.div (A.ofInt ((i : ℤ) + 1)) (A.ofInt ((order : ℤ) + 1))

/-- `np.arange(0, order) / (order - 1.)`, grid.py:39, 48. -/
def lineInclude (A : Arith F) (order : Nat) : List F :=
  (List.range order).map fun i : Nat => A.div (A.ofInt (i : ℤ)) (A.ofInt ((order : ℤ) - 1))

/-- `_create_uniform_grid_exclude_border`, grid.py:28-33. -/
def gridExclude (A : Arith F) (nDim order : Nat) : Except PyErr (List (List F)) :=
  if order = 0 ∨ nDim = 0 then .error .assertionError
  else quadratureCombine (List.replicate nDim (lineExclude A order))

/-- `_create_uniform_grid_include_border`, grid.py:36-41. -/
def gridInclude (A : Arith F) (nDim order : Nat) : Except PyErr (List (List F)) :=
  if order ≤ 1 ∨ nDim = 0 then .error .assertionError
  else quadratureCombine (List.replicate nDim (lineInclude A order))

/-- `_create_uniform_grid_only_border`, grid.py:44-50. -/
def gridOnly (A : Arith F) (nDim order : Nat) : Except PyErr (List (List F)) :=
  if nDim = 0 ∨ order ≤ 1 then .error .assertionError
  else quadratureCombine
    (List.replicate (nDim - 1) [A.ofInt 0, A.ofInt 1] ++ [lineInclude A order])

/-- `border` / `append_border`, grid.py:58-74. -/
inductive Border where
  | include_ | exclude | only | other
  deriving DecidableEq

/-- The attributes of a `Grid` instance, grid.py:77-81. -/
structure Grid where
  border : Border := .exclude
  useFullLayout : Bool := true
  appendBorder : Border := .only

/-- `np.ceil(np.sqrt(n))` (the float square root is exact enough for every `n` below 2^52). -/
def ceilSqrt (n : Nat) : Nat := if Nat.sqrt n * Nat.sqrt n = n then Nat.sqrt n else Nat.sqrt n + 1

/-- The first layout, grid.py:117-142.  Line 140 creates the *exclude* layout for `border="only"`. -/
def Grid.layout (A : Arith F) (g : Grid) (nDim n : Nat) : Except PyErr (List (List F)) :=
  match g.border with
  | .include_ => gridInclude A nDim (max 2 (if g.useFullLayout then Nat.sqrt n else ceilSqrt n))
  | .exclude => gridExclude A nDim (max 1 (if g.useFullLayout then Nat.sqrt n else ceilSqrt n))
  | .only => gridExclude A nDim (max 2 (if g.useFullLayout then n / 2 else (n + 1) / 2))
  | .other => .error .valueError

/-- The points appended when `m` points are missing, grid.py:147-163. -/
def Grid.extra (A : Arith F) (g : Grid) (nDim m : Nat) : Except PyErr (List (List F)) :=
  match g.appendBorder with
  | .only => gridOnly A nDim (max 2 ((m + 1) / 2))
  | .include_ => gridInclude A nDim (max 2 (ceilSqrt m))
  | .exclude => gridExclude A nDim (max 1 (ceilSqrt m))
  | .other => .error .valueError

/-- `rng.shuffle(h)`: rows are rearranged according to the permutation drawn.  (skopt/sampler/grid.py:144, 165-167) -/
def shuffleRows {α : Type} (perm : List Nat) (h : List α) : Except PyErr (List α) :=
  mapE (fun i => pyGet h i) perm

/-- The unit-cube design, grid.py:117-167.  `perm k` is the permutation drawn by `rng.shuffle` for a
list of length `k`. -/
def Grid.unit (A : Arith F) (g : Grid) (nDim n : Nat) (perm : Nat → List Nat) :
    Except PyErr (List (List F)) := do
  let h ← g.layout A nDim n
  if h.length > n then do
    let h ← shuffleRows (perm h.length) h
    .ok (h.take n)
  else if h.length < n then do
    let h2 ← g.extra A nDim (n - h.length)
    let h := h ++ h2.take (n - h.length)
    shuffleRows (perm h.length) h
  else shuffleRows (perm h.length) h

/-- `Grid.generate`, grid.py:83-170. -/
def Grid.generate [LinearOrder F] (A : Arith F) (g : Grid) (dims : List (Dim F)) (n : Nat)
    (perm : Nat → List Nat) : GenResult F :=
  withNormalized dims fun dims' => do
    let h ← g.unit A dims.length n perm
    Space.inverseTransform A dims' (numRows h)

end Skopt

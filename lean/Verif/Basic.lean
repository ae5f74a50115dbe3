import Mathlib.Order.Lattice
import Mathlib.Order.Defs.LinearOrder
import Mathlib.Data.String.Basic

/-!
# Shared vocabulary of the model

* `PyErr`   – Python exceptions as values.
* `Arith F` – the floating point primitives used by skopt, as a parameter.
* `Val F`   – the Python values that occur inside points and category lists.
* numpy-like helpers on lists.

Nothing in this file is specific to one skopt function; the numpy functions are the documented
ones (numpy is not part of `/repo`, see DESIGN.md, trusted base).
-/

namespace Skopt

/-- Python exceptions raised by the modelled code.  `external` stands for any exception raised
inside a third-party call that is a parameter of the model (e.g. `est.fit`); `unmodelled` marks
inputs whose behaviour we do not describe (no theorem concludes anything about it).
(the raise statements of skopt, e.g. skopt/space/space.py:255, 388 and skopt/utils.py:188) -/
inductive PyErr where
  | valueError | typeError | keyError | indexError | runtimeError | assertionError
  | unboundLocalError | attributeError | zeroDivisionError | memoryError
  | stopIteration | external (code : Nat) | unmodelled
  deriving DecidableEq, Repr

/-- The floating point primitives used by `skopt/space`: `+ - * /`, `base ** x`, `np.log10`,
`np.round` (given as the integer it produces), int → float conversion, the literals `1e-8`
(skopt/space/transformers.py:241) and `0.5`, and the conversion of a number to `str`.
The carrier is any linear order (so NaN is excluded), the operations are arbitrary: a theorem
proved for every `Arith` holds for IEEE arithmetic whatever the rounding. -/
structure Arith (F : Type) where
  add : F → F → F
  sub : F → F → F
  mul : F → F → F
  div : F → F → F
  pow : F → F → F
  log10 : F → F
  round : F → ℤ
  ofInt : ℤ → F
  eps : F
  half : F
  str : F → String

/-- A Python value inside a point: a number (bool / int / float, identified as Python's `==`
identifies them), a string, any other hashable object (`None`, a function, an estimator, …), or a
list/tuple.  (skopt/space/space.py:942-1037) -/
inductive Val (F : Type) where
  | num (x : F)
  | str (s : String)
  | obj (id : Nat)
  | seq (xs : List (Val F))

namespace Val

variable {F : Type}

/-- Structural equality of values, the model of Python's `==` on them.  (skopt/space/space.py:719-720) -/
def eqb [DecidableEq F] : Val F → Val F → Bool
  | .num x, .num y => decide (x = y)
  | .str x, .str y => decide (x = y)
  | .obj x, .obj y => decide (x = y)
  | .seq xs, .seq ys => eqbList xs ys
  | _, _ => false
where
  eqbList : List (Val F) → List (Val F) → Bool
    | [], [] => true
    | x :: xs, y :: ys => eqb x y && eqbList xs ys
    | _, _ => false

mutual
theorem eqb_iff [DecidableEq F] : ∀ a b : Val F, eqb a b = true ↔ a = b
  | .num x, b => by cases b <;> simp [eqb]
  | .str x, b => by cases b <;> simp [eqb]
  | .obj x, b => by cases b <;> simp [eqb]
  | .seq xs, b => by
      cases b with
      | seq ys => simp only [eqb, Val.seq.injEq]; exact eqbList_iff xs ys
      | _ => simp [eqb]
theorem eqbList_iff [DecidableEq F] : ∀ xs ys : List (Val F), eqb.eqbList xs ys = true ↔ xs = ys
  | [], ys => by cases ys <;> simp [eqb.eqbList]
  | x :: xs, ys => by
      cases ys with
      | nil => simp [eqb.eqbList]
      | cons y ys => simp [eqb.eqbList, eqb_iff x y, eqbList_iff xs ys]
end

instance [DecidableEq F] : DecidableEq (Val F) := fun a b =>
  decidable_of_iff (eqb a b = true) (eqb_iff a b)

/-- `isinstance(v, (list, tuple))`, skopt/utils.py:177-178 (`is_listlike`). -/
def isSeq : Val F → Bool
  | .seq _ => true
  | _ => false

/-- The value is a number.  (skopt/space/transformers.py:169-175) -/
def isNum : Val F → Bool
  | .num _ => true
  | _ => false

/-- The value is a string.  (skopt/space/transformers.py:169-175) -/
def isStr : Val F → Bool
  | .str _ => true
  | _ => false

/-- The value is some other object (forces numpy's `object` dtype).  (skopt/space/transformers.py:170) -/
def isObj : Val F → Bool
  | .obj _ => true
  | _ => false

/-- Read a number; anything else makes the numeric numpy ufuncs raise `TypeError`.
(skopt/space/space.py:345, 361-364, transformers.py:92) -/
def toNum : Val F → Except PyErr F
  | .num x => .ok x
  | _ => .error .typeError

end Val

/-- A point of a search space: one value per dimension.  (skopt/space/space.py:942-1007) -/
abbrev Point (F : Type) := List (Val F)

section Numpy

variable {F : Type}

/-- numpy's promotion of one element `v` of an array whose elements are `ctx`
(`np.asarray` / `np.hstack` of Python values): with an `object` anywhere nothing is converted;
otherwise with a string anywhere every number is converted to a string.
(skopt/space/space.py:972, transformers.py:169) -/
def promote (A : Arith F) (ctx : List (Val F)) (v : Val F) : Val F :=
  if ctx.any Val.isObj then v
  else if ctx.any Val.isStr then
    match v with
    | .num x => .str (A.str x)
    | w => w
  else v

/-- `np.asarray(xs)` for a flat list of values.  Nested sequences would give a 2-d array; that case
is not modelled.  (skopt/space/transformers.py:169, 195, space.py:687) -/
def npArray (A : Arith F) (xs : List (Val F)) : Except PyErr (List (Val F)) :=
  if xs.any Val.isSeq then .error .unmodelled else .ok (xs.map (promote A xs))

/-- numpy gives the `object` dtype to a list of values containing a non-number, non-string.
(skopt/space/transformers.py:170) -/
def isObjectDtype (xs : List (Val F)) : Bool := xs.any Val.isObj

/-- `np.clip(x, lo, hi)` = `minimum(maximum(x, lo), hi)`.  (skopt/space/space.py:345, 531) -/
def npClip [LinearOrder F] (lo hi x : F) : F := min (max x lo) hi

/-- `np.argmin`/`np.argmax` on a list without NaN: position of the first element that no later
element beats.  `better a b` means `a` is strictly better than `b`.  (skopt/optimizer/optimizer.py:564, 586, 601) -/
def argBest (better : F → F → Bool) : List F → Option Nat
  | [] => none
  | x :: xs => some (go x 0 1 xs)
where
  /-- scan with the current best value `b` found at `i`, the next position being `k` -/
  go (b : F) (i k : Nat) : List F → Nat
    | [] => i
    | y :: ys => if better y b then go y k (k + 1) ys else go b i (k + 1) ys

/-- `np.argmin` (first minimum); `ValueError` on an empty list.  (skopt/utils.py:63, optimizer.py:564, 586) -/
def npArgmin [LinearOrder F] (xs : List F) : Except PyErr Nat :=
  match argBest (fun a b => decide (a < b)) xs with
  | some i => .ok i
  | none => .error .valueError

/-- `np.argmax` (first maximum); `ValueError` on an empty list.  (skopt/optimizer/optimizer.py:601) -/
def npArgmax [LinearOrder F] (xs : List F) : Except PyErr Nat :=
  match argBest (fun a b => decide (b < a)) xs with
  | some i => .ok i
  | none => .error .valueError

end Numpy

section Py

/-- Python dict as an association list in insertion order; `d[k] = v` overwrites in place.
(skopt/space/transformers.py:171-178) -/
def dictSet {K V : Type} [DecidableEq K] (d : List (K × V)) (k : K) (v : V) : List (K × V) :=
  if d.any (fun p => decide (p.1 = k)) then d.map (fun p => if p.1 = k then (k, v) else p)
  else d ++ [(k, v)]

/-- Build a dict from a sequence of key/value pairs (dict comprehension).  (skopt/space/transformers.py:171-178) -/
def dictOf {K V : Type} [DecidableEq K] (kvs : List (K × V)) : List (K × V) :=
  kvs.foldl (fun d p => dictSet d p.1 p.2) []

/-- `d[k]`, raising `KeyError`.  (skopt/space/transformers.py:196, 218) -/
def dictGet {K V : Type} [DecidableEq K] (d : List (K × V)) (k : K) : Except PyErr V :=
  match d.find? (fun p => decide (p.1 = k)) with
  | some p => .ok p.2
  | none => .error .keyError

/-- `xs[i]` for a non-negative index, raising `IndexError`.  (e.g. skopt/space/space.py:27-40, 964) -/
def pyGet {α : Type} (xs : List α) (i : Nat) : Except PyErr α :=
  match xs[i]? with
  | some a => .ok a
  | none => .error .indexError

/-- `xs[i]` for an arbitrary Python index (negative indices count from the end).
(e.g. skopt/callbacks.py:191-192, 212, 238, optimizer.py:436-439) -/
def pyGetI {α : Type} (xs : List α) (i : ℤ) : Except PyErr α :=
  if 0 ≤ i then pyGet xs i.toNat
  else if -(xs.length : ℤ) ≤ i then pyGet xs (xs.length + i).toNat
  else .error .indexError

/-- `[f(x) for x in xs]` with the first exception propagating.  (e.g. skopt/space/transformers.py:196) -/
def mapE {α β : Type} (f : α → Except PyErr β) : List α → Except PyErr (List β)
  | [] => .ok []
  | x :: xs => match f x with
    | .error e => .error e
    | .ok y => match mapE f xs with
      | .error e => .error e
      | .ok ys => .ok (y :: ys)

end Py

end Skopt

import Verif.Basic

/-!
# Storing results: `dump` and `load` (`/repo/skopt/utils.py:105-174`)

Objects live in a heap, a list of cells addressed by their position; so sharing and cycles are possible and changing an
object is visible through every reference.  `copy.deepcopy`, `joblib.dump` and `joblib.load` are third-party: each of
them makes an isomorphic copy of the object graph (of the whole heap here; what is not reachable from the copied object
cannot be observed).  File names, compression and the keyword arguments of joblib are left out.
-/

namespace Skopt

/-- An object.  (skopt/utils.py:105-174)
Plain data and importable functions can be copied and pickled; a lambda or a nested function is copied by reference but
cannot be pickled; a lock, an open file or a generator can be neither copied nor pickled. -/
inductive Cell where
  | dict (entries : List (String × Nat))
  | list (items : List Nat)
  | data (n : ℕ)
  | none
  | lambda (n : ℕ)
  | handle (n : ℕ)
  deriving DecidableEq, Repr

/-- The heap, see above.  (skopt/utils.py:105-174) -/
abbrev Heap := List Cell

/-- One step from an object to another one: `d[key]`, `l[i]`.  (skopt/utils.py:135, 141, 143) -/
inductive Step where
  | key (k : String)
  | idx (i : Nat)

/-- The object found by one step.  (skopt/utils.py:135, 141, 143) -/
def Cell.child : Cell → Step → Option Nat
  | .dict es, .key k => (dictGet es k).toOption
  | .list is, .idx i => is[i]?
  | _, _ => Option.none

/-- The object found by following a path.  (skopt/utils.py:135, 141, 143) -/
def Heap.follow (h : Heap) : Nat → List Step → Option Nat
  | a, [] => some a
  | a, s :: p => match (h[a]?).bind (·.child s) with
    | some b => Heap.follow h b p
    | Option.none => Option.none

/-- Whether `copy.deepcopy` knows what to do with an object.  (skopt/utils.py:141) -/
def Cell.copyable : Cell → Bool
  | .handle _ => false
  | _ => true

/-- Whether pickle knows what to do with an object.  (skopt/utils.py:135, 143, 148) -/
def Cell.picklable : Cell → Bool
  | .handle _ | .lambda _ => false
  | _ => true

/-- The object with all references moved by `k`.  (skopt/utils.py:141, 174) -/
def Cell.shift (k : Nat) : Cell → Cell
  | .dict es => .dict (es.map fun e => (e.1, e.2 + k))
  | .list is => .list (is.map (· + k))
  | c => c

/-- All objects reachable from `a` are of the given sort.  (skopt/utils.py:135, 141, 143) -/
def Heap.AllReach (h : Heap) (q : Cell → Bool) (a : Nat) : Prop :=
  ∀ (p : List Step) (b : Nat) (c : Cell), h.follow a p = some b → h[b]? = some c → q c = true

open Classical in
/-- `copy.deepcopy(obj)`: an isomorphic copy; `TypeError` if something cannot be copied.  (skopt/utils.py:141) -/
noncomputable def deepcopy (h : Heap) (a : Nat) : Except PyErr (Heap × Nat) :=
  if h.AllReach Cell.copyable a then .ok (h ++ h.map (Cell.shift h.length), a + h.length)
  else .error .typeError

/-- The content of a file: the object graph at the time of writing.  (skopt/utils.py:135, 143, 148) -/
abbrev Stored := Heap × Nat

open Classical in
/-- `joblib.dump(obj, filename)`; raises if something cannot be pickled.  (skopt/utils.py:135, 143, 148) -/
noncomputable def joblibDump (h : Heap) (a : Nat) : Except PyErr Stored :=
  if h.AllReach Cell.picklable a then .ok (h, a) else .error .typeError

/-- `joblib.load(filename)`: an isomorphic copy of the stored graph.  (skopt/utils.py:174) -/
def joblibLoad (h : Heap) (f : Stored) : Heap × Nat := (h ++ f.1.map (Cell.shift h.length), f.2 + h.length)

/-- `d[key]`, `KeyError` if there is no such entry; only dictionaries have entries.  (skopt/utils.py:137, 142) -/
def Heap.item (h : Heap) (a : Nat) (key : String) : Except PyErr Nat :=
  match h[a]? with
  | some (.dict es) => dictGet es key
  | _ => .error .typeError

/-- `res.attr` of an `OptimizeResult`, a dictionary whose entries are its attributes.  (skopt/utils.py:137) -/
def Heap.attr (h : Heap) (a : Nat) (key : String) : Except PyErr Nat :=
  match h[a]? with
  | some (.dict es) => match dictGet es key with
    | .ok b => .ok b
    | .error _ => .error .attributeError
  | _ => .error .attributeError

/-- `key in d`.  (skopt/utils.py:137) -/
def Heap.hasItem (h : Heap) (a : Nat) (key : String) : Except PyErr Bool :=
  match h[a]? with
  | some (.dict es) => .ok (es.any fun e => decide (e.1 = key))
  | _ => .error .typeError

/-- `del d[key]`.  (skopt/utils.py:142) -/
def Heap.delItem (h : Heap) (a : Nat) (key : String) : Except PyErr Heap :=
  match h[a]? with
  | some (.dict es) =>
    if es.any fun e => decide (e.1 = key) then .ok (h.set a (.dict (es.filter fun e => decide (e.1 ≠ key))))
    else .error .keyError
  | _ => .error .typeError

/-- `skopt.dump(res, filename, store_objective)`, utils.py:134-148: the heap afterwards and the file (not written if it
raises). -/
noncomputable def skoptDump (h : Heap) (res : Nat) (storeObjective : Bool) : Heap × Except PyErr Stored :=
  if storeObjective then (h, joblibDump h res)
  else
    match (do let specs ← h.attr res "specs"; let args ← h.item specs "args"; h.hasItem args "func") with
    | .error e => (h, .error e)
    | .ok false => (h, joblibDump h res)
    | .ok true =>
      match deepcopy h res with
      | .error e => (h, .error e)
      | .ok (h', res') =>
        match (do let specs ← h'.attr res' "specs"; let args ← h'.item specs "args"; h'.delItem args "func") with
        | .error e => (h', .error e)
        | .ok h'' => (h'', joblibDump h'' res')

/-- `skopt.load(filename)`, utils.py:174. -/
def skoptLoad (h : Heap) (f : Stored) : Heap × Nat := joblibLoad h f

end Skopt

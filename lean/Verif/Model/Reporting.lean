import Verif.Model.Minimize

/-!
# The reporting callbacks: `VerboseCallback`, `TimerCallback`, `CheckpointSaver` (`/repo/skopt/callbacks.py`)

They return `None`, so as far as the run is concerned they are silent callbacks; here is what they write.
The console is the list of printed lines, the clock is the sequence of readings of `time()`, the file is
what was dumped into it last (`dump` replaces the file).  Not modelled: a `dump` that fails or is
interrupted, the number of printed digits.
-/

namespace Skopt

variable {F M : Type}

/-- How a progress line describes an iteration, callbacks.py:81-91. -/
inductive PointKind where
  | provided | random | search
  deriving DecidableEq, Repr

/-- A printed line, callbacks.py:81-91, 106-108. -/
inductive Line (F : Type) where
  /-- `Iteration No: %d started/ended. …` -/
  | progress (ended : Bool) (no : ℤ) (kind : PointKind)
  /-- `Time taken: %0.4f` -/
  | took (t : F)
  /-- `Function value obtained: %0.4f` -/
  | value (y : Flt F)
  /-- `Current minimum: %0.4f` -/
  | minimum (y : Flt F)
  deriving DecidableEq

/-- A `VerboseCallback` object, callbacks.py:60-67. -/
structure Verbose (F : Type) where
  nTotal : ℤ
  nInit : ℤ
  nRandom : ℤ
  iterNo : ℤ
  startTime : F

/-- `VerboseCallback._print_info`, callbacks.py:69-91. -/
def Verbose.printInfo (v : Verbose F) (start : Bool) : Line F :=
  if v.iterNo ≤ v.nInit then .progress (!start) v.iterNo .provided
  else if v.nInit < v.iterNo ∧ v.iterNo ≤ v.nRandom + v.nInit then .progress (!start) v.iterNo .random
  else .progress (!start) v.iterNo .search

/-- `VerboseCallback.__init__`, callbacks.py:60-67; `t` is the reading of the clock. -/
def Verbose.init (nTotal nInit nRandom : ℤ) (t : F) : Verbose F × List (Line F) :=
  let v : Verbose F := ⟨nTotal, nInit, nRandom, 1, t⟩
  (v, [v.printInfo true])

/-- `VerboseCallback.__call__`, callbacks.py:93-113; `now` and `later` are the readings of the clock. -/
def Verbose.call (A : Arith F) (v : Verbose F) (now later : F) (r : Result F M) :
    Except PyErr (Verbose F × List (Line F)) := do
  let y ← pyGetI r.funcVals (-1)
  let out := [v.printInfo false, .took (A.sub now v.startTime), .value y, .minimum r.fun_]
  let v' := { v with iterNo := v.iterNo + 1 }
  if v'.iterNo ≤ v'.nTotal then .ok ({ v' with startTime := later }, out ++ [v'.printInfo true])
  else .ok (v', out)

/-- The lines printed when the callback is invoked with the results `rs` in turn, callbacks.py:93-113;
`clock k` are the readings in the invocation after `k` others. -/
def Verbose.calls (A : Arith F) (clock : Nat → F × F) : Nat → Verbose F → List (Result F M) →
    Except PyErr (List (Line F))
  | _, _, [] => .ok []
  | k, v, r :: rs => do
    let (v', out) ← v.call A (clock k).1 (clock k).2 r
    let more ← Verbose.calls A clock (k + 1) v' rs
    .ok (out ++ more)

/-- The results shown to callback number `i` in a run, in order, utils.py:95-102. -/
def shownTo (i : Nat) (t : List (Event F M)) : List (Result F M) :=
  t.filterMap fun e => match e with
    | .call j r _ => if j = i then some r else none
    | .eval _ => none

/-- The arguments with which `base_minimize` constructs its `VerboseCallback`, base.py:269-274:
`n_total`, `n_init` and `n_random`; `n_initial_points` already includes the starting points (base.py:249). -/
def MinArgs.verboseArgs (m : MinArgs F M) (nStarts : Nat) : ℤ × ℤ × ℤ :=
  (m.nCalls, if m.y0.falsy then (nStarts : ℤ) else 0,
    m.nRandomStarts.getD m.nInitialPoints + nStarts)

/-- The console output of the `VerboseCallback` in a run of `base_minimize` with `verbose=True`, which did
`t` (base.py:269-305): the callback comes after the given ones. -/
def console (A : Arith F) (t₀ : F) (clock : Nat → F × F) (m : MinArgs F M) (nStarts : Nat)
    (t : List (Event F M)) : Except PyErr (List (Line F)) := do
  let (nTotal, nInit, nRandom) := m.verboseArgs nStarts
  let cbs ← checkCallback m.callback
  let (v, out) := Verbose.init nTotal nInit nRandom t₀
  let more ← v.calls A clock 0 (shownTo cbs.length t)
  .ok (out ++ more)

/-- A `TimerCallback`, callbacks.py:128-130: the last reading of the clock and the recorded times. -/
structure Timer (F : Type) where
  time : F
  iterTime : List F

/-- `TimerCallback.__init__`, callbacks.py:128-130. -/
def Timer.init (t : F) : Timer F := ⟨t, []⟩

/-- `TimerCallback.__call__`, callbacks.py:132-141. -/
def Timer.call (A : Arith F) (c : Timer F) (now later : F) : Timer F :=
  ⟨later, c.iterTime ++ [A.sub now c.time]⟩

/-- The callback after being invoked at the given times in turn, callbacks.py:132-141. -/
def Timer.calls (A : Arith F) (c : Timer F) : List (F × F) → Timer F
  | [] => c
  | (now, later) :: ts => Timer.calls A (c.call A now later) ts

/-- `CheckpointSaver.__call__` as a callback, callbacks.py:312-319: returns `None`. -/
def checkpointSaver : Callback F M := fun _ => .ok none

/-- The content of the checkpoint file after the run did `t`, if callback number `i` is a
`CheckpointSaver`, callbacks.py:312-319; `before` is the content at the beginning. -/
def checkpointFile (i : Nat) : Option (Result F M) → List (Event F M) → Option (Result F M)
  | before, [] => before
  | before, .eval _ :: t => checkpointFile i before t
  | before, .call j r _ :: t => checkpointFile i (if j = i then some r else before) t

end Skopt

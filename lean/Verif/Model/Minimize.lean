import Verif.Model.Optimizer

/-!
# Model of `base_minimize` (`skopt/optimizer/base.py`), `dummy_minimize` (`skopt/optimizer/dummy.py`),
`check_callback` (`skopt/callbacks.py`) and `eval_callbacks` (`skopt/utils.py`)

The objective and the callbacks are arbitrary functions of everything they were shown so far, so
stateful ones are covered; both may raise.  What a run does to the outside is its *trace*: the
evaluations of the objective and the invocations of callbacks, in order.

Simplifications: `x0` and `y0` given as numpy arrays and `x0` given as a string are not modelled; the
objective and the callbacks do not modify the objects they are given; a result is a snapshot (its
`x_iters` is really the optimizer's own list, see C40); `specs` is left out; for the printed output see
`Model/Reporting.lean`.
-/

namespace Skopt

variable {F M R G : Type}

/-- `x0`: absent, a list, a tuple, or something that cannot be subscripted.  (skopt/optimizer/base.py:222-227) -/
inductive X0 (F : Type) where
  | none
  | list (xs : List (Val F))
  | tuple (xs : List (Val F))
  | other

/-- `y0`: absent, an iterable, a number, or something else.  (base.py:239-243) -/
inductive Y0 (F : Type) where
  | none
  | iter (ys : List (YArg F))
  | num (y : Flt F)
  | other

/-- A callback decides on the results it was given so far, the current one last: `None` or a truth
value.  (skopt/utils.py:75-102) -/
abbrev Callback (F M : Type) := List (Result F M) → Except PyErr (Option Bool)

/-- The objective, given the earlier evaluation points and the current one.  (base.py:282, 299) -/
abbrev Objective (F : Type) := List (Val F) → Val F → Except PyErr (YArg F)

/-- The `callback` argument: `None`, a callable, a list of callables, something else.  (skopt/callbacks.py:19-35) -/
inductive CbArg (F M : Type) where
  | none
  | one (c : Callback F M)
  | list (cs : List (Callback F M))
  | invalid

/-- An observable event of a run.  (base.py:276-305) -/
inductive Event (F M : Type) where
  /-- the objective is called at this point -/
  | eval (x : Val F)
  /-- callback number `i` is called with this result and answers -/
  | call (i : Nat) (r : Result F M) (d : Except PyErr (Option Bool))

/-- `check_callback`, callbacks.py:19-35. -/
def checkCallback : CbArg F M → Except PyErr (List (Callback F M))
  | .none => .ok []
  | .one c => .ok [c]
  | .list cs => .ok cs
  | .invalid => .error .valueError

/-- `VerboseCallback.__call__`, callbacks.py:93-113: prints and returns `None`. -/
def verboseCallback : Callback F M := fun _ => .ok none

/-- The caller's `callback` object after `callbacks.append(VerboseCallback(…))`, base.py:269-274:
`check_callback` returns the very list that was passed (callbacks.py:28-29). -/
def CbArg.afterVerbose : CbArg F M → CbArg F M
  | .list cs => .list (cs ++ [verboseCallback])
  | c => c

/-- `eval_callbacks`, utils.py:95-102; `hist` are the results so far, `i` the number of callbacks
already called and `stop` the decision so far. -/
def evalCallbacks (hist : List (Result F M)) (r : Result F M) :
    List (Callback F M) → Nat → Bool → List (Event F M) × Except PyErr Bool
  | [], _, stop => ([], .ok stop)
  | c :: cs, i, stop =>
    match c hist with
    | .error e => ([.call i r (.error e)], .error e)
    | .ok d =>
      let (t, o) := evalCallbacks hist r cs (i + 1) (stop || d.getD false)
      (.call i r (.ok d) :: t, o)

/-- `list(map(func, x0))`, base.py:282. -/
def evalAll (func : Objective F) (done : List (Val F)) :
    List (Val F) → List (Event F M) × Except PyErr (List (YArg F))
  | [] => ([], .ok [])
  | x :: xs =>
    match func done x with
    | .error e => ([.eval x], .error e)
    | .ok y =>
      let (t, o) := evalAll func (done ++ [x]) xs
      (.eval x :: t, do let ys ← o; .ok (y :: ys))

/-- The loop of `base_minimize`, base.py:297-305: `done` are the evaluations so far, `hist` the results
so far, `last` the value of `result`. -/
def minimizeLoop [LinearOrder F] (A : Arith F) (W : World F M R G) (dims : List (Dim F))
    (func : Objective F) (cbs : List (Callback F M)) :
    Nat → List (Val F) → List (Result F M) → Opt F M R → Option (Result F M) →
    List (Event F M) × Except PyErr (Option (Result F M))
  | 0, _, _, _, last => ([], .ok last)
  | n + 1, done, hist, s, _ =>
    match askOne A W dims s with
    | (_, .error e) => ([], .error e)
    | (s, .ok x) =>
      match func done (.seq x) with
      | .error e => ([.eval (.seq x)], .error e)
      | .ok y =>
        match tell A W dims s (.lst x) y true with
        | (_, .error e) => ([.eval (.seq x)], .error e)
        | (s, .ok r) =>
          match evalCallbacks (hist ++ [r]) r cbs 0 false with
          | (t, .error e) => (.eval (.seq x) :: t, .error e)
          | (t, .ok true) => (.eval (.seq x) :: t, .ok (some r))
          | (t, .ok false) =>
            let (t', o) := minimizeLoop A W dims func cbs n (done ++ [.seq x]) (hist ++ [r]) s (some r)
            (.eval (.seq x) :: (t ++ t'), o)

/-- The arguments of `base_minimize`, base.py:22-29; `opt` holds those handed on to the optimizer (its
`nInitialPoints` and `nRandomStarts` are not used). -/
structure MinArgs (F M : Type) where
  opt : Args
  nCalls : ℤ := 100
  nRandomStarts : Option ℤ := none
  nInitialPoints : ℤ := 10
  x0 : X0 F := .none
  y0 : Y0 F := .none
  verbose : Bool := false
  callback : CbArg F M := .none

/-- The outcome of a run: the dimensions and generator of the caller, the caller's callback object, the
trace and the returned value (`None` if no result was produced).  (base.py:276-305) -/
structure Outcome (F M G : Type) where
  shared : Shared F G
  callback : CbArg F M
  trace : List (Event F M)
  result : Except PyErr (Option (Result F M))

/-- The list of starting points, base.py:222-227 (`x0[0]` of an empty list raises `IndexError`). -/
def X0.points : X0 F → Except PyErr (List (Val F))
  | .none => .ok []
  | .list [] | .tuple [] => .error .indexError
  | .list (x :: xs) => if x.isSeq then .ok (x :: xs) else .ok [.seq (x :: xs)]
  | .tuple (x :: xs) => if x.isSeq then .error .valueError else .ok [.seq (x :: xs)]
  | .other => .error .typeError

/-- `y0` after base.py:240-243: `none` for `None`, `some none` for an object that is neither iterable
nor a number. -/
def Y0.values : Y0 F → Option (Option (List (YArg F)))
  | .none => Option.none
  | .iter ys => some (some ys)
  | .num y => some (some [.num y])
  | .other => some Option.none

/-- `not y0`, base.py:244. -/
def Y0.falsy (y : Y0 F) : Bool :=
  match y.values with
  | some (some ys) => ys.isEmpty
  | some Option.none => false
  | Option.none => true

/-- `len(p)` of an iterable; numbers and other objects are not iterable.  (base.py:264-265) -/
def Val.len? : Val F → Option Nat
  | .seq xs => some xs.length
  | .str s => some s.length
  | _ => none

/-- The checks before the optimizer is built, base.py:221-249: starting points and the total number of
initial points. -/
def MinArgs.prepare (m : MinArgs F M) : Except PyErr (List (Val F) × ℤ) := do
  let x0 ← m.x0.points
  let n := m.nRandomStarts.getD m.nInitialPoints
  if n ≤ 0 ∧ x0.isEmpty then .error .valueError
  else if m.nCalls < n + (if m.y0.falsy then (x0.length : ℤ) else 0) then .error .valueError
  else .ok (x0, n + x0.length)

/-- The check of the starting points, base.py:264-267. -/
def checkStarts (nDims : Nat) (x0 : List (Val F)) : Except PyErr Unit :=
  if ¬ x0.all (fun p => p.len?.isSome) then .error .assertionError
  else if ¬ x0.all (fun p => decide (p.len? = some nDims)) then .error .runtimeError
  else .ok ()

/-- The values of the starting points, base.py:281-290: evaluated if `y0` is `None`, otherwise the given
ones, which must be as many. -/
def startValues (func : Objective F) (x0 : List (Val F)) (y0 : Y0 F) :
    List (Event F M) × Except PyErr (List (YArg F)) :=
  match y0.values with
  | none => evalAll func [] x0
  | some none => ([], .error .valueError)
  | some (some ys) => ([], if x0.length ≠ ys.length then .error .valueError else .ok ys)

/-- The starting points that were evaluated (`n_calls -= len(y0)`), base.py:281-283. -/
def evaluatedFirst (x0 : List (Val F)) (y0 : Y0 F) : List (Val F) :=
  match y0.values with
  | none => x0
  | some _ => []

/-- The run after construction, base.py:276-305: record the starting points, then loop. -/
def minimizeBody [LinearOrder F] (A : Arith F) (W : World F M R G) (dims : List (Dim F))
    (func : Objective F) (cbs : List (Callback F M)) (nCalls : ℤ) (x0 : List (Val F)) (y0 : Y0 F)
    (s : Opt F M R) : List (Event F M) × Except PyErr (Option (Result F M)) :=
  if x0.isEmpty then minimizeLoop A W dims func cbs nCalls.toNat [] [] s none
  else
    match startValues func x0 y0 with
    | (t, .error e) => (t, .error e)
    | (t, .ok ys) =>
      match tell A W dims s (.lst x0) (.seq ys) true with
      | (_, .error e) => (t, .error e)
      | (s, .ok r) =>
        match evalCallbacks [r] r cbs 0 false with
        | (t', .error e) => (t ++ t', .error e)
        | (t', .ok true) => (t ++ t', .ok (some r))
        | (t', .ok false) =>
          let (t'', o) := minimizeLoop A W dims func cbs
            (nCalls - (evaluatedFirst x0 y0).length).toNat (evaluatedFirst x0 y0) [r] s (some r)
          (t ++ (t' ++ t''), o)

/-- The arguments handed on to `Optimizer`, base.py:254-262. -/
def MinArgs.optArgs (m : MinArgs F M) (n : ℤ) : Args :=
  { m.opt with nInitialPoints := n, nRandomStarts := none }

/-- `base_minimize`, base.py:22-305. -/
def baseMinimize [LinearOrder F] (A : Arith F) (W : World F M R G) (sh : Shared F G)
    (func : Objective F) (m : MinArgs F M) (rng : R) : Outcome F M G :=
  match m.prepare with
  | .error e => ⟨sh, m.callback, [], .error e⟩
  | .ok (x0, n) =>
    match mkConfig (m.optArgs n) with
    | .error e => ⟨sh, m.callback, [], .error e⟩
    | .ok cfg =>
      match (Opt.init A W sh cfg rng : Shared F G × Except PyErr (Opt F M R)) with
      | (sh, .error e) => ⟨sh, m.callback, [], .error e⟩
      | (sh, .ok s) =>
        match checkStarts sh.dims.length x0 with
        | .error e => ⟨sh, m.callback, [], .error e⟩
        | .ok _ =>
          match checkCallback m.callback with
          | .error e => ⟨sh, m.callback, [], .error e⟩
          | .ok cbs =>
            let cbs := if m.verbose then cbs ++ [verboseCallback] else cbs
            let after := if m.verbose then m.callback.afterVerbose else m.callback
            let (t, o) := minimizeBody A W sh.dims func cbs m.nCalls x0 m.y0 s
            ⟨sh, after, t, o⟩

/-- `len(x0)` in dummy.py:108, of the argument as passed (`x0 is not None`). -/
def X0.len : X0 F → Except PyErr Nat
  | .none => .ok 0
  | .list xs | .tuple xs => .ok xs.length
  | .other => .error .typeError

/-- `dummy_minimize`, dummy.py:105-120: the surrogate "dummy" (no estimator), the acquisition function
`EI` of `base_minimize`, and as many initial points as evaluations are wanted. -/
def dummyMinimize [LinearOrder F] (A : Arith F) (W : World F M R G) (sh : Shared F G)
    (func : Objective F) (nCalls : ℤ) (x0 : X0 F) (y0 : Y0 F) (verbose : Bool)
    (callback : CbArg F M) (queueSize : Option ℤ) (rng : R) : Outcome F M G :=
  let args : ℤ → MinArgs F M := fun n =>
    { opt := { est := { isNone := true, isRegressor := false }, acq := some .EI
               acqOptimizer := .sampling, queueSize := queueSize }
      nCalls := nCalls, nInitialPoints := n, x0 := x0, y0 := y0, verbose := verbose
      callback := callback }
  match x0, y0 with
  | .none, _ => baseMinimize A W sh func (args nCalls) rng
  | _, .none =>
    match x0.len with
    | .error e => ⟨sh, callback, [], .error e⟩
    | .ok k => baseMinimize A W sh func (args (nCalls - k)) rng
  | _, _ => baseMinimize A W sh func (args nCalls) rng

/-- The points at which a run evaluated the objective, in order.  (base.py:282, 299) -/
def evalsOf (t : List (Event F M)) : List (Val F) :=
  t.filterMap fun e => match e with
    | .eval x => some x
    | .call .. => none

end Skopt

import Verif.Model.Halton
import Verif.Model.Utils
import Mathlib.Order.WithBot
import Mathlib.Order.Basic

/-!
# Model of `skopt/optimizer/optimizer.py` and of `create_result` (`skopt/utils.py`)

An `Optimizer` instance is a value of `Opt`; every method returns the state *after* the call next to
the outcome, also when it raises, so that what an exception leaves behind is visible.

Objects that an optimizer shares with its caller and with its copies – the `Dimension` objects and the
initial point generator – are kept apart in `Shared`.

Third-party calls are the fields of `World`: surrogate fits and predictions, acquisition values,
`fmin_l_bfgs_b`, random draws.  Nothing is assumed about them here.  The random state `R` is threaded
through every call, so two calls with equal arguments may give different answers.

`specs` and `n_jobs` are not modelled; for the warning of `ask` see Model/AskWarning.
-/

namespace Skopt

variable {F M R G : Type}

/-- An objective value: a float or NaN.  (skopt/optimizer/optimizer.py:512-519) -/
inductive Flt (F : Type) where
  | nan
  | fin (x : F)
  deriving DecidableEq

/-- NaN below everything.  (numpy's order in `np.min`/`np.argmin`, optimizer.py:558, 564 and utils.py:63) -/
def Flt.key : Flt F → WithBot F
  | .nan => ⊥
  | .fin x => (x : WithBot F)

theorem Flt.key_injective : Function.Injective (Flt.key : Flt F → WithBot F) := by
  intro a b h
  cases a with
  | nan => cases b with
    | nan => rfl
    | fin x => exact absurd h.symm (WithBot.coe_ne_bot)
  | fin x => cases b with
    | nan => exact absurd h (WithBot.coe_ne_bot)
    | fin y => rw [WithBot.coe_injective h]

/-- numpy's `argmin` and `min` let NaN win: for them NaN is smaller than every number. -/
instance [LinearOrder F] : LinearOrder (Flt F) := LinearOrder.lift' Flt.key Flt.key_injective

theorem Flt.fin_le_fin [LinearOrder F] {x y : F} : Flt.fin x ≤ Flt.fin y ↔ x ≤ y :=
  WithBot.coe_le_coe

theorem Flt.fin_lt_fin [LinearOrder F] {x y : F} : Flt.fin x < Flt.fin y ↔ x < y :=
  WithBot.coe_lt_coe

theorem Flt.nan_le [LinearOrder F] (y : Flt F) : Flt.nan ≤ y := by
  show Flt.key Flt.nan ≤ Flt.key y
  exact bot_le

/-- The `y` argument of `tell`: a number (`numbers.Number`), a list/tuple, or anything else that is a
scalar for numpy (a string, `None`, …).  numpy arrays are not modelled as `y`.  (optimizer.py:455, 617-640) -/
inductive YArg (F : Type) where
  | num (y : Flt F)
  | seq (ys : List (YArg F))
  | other

/-- The `x` argument of `tell`: a list or tuple; a non-empty numpy array or string (iterable, but
neither a list nor a tuple, nor are its elements); or something that cannot be iterated.
(optimizer.py:455, 617-640) -/
inductive XArg (F : Type) where
  | lst (xs : List (Val F))
  | array
  | scalar

/-- `acq_func`, optimizer.py:184. -/
inductive AcqFunc where
  | gpHedge | EI | LCB | PI | EIps | PIps
  deriving DecidableEq, Repr

/-- `"ps" in self.acq_func`.  (optimizer.py:231, 398, 412, 486, 502, 620) -/
def AcqFunc.isPs : AcqFunc → Bool
  | .EIps | .PIps => true
  | _ => false

/-- `cand_acq_funcs_`, optimizer.py:190-194. -/
def AcqFunc.candidates : AcqFunc → List AcqFunc
  | .gpHedge => [.EI, .LCB, .PI]
  | a => [a]

/-- `strategy` of `ask`, optimizer.py:369. -/
inductive Strategy where
  | clMin | clMean | clMax | other
  deriving DecidableEq, Repr

/-- The configuration of an optimizer, fixed after construction: acquisition function, whether there is
a surrogate (`base_estimator_ is not None`), whether it is a `GaussianProcessRegressor`, whether
`acq_optimizer` is "lbfgs", sizes, `n_initial_points_` and `max_model_queue_size`.  (optimizer.py:178-297) -/
structure Config where
  acq : AcqFunc
  hasEst : Bool
  isGP : Bool
  lbfgs : Bool
  nPoints : Nat
  nRestarts : Nat
  nInitial : ℤ
  queueSize : Option ℤ

/-- The objects shared with the caller and with copies: `space.dimensions` and
`_initial_point_generator`.  (optimizer.py:271-282) -/
structure Shared (F G : Type) where
  dims : List (Dim F)
  gen : Option G

/-- The mutable attributes of an `Optimizer`, optimizer.py:189-305 (`next_xs_`, `_next_x` and `gains_`
may not exist). -/
structure Opt (F M R : Type) where
  cfg : Config
  rng : R
  nInit : ℤ
  initialSamples : Option (List (Point F))
  Xi : List (Val F)
  yi : List (YArg F)
  models : List M
  cache : Option ((Nat × Strategy) × List (Point F))
  gains : Option (List F)
  nextXs : Option (List (List (Val F)))
  nextX : Option (Point F)

/-- Third-party calls.  (optimizer.py:434, 536, 551-608) -/
structure World (F M R G : Type) where
  /-- `clone(base_estimator_).fit(X, y)` -/
  fit : R → List (List (Val F)) → List (YArg F) → R × Except PyErr M
  /-- `est.predict(X)` -/
  predict : M → List (List (Val F)) → Except PyErr (List F)
  /-- the draws of the scipy distributions behind `Space.rvs(n_samples, rng)` -/
  draws : R → List (Dim F) → Nat → R × List (RawDraw F)
  /-- `_gaussian_acquisition(X, model, y_opt, acq_func)` -/
  acquisition : M → List (List (Val F)) → Flt F → AcqFunc → Except PyErr (List (Flt F))
  /-- `np.argsort` -/
  argsort : List (Flt F) → List Nat
  /-- `fmin_l_bfgs_b(gaussian_acquisition_1D, x, …)`: minimiser found and its value -/
  lbfgs : R → M → Flt F → AcqFunc → List (Val F) → R × Except PyErr (List (Val F) × Flt F)
  /-- `rng.multinomial(1, probs)` -/
  multinomial : R → List F → R × List Nat
  /-- `np.exp`, `math.log`, `log(sys.float_info.max)` and the hedge parameter `eta` -/
  exp : F → F
  log : Flt F → Except PyErr (Flt F)
  logMax : F
  eta : F
  /-- `rng.randint(0, 2**31 - 1)` used as seed of a new random state -/
  seed : R → R × R
  /-- `InitialPointGenerator.generate(dimensions, n_samples, random_state)` -/
  generate : G → List (Dim F) → ℤ → R → G × GenResult F

/-! ## Objective values as numpy sees them -/

/-- A scalar entry of a numpy array of objective values.  (skopt/utils.py:59-63) -/
def YArg.toFlt : YArg F → Except PyErr (Flt F)
  | .num y => .ok y
  | .seq _ => .error .valueError
  | .other => .error .typeError

/-- `isinstance(y, (list, tuple))`, utils.py:177-178. -/
def YArg.isSeq : YArg F → Bool
  | .seq _ => true
  | _ => false

/-- `isinstance(y, Number)`.  (optimizer.py:631, 635) -/
def YArg.isNumber : YArg F → Bool
  | .num _ => true
  | _ => false

/-- The elements of a list/tuple.  (optimizer.py:486-519, 617-640) -/
def YArg.items : YArg F → List (YArg F)
  | .seq ys => ys
  | _ => []

/-- A list/tuple of two scalars: what an array row of shape `(2,)` is made of. -/
def YArg.isPair : YArg F → Bool
  | .seq [a, b] => !a.isSeq && !b.isSeq
  | _ => false

/-- The two components of a `(value, time)` pair.  (optimizer.py:487-491, 502-510) -/
def YArg.toPair : YArg F → Except PyErr (Flt F × Flt F)
  | .seq [a, b] => do
      let x ← a.toFlt
      let y ← b.toFlt
      .ok (x, y)
  | _ => .error .valueError

/-- `np.asarray(yi)`: a vector of numbers or (two-dimensional) a list of pairs; a mixture cannot be
converted (`ValueError`).  (skopt/utils.py:59-62, optimizer.py:399) -/
def asColumns (yi : List (YArg F)) : Except PyErr (List (Flt F) ⊕ List (Flt F × Flt F)) :=
  if yi.any YArg.isSeq then do
    let ps ← mapE YArg.toPair yi
    .ok (.inr ps)
  else do
    let ys ← mapE YArg.toFlt yi
    .ok (.inl ys)

/-- `np.asarray(yi).ravel()`, the numbers over which `np.min(yi)`, `np.mean(yi)`, `np.max(yi)` run: for
two-dimensional data these are all entries, times included.  (optimizer.py:402-409, 558, 577) -/
def flatNums (yi : List (YArg F)) : Except PyErr (List (Flt F)) := do
  match (← asColumns yi) with
  | .inl ys => .ok ys
  | .inr ps => .ok (ps.flatMap fun p => [p.1, p.2])

/-- `np.min` (NaN wins); `ValueError` on an empty array.  (optimizer.py:402-403, 558) -/
def fltMin [LinearOrder F] : List (Flt F) → Except PyErr (Flt F)
  | [] => .error .valueError
  | x :: xs => .ok (xs.foldl min x)

/-- `np.max` (NaN wins).  (optimizer.py:408-409) -/
def fltMax [LinearOrder F] : List (Flt F) → Except PyErr (Flt F)
  | [] => .error .valueError
  | x :: xs => .ok (if (x :: xs).any (fun y => decide (y = .nan)) then .nan else xs.foldl max x)

/-- Addition with NaN propagating.  (optimizer.py:405-406) -/
def fltAdd (A : Arith F) : Flt F → Flt F → Flt F
  | .fin x, .fin y => .fin (A.add x y)
  | _, _ => .nan

/-- `np.mean` (numpy sums pairwise; the model sums from the left; of an empty array it is NaN).
(optimizer.py:405-406) -/
def fltMean (A : Arith F) (xs : List (Flt F)) : Flt F :=
  if xs.isEmpty then .nan
  else match xs.foldl (fltAdd A) (.fin (A.ofInt 0)) with
    | .fin s => .fin (A.div s (A.ofInt xs.length))
    | .nan => .nan

/-! ## create_result, skopt/utils.py:29-72 -/

/-- The `OptimizeResult`.  `xIters` and `models` are the optimizer's own lists (utils.py:66-67); see
C40 in `Props/OptimizerHistory.lean` for what that means after later calls. -/
structure Result (F M : Type) where
  x : Val F
  fun_ : Flt F
  funcVals : List (Flt F)
  logTime : Option (List (Flt F))
  xIters : List (Val F)
  models : List M

/-- `create_result`, utils.py:58-72. -/
def createResult [LinearOrder F] (Xi : List (Val F)) (yi : List (YArg F)) (models : List M) :
    Except PyErr (Result F M) := do
  let c ← asColumns yi
  let (ys, lt) := match c with
    | .inl ys => (ys, none)
    | .inr ps => (ps.map Prod.fst, some (ps.map Prod.snd))
  let best ← npArgmin ys
  let x ← pyGet Xi best
  let f ← pyGet ys best
  .ok ⟨x, f, ys, lt, Xi, models⟩

/-! ## The fit block of `_tell`, optimizer.py:531-608 -/

/-- `models.append(est)` / `models.pop(0); models.append(est)`, optimizer.py:541-548; popping from an
empty list raises `IndexError`. -/
def pushModel (queueSize : Option ℤ) (models : List M) (est : M) : Except PyErr (List M) :=
  match queueSize with
  | none => .ok (models ++ [est])
  | some k =>
    if (models.length : ℤ) < k then .ok (models ++ [est])
    else match models with
      | [] => .error .indexError
      | _ :: rest => .ok (rest ++ [est])

/-- `np.clip(next_x, transformed_bounds[:, 0], transformed_bounds[:, 1])`, optimizer.py:591-593:
shapes have to agree (numpy would also broadcast a row of length one, which does not occur), strings
cannot be clipped. -/
def clipRow [LinearOrder F] (bounds : List (F × F)) (row : List (Val F)) :
    Except PyErr (List (Val F)) := do
  if row.length ≠ bounds.length then .error .valueError
  else
    let xs ← mapE Val.toNum row
    .ok (List.zipWith (fun (b : F × F) x => .num (npClip b.1 b.2 x)) bounds xs)

/-- Search for the minimum of one acquisition function, optimizer.py:557-594. -/
def proposeOne [LinearOrder F] (A : Arith F) (W : World F M R G) (cfg : Config) (dims : List (Dim F))
    (est : M) (yOpt : Flt F) (X : List (List (Val F))) (rng : R) (cand : AcqFunc) :
    R × Except PyErr (List (Val F)) :=
  match W.acquisition est X yOpt cand with
  | .error e => (rng, .error e)
  | .ok values =>
    let (rng, nx) :=
      if cfg.lbfgs then
        match mapE (pyGet X) ((W.argsort values).take cfg.nRestarts) with
        | .error e => (rng, .error e)
        | .ok x0 => runAll rng x0
      else (rng, do let i ← npArgmin values; pyGet X i)
    match nx with
    | .error e => (rng, .error e)
    | .ok row =>
      if Space.isCategorical dims then (rng, .ok row)
      else (rng, clipRow (Space.transformedBounds A dims) row)
where
  /-- the runs of `fmin_l_bfgs_b` in order -/
  minimizeAll (rng : R) : List (List (Val F)) → R × Except PyErr (List (List (Val F) × Flt F))
    | [] => (rng, .ok [])
    | x :: xs =>
      match W.lbfgs rng est yOpt cand x with
      | (rng, .error e) => (rng, .error e)
      | (rng, .ok r) =>
        match minimizeAll rng xs with
        | (rng, .error e) => (rng, .error e)
        | (rng, .ok rs) => (rng, .ok (r :: rs))
  /-- all runs and the best of their results -/
  runAll (rng : R) (x0 : List (List (Val F))) : R × Except PyErr (List (Val F)) :=
    match minimizeAll rng x0 with
    | (rng, .error e) => (rng, .error e)
    | (rng, .ok rs) => (rng, do
        let i ← npArgmin (rs.map Prod.snd)
        let r ← pyGet rs i
        .ok r.1)

/-- `for cand_acq_func in self.cand_acq_funcs_: … self.next_xs_.append(next_x)`,
optimizer.py:555-594. -/
def proposeAll [LinearOrder F] (A : Arith F) (W : World F M R G) (dims : List (Dim F))
    (est : M) (yOpt : Flt F) (X : List (List (Val F))) : List AcqFunc → Opt F M R →
    Opt F M R × Except PyErr Unit
  | [], s => (s, .ok ())
  | c :: cs, s =>
    match proposeOne A W s.cfg dims est yOpt X s.rng c with
    | (rng, .error e) => ({ s with rng := rng }, .error e)
    | (rng, .ok row) =>
      proposeAll A W dims est yOpt X cs
        { s with rng := rng, nextXs := some (s.nextXs.getD [] ++ [row]) }

/-- The selection probabilities of `gp_hedge`, optimizer.py:597-600. -/
def hedgeProbs [LinearOrder F] (A : Arith F) (exp : F → F) (eta : F) (gains : List F) : List F :=
  let m := gains.foldl max (gains.headD (A.ofInt 0))
  let es := gains.map fun g => exp (A.mul eta (A.sub g m))
  let total := es.foldl A.add (A.ofInt 0)
  es.map fun e => A.div e total

/-- Choice among the proposals, optimizer.py:596-604. -/
def choose [LinearOrder F] (A : Arith F) (W : World F M R G) (s : Opt F M R) :
    R × Except PyErr (List (Val F)) :=
  let xs := s.nextXs.getD []
  match s.cfg.acq with
  | .gpHedge =>
    match s.gains with
    | none => (s.rng, .error .attributeError)
    | some g =>
      let (rng, counts) := W.multinomial s.rng (hedgeProbs A W.exp W.eta g)
      (rng, do let i ← npArgmax counts; pyGet xs i)
  | _ => (s.rng, pyGet xs 0)

/-- `hasattr(self, "next_xs_") and acq_func == "gp_hedge": self.gains_ -= est.predict(np.vstack(self.next_xs_))`,
optimizer.py:538-539: `np.vstack` of no rows raises; a single prediction is broadcast by numpy. -/
def updateGains (A : Arith F) (W : World F M R G) (s : Opt F M R) (est : M) :
    Except PyErr (Option (List F)) :=
  match s.cfg.acq, s.nextXs with
  | .gpHedge, some xs =>
    match s.gains with
    | none => .error .attributeError
    | some g => do
      if xs.isEmpty then .error .valueError
      let p ← W.predict est xs
      if p.length = 1 then .ok (some (g.map fun v => A.sub v (p.headD v)))
      else if p.length ≠ g.length then .error .valueError
      else .ok (some (List.zipWith A.sub g p))
  | _, _ => .ok s.gains

/-- The second half of the fit block: sampling candidates, proposing and storing the next point,
optimizer.py:552-608. -/
def suggest [LinearOrder F] (A : Arith F) (W : World F M R G) (dims : List (Dim F)) (est : M)
    (s : Opt F M R) : Opt F M R × Except PyErr Unit :=
  let (rng, raws) := W.draws s.rng dims s.cfg.nPoints
  let s := { s with rng := rng }
  match (do let pts ← Space.rvs A dims raws; Space.transform A dims pts) with
  | .error e => (s, .error e)
  | .ok X =>
    let s := { s with nextXs := some [] }
    match (do let ys ← flatNums s.yi; fltMin ys) with
    | .error e => (s, .error e)
    | .ok yOpt =>
      match proposeAll A W dims est yOpt X s.cfg.acq.candidates s with
      | (s, .error e) => (s, .error e)
      | (s, .ok _) =>
        let (rng, row) := choose A W s
        let s := { s with rng := rng }
        match (do let r ← row; let ps ← Space.inverseTransform A dims [r]; pyGet ps 0) with
        | .error e => (s, .error e)
        | .ok x => ({ s with nextX := some x }, .ok ())

/-- The fit block, optimizer.py:531-608. -/
def refit [LinearOrder F] (A : Arith F) (W : World F M R G) (dims : List (Dim F)) (s : Opt F M R) :
    Opt F M R × Except PyErr Unit :=
  match Space.transform A dims (s.Xi.map Val.items) with
  | .error e => (s, .error e)
  | .ok Xt =>
    let (rng, m) := W.fit s.rng Xt s.yi
    let s := { s with rng := rng }
    match m with
    | .error e => (s, .error e)
    | .ok est =>
      match updateGains A W s est with
      | .error e => (s, .error e)
      | .ok g =>
        let s := { s with gains := g }
        match pushModel s.cfg.queueSize s.models est with
        | .error e => (s, .error e)
        | .ok ms => suggest A W dims est { s with models := ms }

/-! ## tell, optimizer.py:455-640 -/

/-- The recording part of `_tell`, optimizer.py:502-522 and the discarded cache, 527.  In the
per-second mode an `x` that is neither a list nor a tuple is silently ignored. -/
def record (s : Opt F M R) (x : XArg F) (y : YArg F) : Except PyErr (Opt F M R) :=
  match x with
  | .lst xs =>
    if s.cfg.acq.isPs then
      if is2D xs then .ok (batch s xs y.items) else .ok (single s xs y)
    else if y.isSeq && is2D xs then .ok (batch s xs y.items)
    else .ok (single s xs y)
  | .array => if s.cfg.acq.isPs then .ok { s with cache := none } else .error .valueError
  | .scalar => .error .typeError
where
  /-- `Xi.extend(x); yi.extend(y); _n_initial_points -= len(y)` -/
  batch (s : Opt F M R) (xs : List (Val F)) (ys : List (YArg F)) : Opt F M R :=
    { s with Xi := s.Xi ++ xs, yi := s.yi ++ ys, nInit := s.nInit - ys.length, cache := none }
  /-- `Xi.append(x); yi.append(y); _n_initial_points -= 1` -/
  single (s : Opt F M R) (xs : List (Val F)) (y : YArg F) : Opt F M R :=
    { s with Xi := s.Xi ++ [.seq xs], yi := s.yi ++ [y], nInit := s.nInit - 1, cache := none }

/-- `_tell`, optimizer.py:495-615. -/
def tellCore [LinearOrder F] (A : Arith F) (W : World F M R G) (dims : List (Dim F)) (s : Opt F M R)
    (x : XArg F) (y : YArg F) (fit : Bool) : Opt F M R × Except PyErr (Result F M) :=
  match record s x y with
  | .error e => (s, .error e)
  | .ok s =>
    if fit && decide (s.nInit ≤ 0) && s.cfg.hasEst then
      match refit A W dims s with
      | (s, .error e) => (s, .error e)
      | (s, .ok _) => (s, createResult s.Xi s.yi s.models)
    else (s, createResult s.Xi s.yi s.models)

/-- `check_x_in_space`, utils.py:185-200, on any argument: arrays and strings fall through both
branches, iterating a non-iterable raises `TypeError`. -/
def checkX [LinearOrder F] (dims : List (Dim F)) : XArg F → Except PyErr Unit
  | .lst xs => checkXInSpace dims xs
  | .array => .ok ()
  | .scalar => .error .typeError

/-- `_check_y_is_valid`, optimizer.py:617-640.  (`np.ndim` of ragged data raises or is 1, depending on
the numpy version; both end in an exception.) -/
def checkY (acq : AcqFunc) (x : XArg F) (y : YArg F) : Except PyErr Unit :=
  match x with
  | .lst xs =>
    if acq.isPs then
      if is2D xs then
        if y.isSeq && !y.items.isEmpty && y.items.all YArg.isPair then .ok () else .error .typeError
      else if y.isPair then .ok () else .error .typeError
    else if y.isSeq && is2D xs then
      if y.items.all YArg.isNumber then .ok () else .error .valueError
    else if y.isNumber then .ok () else .error .valueError
  | .array => if acq.isPs then .ok () else .error .valueError
  | .scalar => .error .typeError

/-- Logarithm of the time of a `(value, time)` pair, optimizer.py:487-491. -/
def logTime (W : World F M R G) : YArg F → Except PyErr (YArg F)
  | .seq [v, .num t] => do let l ← W.log t; .ok (.seq [v, .num l])
  | _ => .error .typeError

/-- The logarithms of the computation times, optimizer.py:485-491. -/
def takeLogs (W : World F M R G) (acq : AcqFunc) (x : XArg F) (y : YArg F) : Except PyErr (YArg F) :=
  match x with
  | .lst xs =>
    if acq.isPs then
      if is2D xs then do let ys ← mapE (logTime W) y.items; .ok (.seq ys)
      else logTime W y
    else .ok y
  | _ => .ok y

/-- `tell`, optimizer.py:455-493. -/
def tell [LinearOrder F] (A : Arith F) (W : World F M R G) (dims : List (Dim F)) (s : Opt F M R)
    (x : XArg F) (y : YArg F) (fit : Bool) : Opt F M R × Except PyErr (Result F M) :=
  match (do checkX dims x; checkY s.cfg.acq x y; takeLogs W s.cfg.acq x y) with
  | .error e => (s, .error e)
  | .ok y => tellCore A W dims s x y fit

/-- `get_result`, optimizer.py:663-676. -/
def getResult [LinearOrder F] (s : Opt F M R) : Except PyErr (Result F M) :=
  createResult s.Xi s.yi s.models

/-! ## ask, optimizer.py:335-453 -/

/-- `_ask`, optimizer.py:423-453.  (`min` of an empty list raises; for the warning about repeated points
see `askWarns`; the distances are computed and may raise.) -/
def askOne [LinearOrder F] (A : Arith F) (W : World F M R G) (dims : List (Dim F)) (s : Opt F M R) :
    Opt F M R × Except PyErr (Point F) :=
  if 0 < s.nInit ∨ s.cfg.hasEst = false then
    match s.initialSamples with
    | none =>
      let (rng, raws) := W.draws s.rng dims 1
      ({ s with rng := rng }, do let pts ← Space.rvs A dims raws; pyGet pts 0)
    | some pts => (s, pyGetI pts (pts.length - s.nInit))
  else if s.models.isEmpty then (s, .error .runtimeError)
  else match s.nextX with
    | none => (s, .error .attributeError)
    | some x => (s, do
        let ds ← mapE (fun xi : Val F => Space.distance A dims x xi.items) s.Xi
        if ds.isEmpty then .error .valueError else .ok x)

/-- `np.asarray(ti)` for the recorded times, `[t for (_, t) in opt.yi]`, optimizer.py:398-399. -/
def recordedTimes (yi : List (YArg F)) : Except PyErr (List (Flt F)) :=
  mapE (fun y => do let p ← y.toPair; .ok p.2) yi

/-- The aggregate of a strategy, optimizer.py:401-409 (`other` does not reach this point). -/
def Strategy.aggregate [LinearOrder F] (A : Arith F) : Strategy → List (Flt F) → Except PyErr (Flt F)
  | .clMin, xs => fltMin xs
  | .clMean, xs => .ok (fltMean A xs)
  | _, xs => fltMax xs

/-- The lie told to the copy, optimizer.py:398-417. -/
def lie [LinearOrder F] (A : Arith F) (W : World F M R G) (acq : AcqFunc) (strat : Strategy)
    (yi : List (YArg F)) : Except PyErr (YArg F) := do
  let yLie ← if yi.isEmpty then .ok (.fin (A.ofInt 0)) else do
    let ys ← flatNums yi
    strat.aggregate A ys
  if acq.isPs then
    let tLie ← if yi.isEmpty then .ok (.fin W.logMax) else do
      let ts ← recordedTimes yi
      strat.aggregate A ts
    .ok (.seq [.num yLie, .num tLie])
  else .ok (.num yLie)

/-- The loop of the constant liar, optimizer.py:393-417, on the copy. -/
def liarLoop [LinearOrder F] (A : Arith F) (W : World F M R G) (dims : List (Dim F))
    (strat : Strategy) : Nat → Opt F M R → Opt F M R × Except PyErr (List (Point F))
  | 0, o => (o, .ok [])
  | n + 1, o =>
    match askOne A W dims o with
    | (o, .error e) => (o, .error e)
    | (o, .ok x) =>
      match lie A W o.cfg.acq strat o.yi with
      | .error e => (o, .error e)
      | .ok l =>
        match tellCore A W dims o (.lst x) l true with
        | (o, .error e) => (o, .error e)
        | (o, .ok _) =>
          match liarLoop A W dims strat n o with
          | (o, .error e) => (o, .error e)
          | (o, .ok xs) => (o, .ok (x :: xs))

/-! ## Construction, copy and the public operations -/

/-- `acq_optimizer`, optimizer.py:239-247. -/
inductive AcqOptArg where
  | auto | lbfgs | sampling | other
  deriving DecidableEq, Repr

/-- The base estimator argument as the constructor sees it: `None` (the result of "dummy"), or an object
of which it asks whether it is a regressor, a `GaussianProcessRegressor`, and whether
`has_gradients` holds for the estimator finally used.  (optimizer.py:217-247) -/
structure EstArg where
  isNone : Bool := false
  isRegressor : Bool := true
  isGP : Bool := false
  hasGradients : Bool := false

/-- The constructor arguments that are checked or stored, optimizer.py:163-171 (`acq := none` is an
unknown name). -/
structure Args where
  est : EstArg
  acq : Option AcqFunc := some .gpHedge
  nRandomStarts : Option ℤ := none
  nInitialPoints : ℤ := 10
  acqOptimizer : AcqOptArg := .auto
  nPoints : Nat := 10000
  nRestarts : Nat := 5
  queueSize : Option ℤ := none

/-- `acq_optimizer` after "auto" was resolved, optimizer.py:238-243. -/
def Args.optimizer (a : Args) : AcqOptArg :=
  match a.acqOptimizer with
  | .auto => if a.est.hasGradients then .lbfgs else .sampling
  | o => o

/-- The argument checks of `__init__` in their order, optimizer.py:184-262.  `n_random_starts`
overrides `n_initial_points`. -/
def mkConfig (a : Args) : Except PyErr Config :=
  match a.acq with
  | none => .error .valueError
  | some acq =>
    let n := a.nRandomStarts.getD a.nInitialPoints
    if n < 0 then .error .valueError
    else if a.est.isRegressor = false ∧ a.est.isNone = false then .error .valueError
    else
      if a.optimizer = .other then .error .valueError
      else if a.est.hasGradients = false ∧ a.optimizer ≠ .sampling then .error .valueError
      else .ok { acq := acq, hasEst := !a.est.isNone, isGP := a.est.isGP
                 lbfgs := decide (a.optimizer = .lbfgs)
                 nPoints := a.nPoints, nRestarts := a.nRestarts, nInitial := n,
                 queueSize := a.queueSize }

/-- The fresh state, optimizer.py:189-194, 212-213, 273-305; `gains_` is `np.zeros(3)` for `gp_hedge`
only. -/
def Opt.fresh (A : Arith F) (cfg : Config) (rng : R) (pts : Option (List (Point F))) : Opt F M R :=
  { cfg := cfg, rng := rng, nInit := cfg.nInitial, initialSamples := pts, Xi := [], yi := [],
    models := [], cache := none,
    gains := if cfg.acq = .gpHedge then some (List.replicate 3 (A.ofInt 0)) else none,
    nextXs := none, nextX := none }

/-- The part of `__init__` that touches shared objects and builds the state, optimizer.py:266-305: a GP
surrogate normalizes the dimensions *in place* (utils.py:569-607), a generator is run on the same
dimension objects and the transforms are set back. -/
def Opt.init (A : Arith F) (W : World F M R G) (sh : Shared F G) (cfg : Config) (rng : R) :
    Shared F G × Except PyErr (Opt F M R) :=
  match (if cfg.isGP then Space.setTransformer sh.dims .normalize else .ok sh.dims) with
  | .error e => (sh, .error e)
  | .ok dims =>
    match sh.gen with
    | none => ({ sh with dims := dims }, .ok (Opt.fresh A cfg rng none))
    | some g =>
      let (rng, r) := W.seed rng
      match W.generate g dims cfg.nInitial r with
      | (g', (dims', .error e)) => ({ dims := dims', gen := some g' }, .error e)
      | (g', (dims', .ok pts)) =>
        match Space.setTransformers dims' (Space.getTransformer dims) with
        | .error e => ({ dims := dims', gen := some g' }, .error e)
        | .ok dims'' => ({ dims := dims'', gen := some g' }, .ok (Opt.fresh A cfg rng (some pts)))

/-- `copy`, optimizer.py:307-333: a new optimizer on the same dimension and generator objects (without
the model queue limit; the other arguments passed the checks when the original was built), which is
then told the whole history (and fitted, if enough of it). -/
def Opt.copy [LinearOrder F] (A : Arith F) (W : World F M R G) (sh : Shared F G) (s : Opt F M R)
    (rng : R) : Shared F G × Except PyErr (Opt F M R) :=
  match Opt.init A W sh { s.cfg with queueSize := none } rng with
  | (sh, .error e) => (sh, .error e)
  | (sh, .ok o) =>
    let o := { o with
      initialSamples := s.initialSamples
      gains := match s.gains with
        | some g => some g
        | none => o.gains }
    if s.Xi.isEmpty then (sh, .ok o)
    else match tellCore A W sh.dims o (.lst s.Xi) (.seq s.yi) true with
      | (_, .error e) => (sh, .error e)
      | (o, .ok _) => (sh, .ok o)

/-- `ask(n_points, strategy)`, optimizer.py:335-421.  When the copy or the loop raises, only the random
state has changed. -/
def askMany [LinearOrder F] (A : Arith F) (W : World F M R G) (sh : Shared F G) (s : Opt F M R)
    (n : ℤ) (strat : Strategy) : Shared F G × Opt F M R × Except PyErr (List (Point F)) :=
  if ¬ 0 < n then (sh, s, .error .valueError)
  else if strat = .other then (sh, s, .error .valueError)
  else
    match cached s n.toNat strat with
    | some X => (sh, s, .ok X)
    | none =>
      let (rng, r) := W.seed s.rng
      let s := { s with rng := rng }
      match Opt.copy A W sh s r with
      | (sh, .error e) => (sh, s, .error e)
      | (sh, .ok o) =>
        match liarLoop A W sh.dims strat n.toNat o with
        | (_, .error e) => (sh, s, .error e)
        | (_, .ok X) => (sh, { s with cache := some ((n.toNat, strat), X) }, .ok X)
where
  /-- `self.cache_[(n_points, strategy)]`; the dict has at most one entry -/
  cached (s : Opt F M R) (n : Nat) (strat : Strategy) : Option (List (Point F)) :=
    match s.cache with
    | some (k, X) => if k = (n, strat) then some X else none
    | none => none

/-- `update_next`, optimizer.py:653-661.  The copy uses the very random state object of the original
(`random_state=self.rng`), so the draws made by the copy advance it. -/
def updateNext [LinearOrder F] (A : Arith F) (W : World F M R G) (sh : Shared F G) (s : Opt F M R) :
    Shared F G × Opt F M R × Except PyErr Unit :=
  let s := { s with cache := none }
  match s.nextX with
  | none => (sh, s, .ok ())
  | some _ =>
    match Opt.copy A W sh s s.rng with
    | (sh, .error e) => (sh, s, .error e)
    | (sh, .ok o) =>
      match o.nextX with
      | none => (sh, { s with rng := o.rng }, .error .attributeError)
      | some x => (sh, { s with rng := o.rng, nextX := some x }, .ok ())

/-- A call of a public method.  (optimizer.py:335, 455, 653, 663) -/
inductive Op (F : Type) where
  | ask
  | askMany (n : ℤ) (strat : Strategy)
  | tell (x : XArg F) (y : YArg F) (fit : Bool)
  | updateNext
  | getResult

/-- What a public method returns.  (optimizer.py:335, 455, 653, 663) -/
inductive Out (F M : Type) where
  | point (p : Point F)
  | points (ps : List (Point F))
  | result (r : Result F M)
  | none

/-- One call on an optimizer: new shared objects, new state, outcome.  (optimizer.py:307-676) -/
def step [LinearOrder F] (A : Arith F) (W : World F M R G) (sh : Shared F G) (s : Opt F M R) :
    Op F → Shared F G × Opt F M R × Except PyErr (Out F M)
  | .ask =>
    let (s, r) := askOne A W sh.dims s
    (sh, s, do let p ← r; .ok (.point p))
  | .askMany n strat =>
    let (sh, s, r) := Skopt.askMany A W sh s n strat
    (sh, s, do let ps ← r; .ok (.points ps))
  | .tell x y fit =>
    let (s, r) := Skopt.tell A W sh.dims s x y fit
    (sh, s, do let p ← r; .ok (.result p))
  | .updateNext =>
    let (sh, s, r) := Skopt.updateNext A W sh s
    (sh, s, do r; .ok .none)
  | .getResult => (sh, s, do let p ← Skopt.getResult s; .ok (.result p))

/-- A sequence of calls; exceptions are caught by the caller, who goes on.  The outcomes are collected in
order.  (any sequence of the methods of optimizer.py:307-676) -/
def runOps [LinearOrder F] (A : Arith F) (W : World F M R G) : Shared F G → Opt F M R → List (Op F) →
    Shared F G × Opt F M R × List (Except PyErr (Out F M))
  | sh, s, [] => (sh, s, [])
  | sh, s, op :: ops =>
    let (sh, s, r) := step A W sh s op
    let (sh, s, rs) := runOps A W sh s ops
    (sh, s, r :: rs)

/-- `run(func, n_iter)`, optimizer.py:642-651: `ask`, evaluate, `tell`, `n_iter` times.  The objective is
given the points evaluated before in this call (it may be noisy or keep a state) and may raise.  The first component of
the result is the list of points at which the objective was evaluated. -/
def Opt.run [LinearOrder F] (A : Arith F) (W : World F M R G) (dims : List (Dim F))
    (func : List (Point F) → Point F → Except PyErr (YArg F)) : Nat → Opt F M R →
    List (Point F) × Opt F M R × Except PyErr (Result F M)
  | 0, s => ([], s, Skopt.getResult s)
  | n + 1, s =>
    match askOne A W dims s with
    | (s, .error e) => ([], s, .error e)
    | (s, .ok x) =>
      match func [] x with
      | .error e => ([x], s, .error e)
      | .ok y =>
        match Skopt.tell A W dims s (.lst x) y true with
        | (s, .error e) => ([x], s, .error e)
        | (s, .ok _) =>
          let (xs, s, r) := Opt.run A W dims (fun done => func (x :: done)) n s
          (x :: xs, s, r)

end Skopt

import Verif.Model.Minimize
import Verif.Model.Utils

/-!
# `BayesSearchCV`: `/repo/skopt/searchcv.py`

Modelled: the check of the search spaces, the construction of one optimizer per subspace, the search loop
with batches and callbacks, `total_iterations`.  Not modelled: everything inherited from scikit-learn's
`BaseSearchCV` (cloning, cross-validation, refitting, `cv_results_`); its `evaluate_candidates` is the
parameter `Evaluator`.  Values of a search space are `Dimension` objects.  The initial point generator is
given by name, so that every optimizer has its own.
-/

namespace Skopt

variable {F M R G : Type}

/-- A parameter setting handed to scikit-learn: `point_asdict(search_space, p)`, searchcv.py:406. -/
abbrev Candidate (F : Type) := List (String × Val F)

/-- The search space of one element: parameter names and dimensions.  (skopt/searchcv.py:320-352) -/
abbrev SearchDict (F : Type) := List (String × Dim F)

/-- An element of a list of search spaces: a dict, or a tuple `(dict, n_iter)`, searchcv.py:329-352. -/
inductive SearchElem (F : Type) where
  | plain (space : SearchDict F)
  | withIter (space : SearchDict F) (nIter : ℤ)

/-- The argument `search_spaces`: a dict or a list, searchcv.py:310-361. -/
inductive SearchSpaces (F : Type) where
  | dict (space : SearchDict F)
  | list (elems : List (SearchElem F))

/-- `search_space[0]` of a tuple, the dict itself otherwise, searchcv.py:490-492. -/
def SearchElem.space : SearchElem F → SearchDict F
  | .plain s => s
  | .withIter s _ => s

/-- The number of iterations of an element, searchcv.py:502-505. -/
def SearchElem.iters (nIter : ℤ) : SearchElem F → ℤ
  | .plain _ => nIter
  | .withIter _ n => n

/-- The list form, searchcv.py:478-480. -/
def SearchSpaces.elems : SearchSpaces F → List (SearchElem F)
  | .dict s => [.plain s]
  | .list es => es

/-- `_check_search_space`, searchcv.py:310-361; `len` of a dict is its number of keys. -/
def checkSearchSpaces : SearchSpaces F → Except PyErr Unit
  | .dict s => if s.length = 0 then .error .valueError else .ok ()
  | .list es =>
    if es.length = 0 then .error .valueError
    else if es.all (fun e => match e with
        | .plain _ => true
        | .withIter _ n => decide (0 ≤ n)) then .ok ()
    else .error .valueError

/-- `total_iterations`, searchcv.py:414-435: iterates `self.search_spaces`; for a dict these are its
keys, none of which is a tuple. -/
def totalIterations (nIter : ℤ) : SearchSpaces F → ℤ
  | .dict s => s.foldl (fun t _ => t + nIter) 0
  | .list es => es.foldl (fun t e => t + e.iters nIter) 0

/-- `np.array(v).item()`, searchcv.py:403: only arrays with one element can be converted. -/
def Val.item : Val F → Except PyErr (Val F)
  | .seq [v] => v.item
  | .seq _ => .error .valueError
  | v => .ok v

/-- `-score`, searchcv.py:412 (as `0 - score`; differs at most in the sign of zero). -/
def Flt.neg (A : Arith F) : Flt F → Flt F
  | .fin x => .fin (A.sub (A.ofInt 0) x)
  | .nan => .nan

/-- `xs[-k:]`, searchcv.py:411 (`xs[-0:]` is the whole list). -/
def lastK {α : Type} (xs : List α) (k : Nat) : List α :=
  if k = 0 then xs else xs.drop (xs.length - k)

/-- `evaluate_candidates(params)["mean_test_score"]`, searchcv.py:408-411: scikit-learn returns the scores
of *all* candidates evaluated so far.  The argument lists them, those of the current call last. -/
abbrev Evaluator (F : Type) := List (Candidate F) → Except PyErr (List (Flt F))

/-- The state of the search of one subspace, searchcv.py:499-520. -/
structure SearchState (F M R G : Type) where
  shared : Shared F G
  opt : Opt F M R
  /-- all candidates evaluated so far, in all subspaces -/
  cands : List (Candidate F)
  /-- the batches evaluated in this subspace -/
  batches : List (List (Candidate F))
  /-- all results handed to the callbacks so far -/
  hist : List (Result F M)
  /-- the local variable `optim_result` -/
  last : Option (Result F M)
  /-- the calls of callbacks in this subspace -/
  calls : List (Event F M)

/-- `_step`, searchcv.py:396-412. -/
def searchStep [LinearOrder F] (A : Arith F) (W : World F M R G) (ev : Evaluator F)
    (space : SearchDict F) (st : SearchState F M R G) (n : ℤ) :
    SearchState F M R G × Except PyErr (Result F M) :=
  match askMany A W st.shared st.opt n .clMin with
  | (sh, o, .error e) => ({ st with shared := sh, opt := o }, .error e)
  | (sh, o, .ok pts) =>
    match mapE (mapE Val.item) pts with
    | .error e => ({ st with shared := sh, opt := o }, .error e)
    | .ok params =>
      let dicts := params.map (pointAsdict space)
      let st' : SearchState F M R G := { st with
        shared := sh, opt := o, cands := st.cands ++ dicts, batches := st.batches ++ [dicts] }
      match ev (st.cands ++ dicts) with
      | .error e => (st', .error e)
      | .ok scores =>
        let told := tell A W sh.dims o (.lst (params.map Val.seq))
          (.seq ((lastK scores params.length).map fun f => .num (Flt.neg A f))) true
        ({ st' with opt := told.1 }, told.2)

/-- `while n_iter > 0: …`, searchcv.py:508-519.  The first argument bounds the number of rounds; the
caller passes `n_iter`, which suffices (`searchLoop_fuel`): every round decreases `n_iter` by `n_points ≥ 1`,
or `ask` refuses `n_points ≤ 0`. -/
def searchLoop [LinearOrder F] (A : Arith F) (W : World F M R G) (ev : Evaluator F)
    (cbs : List (Callback F M)) (space : SearchDict F) (nPoints : ℤ) :
    Nat → ℤ → SearchState F M R G → SearchState F M R G × Except PyErr Unit
  | 0, _, st => (st, .ok ())
  | fuel + 1, n, st =>
    if ¬ 0 < n then (st, .ok ())
    else match searchStep A W ev space st (min n nPoints) with
      | (st, .error e) => (st, .error e)
      | (st, .ok r) =>
        let t := evalCallbacks (st.hist ++ [r]) r cbs 0 false
        let st := { st with hist := st.hist ++ [r], last := some r, calls := st.calls ++ t.1 }
        match t.2 with
        | .error e => (st, .error e)
        | .ok true => (st, .ok ())
        | .ok false => searchLoop A W ev cbs space nPoints fuel (n - nPoints) st

/-- What the search of one subspace leaves behind: the optimizer (`optimizers_`), the batches, the calls
of callbacks and the entry of `optimizer_results_`.  (searchcv.py:493-520) -/
structure SubSearch (F M R G : Type) where
  final : SearchState F M R G
  result : Result F M

/-- `for search_space, optimizer in zip(search_spaces, optimizers)`, searchcv.py:499-520.  All optimizers
hold the same random state object (searchcv.py:484-485), so its state is passed on.  `optim_result` is a
local variable of the whole method: it keeps its value from the previous subspace. -/
def searchAll [LinearOrder F] (A : Arith F) (W : World F M R G) (ev : Evaluator F)
    (cbs : List (Callback F M)) (nIter nPoints : ℤ) :
    List (SearchElem F × Shared F G × Opt F M R) → R → List (Candidate F) → List (Result F M) →
    Option (Result F M) → List (SubSearch F M R G) × Except PyErr Unit
  | [], _, _, _, _ => ([], .ok ())
  | (e, sh, o) :: rest, rng, cands, hist, last =>
    let n := e.iters nIter
    match searchLoop A W ev cbs e.space nPoints n.toNat n
        { shared := sh, opt := { o with rng := rng }, cands := cands, batches := [], hist := hist,
          last := last, calls := [] } with
    | (_, .error err) => ([], .error err)
    | (st, .ok _) =>
      match st.last with
      | none => ([], .error .unboundLocalError)
      | some r =>
        let out := searchAll A W ev cbs nIter nPoints rest st.opt.rng st.cands st.hist st.last
        (⟨st, r⟩ :: out.1, out.2)

/-- `dimension.name = …` for a dimension without a name, searchcv.py:388-392. -/
def Dim.orName (d : Dim F) (n : String) : Dim F :=
  match d.name with
  | some _ => d
  | none => match d with
    | .real r => .real { r with name := some n }
    | .int r => .int { r with name := some n }
    | .cat c => .cat { c with name := some n }

/-- `_make_optimizer`, searchcv.py:385-394. -/
def makeOptimizer (A : Arith F) (W : World F M R G) (cfg : Config) (gen : Option G)
    (space : SearchDict F) (rng : R) : Except PyErr (Shared F G × Opt F M R) := do
  let dims ← dimensionsAslist space
  match Opt.init A W ⟨dims, gen⟩ cfg rng with
  | (_, .error e) => .error e
  | (sh, .ok o) => .ok ({ sh with dims := List.zipWith Dim.orName sh.dims (sortedKeys space) }, o)

/-- The loop building the optimizers, searchcv.py:488-493. -/
def makeOptimizers (A : Arith F) (W : World F M R G) (cfg : Config) (gen : Option G) :
    List (SearchElem F) → R → Except PyErr (List (SearchElem F × Shared F G × Opt F M R) × R)
  | [], rng => .ok ([], rng)
  | e :: es, rng => do
    let (sh, o) ← makeOptimizer A W cfg gen e.space rng
    let (rest, rng) ← makeOptimizers A W cfg gen es o.rng
    .ok ((e, sh, o) :: rest, rng)

/-- The constructor arguments used by the search, searchcv.py:281-308. -/
structure SearchArgs (F M G : Type) where
  spaces : SearchSpaces F
  opt : Args
  gen : Option G
  nIter : ℤ := 50
  nPoints : ℤ := 1
  callback : CbArg F M := .none

/-- Construction and `fit`, searchcv.py:291-308, 438-520: the completed subspaces and the outcome. -/
def bayesSearch [LinearOrder F] (A : Arith F) (W : World F M R G) (ev : Evaluator F)
    (a : SearchArgs F M G) (rng : R) : List (SubSearch F M R G) × Except PyErr Unit :=
  match (do
    checkSearchSpaces a.spaces
    let cbs ← checkCallback a.callback
    let cfg ← mkConfig a.opt
    let os ← makeOptimizers A W cfg a.gen a.spaces.elems rng
    .ok (cbs, os)) with
  | .error e => ([], .error e)
  | .ok (cbs, os, rng) => searchAll A W ev cbs a.nIter a.nPoints os rng [] [] none

end Skopt

import Verif.Basic

/-!
# `cook_initial_point_generator` (`/repo/skopt/utils.py:408-450`) and `set_params` (`/repo/skopt/sampler/base.py:8-26`)

Generators as objects with attributes; what they generate is in the models of the single generators.
`str.lower` is taken on ASCII letters: no other letter becomes one of those occurring in the names.
-/

namespace Skopt

/-- The classes of generators, skopt/sampler/__init__.py; `custom` is any other subclass of `InitialPointGenerator`.
(skopt/utils.py:437-446) -/
inductive GenKind where
  | sobol | halton | hammersly | lhs | grid | custom
  deriving DecidableEq, Repr

/-- Values of attributes.  (skopt/sampler/base.py:25-26) -/
inductive GVal where
  | str (s : String)
  | int (n : ℤ)
  | bool (b : Bool)
  | none
  | obj (n : ℕ)
  deriving DecidableEq, Repr

/-- An object: its class and its attributes.  (skopt/sampler/base.py:5-28) -/
structure Gen where
  kind : GenKind
  attrs : List (String × GVal)

/-- The attributes after construction without arguments: sobol.py:90-102, halton.py:37-40, hammersly.py:39-42,
lhs.py:43-47, grid.py:77-81 (tables and counters used internally are left out). -/
def GenKind.defaults : GenKind → List (String × GVal)
  | .sobol => [("skip", .int 0), ("randomize", .bool true)]
  | .halton | .hammersly => [("primes", .none), ("min_skip", .int 0), ("max_skip", .int 0)]
  | .lhs => [("lhs_type", .str "classic"), ("criterion", .str "maximin"), ("iterations", .int 1000)]
  | .grid => [("border", .str "exclude"), ("use_full_layout", .bool true), ("append_border", .str "only")]
  | .custom => []

/-- `set_params`, sampler/base.py:9-28: sets whatever is given. -/
def Gen.setParams (g : Gen) (params : List (String × GVal)) : Gen :=
  { g with attrs := params.foldl (fun as p => dictSet as p.1 p.2) g.attrs }

/-- The `generator` argument, utils.py:408-434. -/
inductive GenArg where
  | none
  | str (s : String)
  | gen (g : Gen)
  | other

/-- The class chosen by a name in lower case, utils.py:424-448: `some none` for "random". -/
def generatorOf (s : String) : Option (Option GenKind) :=
  if s ∉ ["sobol", "halton", "hammersly", "lhs", "random", "grid"] then Option.none
  else if s = "sobol" then some (some .sobol)
  else if s = "halton" then some (some .halton)
  else if s = "hammersly" then some (some .hammersly)
  else if s = "lhs" then some (some .lhs)
  else if s = "grid" then some (some .grid)
  else some Option.none

/-- `cook_initial_point_generator`, utils.py:408-450. -/
def cookGenerator (arg : GenArg) (params : List (String × GVal)) : Except PyErr (Option Gen) :=
  match arg with
  | .none => .ok Option.none
  | .str s =>
    match generatorOf s.toLower with
    | Option.none => .error .valueError
    | some Option.none => .ok Option.none
    | some (some k) => .ok (some (Gen.setParams ⟨k, k.defaults⟩ params))
  | .gen g => .ok (some (g.setParams params))
  | .other => .error .valueError

end Skopt

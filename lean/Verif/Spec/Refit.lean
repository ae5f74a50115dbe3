import Verif.Model.SearchCV
import Verif.Lemmas.Generator

/-!
# Specification for C123: what a fit of `BayesSearchCV` does to the search spaces of its caller
-/

namespace Skopt

variable {F M R G : Type}

/-- A search space whose dimensions, in the alphabetical order of the keys, have become `dims`. -/
def dictAfter (space : SearchDict F) (dims : List (Dim F)) : SearchDict F :=
  space.map fun p => (p.1, match dictGet ((sortedKeys space).zip dims) p.1 with
    | .ok d => d
    | .error _ => p.2)

/-- The same for an element of a list of search spaces. -/
def elemAfter (e : SearchElem F) (dims : List (Dim F)) : SearchElem F :=
  match e with
  | .plain s => .plain (dictAfter s dims)
  | .withIter s n => .withIter (dictAfter s dims) n

/-- The argument `search_spaces` after a completed fit: the optimizers worked on the dimension objects of the
caller (searchcv.py:385-392), which are now as the optimizers left them. -/
def spacesAfter (spaces : SearchSpaces F) (subs : List (SubSearch F M R G)) : SearchSpaces F :=
  match spaces, subs with
  | .dict s, sub :: _ => .dict (dictAfter s sub.final.shared.dims)
  | .dict s, [] => .dict s
  | .list es, subs => .list (List.zipWith elemAfter es (subs.map fun sub => sub.final.shared.dims))

/-- One call of `fit`: the scores of its data, the settings (their search spaces are replaced by the shared
ones) and the random state. -/
structure FitCall (F M R G : Type) where
  ev : Evaluator F
  args : SearchArgs F M G
  rng : R

/-- The outcome of a call of `fit` with the given search spaces. -/
def FitCall.run [LinearOrder F] (A : Arith F) (W : World F M R G) (f : FitCall F M R G)
    (spaces : SearchSpaces F) : List (SubSearch F M R G) × Except PyErr Unit :=
  bayesSearch A W f.ev { f.args with spaces := spaces } f.rng

/-- The search spaces after several fits with them, one after the other. -/
def afterFits [LinearOrder F] (A : Arith F) (W : World F M R G) (spaces : SearchSpaces F) :
    List (FitCall F M R G) → SearchSpaces F
  | [] => spaces
  | f :: fs => afterFits A W (spacesAfter spaces (f.run A W spaces).1) fs

/-- All these fits complete. -/
def AllComplete [LinearOrder F] (A : Arith F) (W : World F M R G) (spaces : SearchSpaces F) :
    List (FitCall F M R G) → Prop
  | [] => True
  | f :: fs => (f.run A W spaces).2 = .ok () ∧ AllComplete A W (spacesAfter spaces (f.run A W spaces).1) fs

/-- A search space with every dimension changed. -/
def SearchSpaces.mapDims (f : String → Dim F → Dim F) : SearchSpaces F → SearchSpaces F
  | .dict s => .dict (s.map fun p => (p.1, f p.1 p.2))
  | .list es => .list (es.map fun e => match e with
    | .plain s => .plain (s.map fun p => (p.1, f p.1 p.2))
    | .withIter s n => .withIter (s.map fun p => (p.1, f p.1 p.2)) n)

/-- Initial point generators do not look at the names of the dimensions. -/
def IgnoresNames (W : World F M R G) : Prop :=
  ∀ g dims (names : List String) n r, dims.length = names.length → (∀ d ∈ dims, HasLegalTransform d) →
    (W.generate g (List.zipWith Dim.orName dims names) n r).1 = (W.generate g dims n r).1 ∧
    (W.generate g (List.zipWith Dim.orName dims names) n r).2.2 = (W.generate g dims n r).2.2

end Skopt

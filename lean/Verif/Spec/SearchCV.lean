import Verif.Model.SearchCV
import Verif.Spec.Space
import Verif.Spec.Minimize

/-!
# Specification vocabulary for `BayesSearchCV`
-/

namespace Skopt

variable {F M R G : Type}

/-- The scores of candidates evaluated one after the other, when `before` were evaluated already; `sc` gives
the score of a candidate (it may depend on what was evaluated before). -/
def scoresFrom (sc : List (Candidate F) → Candidate F → Flt F) :
    List (Candidate F) → List (Candidate F) → List (Flt F)
  | _, [] => []
  | before, c :: cs => sc before c :: scoresFrom sc (before ++ [c]) cs

/-- scikit-learn reports, for all candidates evaluated so far and in their order, their scores. -/
def Faithful (ev : Evaluator F) (sc : List (Candidate F) → Candidate F → Flt F) : Prop :=
  ∀ cs scores, ev cs = .ok scores → scores = scoresFrom sc [] cs

/-- No callback asked to stop after the last round of this subspace. -/
def SubSearch.Unstopped (cbs : List (Callback F M)) (s : SubSearch F M R G) : Prop :=
  ¬ Stops cbs s.final.hist

/-- The candidates evaluated in a subspace. -/
def SubSearch.evaluated (s : SubSearch F M R G) : List (Candidate F) := s.final.batches.flatten

/-- All batches have `k` elements, except that the last may have fewer (but not none). -/
def Batched {α : Type} (k : ℤ) (bs : List (List α)) : Prop :=
  ∀ pre b rest, bs = pre ++ b :: rest →
    0 < b.length ∧ (b.length : ℤ) ≤ k ∧ (rest ≠ [] → (b.length : ℤ) = k)

/-- Two dimensions admit the same values. -/
def SameRange [LinearOrder F] (d d' : Dim F) : Prop := ∀ v, Within d v ↔ Within d' v

/-- The initial point generator leaves the admitted values of the dimensions as they are. -/
def KeepsRanges [LinearOrder F] (W : World F M R G) : Prop :=
  ∀ g dims n r, List.Forall₂ SameRange dims (W.generate g dims n r).2.1

/-- `c` assigns a value to exactly the keys of the search space, each within the dimension of its key. -/
def ProperCandidate [LinearOrder F] (space : SearchDict F) (c : Candidate F) : Prop :=
  (c.map Prod.fst).Perm (space.map Prod.fst) ∧
  ∀ k d v, (k, d) ∈ space → (k, v) ∈ c → Within d v

end Skopt

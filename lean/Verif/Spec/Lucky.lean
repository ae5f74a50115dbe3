import Verif.Props.RandomSearch
import Verif.Props.SamplingMany
import Verif.Props.Lbfgs
import Verif.Props.BestCandidate

/-!
# C139: how good a suggestion found among random candidates is: specification
-/

namespace Skopt

variable {M R G : Type}

/-- The numbers behind `n` candidates as `rvs(n_samples=n)` receives them: for every dimension those of all candidates. -/
noncomputable def columnDraws {n d : Nat} (ω : Fin n → Fin d → ℝ) : List (RawDraw ℝ) :=
  List.ofFn fun i => rawsOf (List.ofFn fun j => ω j i)

/-- A `tell` that starts with the random state `r` returns and fits the surrogate `m`, the smallest value observed is
`best`, and the candidates sampled after the fit are made from the numbers `ω`. -/
structure Candidates (W : World ℝ M R G) (dims : List (Dim ℝ)) (s : Opt ℝ M R) (x : XArg ℝ) (y : YArg ℝ) (m : M)
    (best : Flt ℝ) (r : R) (ω : Fin s.cfg.nPoints → Fin dims.length → ℝ) : Prop where
  returns : ∃ res, (tell exact W dims { s with rng := r } x y true).2 = .ok res
  fitted : (tell exact W dims { s with rng := r } x y true).1.nInit ≤ 0 ∧
    (tell exact W dims { s with rng := r } x y true).1.models.getLast? = some m
  incumbent : (do let ys ← flatNums (tell exact W dims { s with rng := r } x y true).1.yi; fltMin ys) = .ok best
  draws : ∀ X y, (W.draws (W.fit r X y).1 dims s.cfg.nPoints).2 = columnDraws ω

/-- The acquisition function `c` gives the value `a` of its encoding to every point. -/
def Rates (W : World ℝ M R G) (m : M) (best : Flt ℝ) (c : AcqFunc) (a : List (Val ℝ) → ℝ) : Prop :=
  ∀ X, W.acquisition m X best c = .ok (X.map fun row => .fin (a row))

/-- The points whose value is at most `v` (the better ones, as acquisition functions are minimised). -/
def atMost (dims : List (Dim ℝ)) (a : List (Val ℝ) → ℝ) (v : ℝ) : Set (Point ℝ) :=
  {p | ∃ row, Space.transform exact dims [p] = .ok [row] ∧ a row ≤ v}

/-- Started within the bounds, L-BFGS stays within them, does not go up and reports the value of the point it returns. -/
def Improves (W : World ℝ M R G) (dims : List (Dim ℝ)) (m : M) (best : Flt ℝ) (c : AcqFunc) (a : List (Val ℝ) → ℝ) : Prop :=
  ∀ r row z w, InBox (Space.transformedBounds exact dims) row → (W.lbfgs r m best c row).2 = .ok (z, w) →
    InBox (Space.transformedBounds exact dims) z ∧ a z ≤ a row ∧ w = .fin (a z)

/-- The surrogate predicts the mean `m row` and the standard deviation `sd row` at every encoded point. -/
def PredictsAt (predict : List (List (Val ℝ)) → Pred) (m sd : List (Val ℝ) → ℝ) : Prop :=
  ∀ X, predict X = ⟨X.map m, X.map sd, 1, 1⟩

/-- The points about which the surrogate is uncertain and where it expects an improvement below `goal` of at least `e`. -/
def Promising (dims : List (Dim ℝ)) (m sd : List (Val ℝ) → ℝ) (goal e : ℝ) : Set (Point ℝ) :=
  {p | ∃ row, Space.transform exact dims [p] = .ok [row] ∧ 0 < sd row ∧ e ≤ expectedImprovement goal (m row) (sd row)}

end Skopt

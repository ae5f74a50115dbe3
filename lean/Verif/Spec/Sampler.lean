import Mathlib.Data.Nat.Digits.Defs
import Mathlib.Data.Real.Basic
import Mathlib.Order.Bounds.Defs

/-!
# Specification vocabulary for the samplers
-/

namespace Skopt

/-- The radical inverse of `i` in base `b`: the digits of `i` mirrored at the radix point. -/
noncomputable def radicalInverse (b i : Nat) : ℝ :=
  (Nat.digits b i).foldr (fun (d : Nat) (acc : ℝ) => ((d : ℝ) + acc) / b) 0

/-- `x` lies in the `j`-th of the `n` equal strata of the unit interval. -/
def InStratum (n j : Nat) (x : ℝ) : Prop := (j : ℝ) / n ≤ x ∧ x < ((j : ℝ) + 1) / n

/-- Every one of the `xs.length` strata contains exactly one entry of `xs` (at a unique
position). -/
def Stratified (xs : List ℝ) : Prop :=
  ∀ j < xs.length, ∃! i : Nat, ∃ x, xs[i]? = some x ∧ InStratum xs.length j x

/-- Column `d` of a matrix given by rows. -/
def column (d : Nat) (M : List (List ℝ)) : List ℝ := M.filterMap (·[d]?)

/-- The distances of all pairs of different rows of a design. -/
def pairDists {F : Type} (dist : List F → List F → F) (M : List (List F)) : Set F :=
  { x | ∃ i j : Nat, i < j ∧ ∃ a b, M[i]? = some a ∧ M[j]? = some b ∧ x = dist a b }

/-- The absolute values of the off-diagonal entries of a matrix. -/
def offDiagonal (r : List (List ℝ)) : Set ℝ :=
  { x | ∃ i j : Nat, i ≠ j ∧ ∃ row y, r[i]? = some row ∧ row[j]? = some y ∧ x = |y| }

end Skopt

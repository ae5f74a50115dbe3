import Mathlib.Data.Real.Basic
import Verif.Model.Space

/-!
# Boxes and their fair share of points

A point `p` of a design lies in a box if every coordinate lies in the interval of that coordinate.
-/

namespace Skopt

/-- `p` lies in the box `[box[0].1, box[0].2) × [box[1].1, box[1].2) × …`. -/
def InRegion (box : List (ℝ × ℝ)) (p : List ℝ) : Prop :=
  List.Forall₂ (fun (I : ℝ × ℝ) (x : ℝ) => I.1 ≤ x ∧ x < I.2) box p

open Classical in
/-- How many rows of the matrix lie in the box. -/
noncomputable def regionCount (box : List (ℝ × ℝ)) (M : List (List ℝ)) : Nat :=
  (M.filter fun p => decide (InRegion box p)).length

/-- The volume of the box. -/
def regionVolume (box : List (ℝ × ℝ)) : ℝ := (box.map fun I => I.2 - I.1).prod

open Classical in
/-- How many of the points of a space of numeric dimensions lie in the box. -/
noncomputable def spaceRegionCount (box : List (ℝ × ℝ)) (pts : List (Point ℝ)) : Nat :=
  (pts.filter fun p => decide (∃ xs : List ℝ, p = xs.map Val.num ∧ InRegion box xs)).length

/-- Which part of the space (of `Real` dimensions) the box is: the product of the parts of the ranges. -/
noncomputable def spaceShare (ds : List (RealDim ℝ)) (box : List (ℝ × ℝ)) : ℝ :=
  (List.zipWith (fun (d : RealDim ℝ) (I : ℝ × ℝ) => (I.2 - I.1) / (d.high - d.low)) ds box).prod

/-- The box lies in the space. -/
def BoxOf (ds : List (RealDim ℝ)) (box : List (ℝ × ℝ)) : Prop :=
  List.Forall₂ (fun (d : RealDim ℝ) (I : ℝ × ℝ) => d.low ≤ I.1 ∧ I.1 ≤ I.2 ∧ I.2 ≤ d.high) ds box

end Skopt

import Verif.Model.GaussianProcess
import Verif.Lemmas.LiveRun
import Verif.Spec.Units

/-!
# C138: writing the parameters down in another way: specification
-/

namespace Skopt

variable {d : Nat}

/-- The parameters written down in another way: in another order (coordinate `i` is the former coordinate `perm i`),
counted in other units, from another zero and possibly in the opposite direction (`scale i < 0`). -/
structure Rewriting (d : Nat) where
  perm : Equiv.Perm (Fin d)
  scale : Fin d → ℝ
  shift : Fin d → ℝ
  scale_ne : ∀ i, scale i ≠ 0

namespace Rewriting

/-- A point in the new coordinates. -/
def point (ρ : Rewriting d) (x : Fin d → ℝ) : Fin d → ℝ := fun i => ρ.scale i * x (ρ.perm i) + ρ.shift i

/-- Partial derivatives with respect to the new coordinates (chain rule). -/
noncomputable def slope (ρ : Rewriting d) (g : Fin d → ℝ) : Fin d → ℝ := fun i => g (ρ.perm i) / ρ.scale i

/-- Length scales in the new units. -/
def lengths (ρ : Rewriting d) (ls : Fin d → ℝ) : Fin d → ℝ := fun i => |ρ.scale i| * ls (ρ.perm i)

/-- The same kernel with its length scales (for the Hamming kernel: weights) where the coordinates are now. -/
def kernel (ρ : Rewriting d) : Kernel d → Kernel d
  | .rbf ls => .rbf (ρ.lengths ls)
  | .matern ls nu => .matern (ρ.lengths ls) nu
  | .hamming ls => .hamming fun i => ls (ρ.perm i)
  | .sum a b => .sum (ρ.kernel a) (ρ.kernel b)
  | .prod a b => .prod (ρ.kernel a) (ρ.kernel b)
  | .expo a p => .expo (ρ.kernel a) p
  | k => k

/-- Kernels with one length scale for all coordinates can follow changes of order, zero and direction, but not of
units; the linear kernel cannot follow changes of zero. -/
def Suits (ρ : Rewriting d) : Kernel d → Prop
  | .rq _ _ => ∀ i, |ρ.scale i| = 1
  | .expSine _ _ => ∀ i, |ρ.scale i| = 1
  | .dot _ => ∀ i, |ρ.scale i| = 1 ∧ ρ.shift i = 0
  | .sum a b => ρ.Suits a ∧ ρ.Suits b
  | .prod a b => ρ.Suits a ∧ ρ.Suits b
  | .expo a _ => ρ.Suits a
  | _ => True

/-- Directions are kept where the exponential kernel (Matérn with `nu = 1/2`) is used. -/
def Directed (ρ : Rewriting d) : Kernel d → Prop
  | .matern _ .half => ∀ i, 0 < ρ.scale i
  | .sum a b => ρ.Directed a ∧ ρ.Directed b
  | .prod a b => ρ.Directed a ∧ ρ.Directed b
  | .expo a _ => ρ.Directed a
  | _ => True

/-- A prediction in the new coordinates: only the gradients look different. -/
noncomputable def prediction (ρ : Rewriting d) (p : Prediction d) : Prediction d :=
  { p with meanGrad := p.meanGrad.map ρ.slope, stdGrad := p.stdGrad.map ρ.slope }

end Rewriting

/-- The encoded coordinates in another order, those marked counted downwards from one. -/
def Rewriting.turning (σ : Equiv.Perm (Fin d)) (turned : Fin d → Bool) : Rewriting d where
  perm := σ
  scale i := if turned i then -1 else 1
  shift i := if turned i then 1 else 0
  scale_ne i := by split <;> norm_num

/-- `d'` describes the same normalized parameter as `d`, a value `v` of `d` being called `f v` in `d'`; `turned` if
large values of the one are small values of the other. -/
inductive Described : Bool → Dim ℝ → Dim ℝ → (Val ℝ → Val ℝ) → Prop
  /-- the same dimension -/
  | same {d : Dim ℝ} (hd : d.tkind = .normalize) (hw : Workable [d]) : Described false d d id
  /-- a `Real` counted downwards (loss instead of gain) -/
  | real {lo hi : ℝ} (b : ℝ) (nm : Option String) (h : lo < hi) :
      Described true (.real ⟨lo, hi, .uniform, b, .normalize, nm, id⟩)
        (.real ⟨-hi, -lo, .uniform, b, .normalize, nm, id⟩) (onNum fun x => -x)
  /-- a log-uniform `Real` replaced by its reciprocal (rate and time constant) -/
  | log {lo hi b : ℝ} (nm : Option String) (h0 : 0 < lo) (h : lo < hi) (hb : 1 < b) :
      Described true (.real ⟨lo, hi, .logUniform, b, .normalize, nm, id⟩)
        (.real ⟨hi⁻¹, lo⁻¹, .logUniform, b, .normalize, nm, id⟩) (onNum fun x => x⁻¹)
  /-- an `Integer` counted downwards -/
  | int {l h : ℤ} (b : ℝ) (nm : Option String) (hlh : l < h) :
      Described true (.int ⟨(l : ℝ), (h : ℝ), .uniform, b, .normalize, nm, id⟩)
        (.int ⟨((-h : ℤ) : ℝ), ((-l : ℤ) : ℝ), .uniform, b, .normalize, nm, id⟩) (onNum fun x => -x)

end Skopt

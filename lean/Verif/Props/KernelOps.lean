import Verif.Model.KernelOps
import Verif.Props.Kernels

/-!
# C86: arithmetic with kernels
-/

namespace Skopt

noncomputable section

variable {d : Nat}

/-- An arithmetic expression a user may write: kernels and numbers combined by sums, products, and powers of
kernels. -/
inductive KExpr (d : Nat) where
  | kernel (k : Kernel d)
  | number (c : ℝ)
  | add (a b : KExpr d)
  | mul (a b : KExpr d)
  | pow (a : KExpr d) (p : ℝ)

/-- The expression contains a kernel. -/
def KExpr.HasKernel : KExpr d → Prop
  | .kernel _ => True
  | .number _ => False
  | .add a b => a.HasKernel ∨ b.HasKernel
  | .mul a b => a.HasKernel ∨ b.HasKernel
  | .pow a _ => a.HasKernel

/-- Powers are taken of kernels only. -/
def KExpr.PowersOfKernels : KExpr d → Prop
  | .kernel _ => True
  | .number _ => True
  | .add a b => a.PowersOfKernels ∧ b.PowersOfKernels
  | .mul a b => a.PowersOfKernels ∧ b.PowersOfKernels
  | .pow a _ => a.PowersOfKernels ∧ a.HasKernel

/-- The covariance the user means: the same arithmetic on the covariances of the kernels. -/
def KExpr.covariance : KExpr d → (Fin d → ℝ) → (Fin d → ℝ) → ℝ
  | .kernel k, x, y => k.value x y
  | .number c, _, _ => c
  | .add a b, x, y => a.covariance x y + b.covariance x y
  | .mul a b, x, y => a.covariance x y * b.covariance x y
  | .pow a p, x, y => a.covariance x y ^ p

/-- What Python makes of the expression. -/
def KExpr.eval : KExpr d → Except PyErr (Operand d)
  | .kernel k => .ok (.kernel k)
  | .number c => .ok (.number c)
  | .add a b => do
      let u ← a.eval
      let v ← b.eval
      pyAdd u v
  | .mul a b => do
      let u ← a.eval
      let v ← b.eval
      pyMul u v
  | .pow a p => do
      let u ← a.eval
      pyPow u p

/-- `u` is what an expression with the given covariance should evaluate to. -/
def Represents (e : KExpr d) : Operand d → Prop
  | .kernel k => e.HasKernel ∧ ∀ x y, k.value x y = e.covariance x y
  | .number c => ¬ e.HasKernel ∧ ∀ x y, c = e.covariance x y
  | .foreign _ => False

/-- **C86 (covariance).** Every expression built from kernels and numbers with `+`, `*` (numbers on either side) and `**` evaluates; if
it contains a kernel the result is a kernel, and its covariance at any two points is the same arithmetic applied to the
covariances of the parts.

Missing: the gradient, which is not available for every expression (`C86_refuted_gradient`). -/
theorem C86_arithmetic_partial (e : KExpr d) (h : e.PowersOfKernels) : ∃ u, e.eval = .ok u ∧ Represents e u := by
  induction e with
  | kernel k => exact ⟨_, rfl, trivial, fun _ _ => rfl⟩
  | number c => exact ⟨_, rfl, id, fun _ _ => rfl⟩
  | add a b iha ihb =>
    obtain ⟨u, hu, ru⟩ := iha h.1
    obtain ⟨v, hv, rv⟩ := ihb h.2
    simp only [KExpr.eval, hu, hv, ok_bind]
    cases u with
    | foreign => exact ru.elim
    | kernel k =>
      cases v with
      | foreign => exact rv.elim
      | kernel l => exact ⟨_, rfl, Or.inl ru.1, fun x y => by simp only [Kernel.value, KExpr.covariance, ru.2 x y, rv.2 x y]⟩
      | number c =>
        exact ⟨_, rfl, Or.inl ru.1, fun x y => by simp only [Kernel.value, KExpr.covariance, ru.2 x y, ← rv.2 x y]⟩
    | number c =>
      cases v with
      | foreign => exact rv.elim
      | kernel l =>
        exact ⟨_, rfl, Or.inr rv.1, fun x y => by simp only [Kernel.value, KExpr.covariance, ← ru.2 x y, rv.2 x y]⟩
      | number c' =>
        exact ⟨_, rfl, fun hk => hk.elim ru.1 rv.1, fun x y => by simp only [KExpr.covariance, ← ru.2 x y, ← rv.2 x y]⟩
  | mul a b iha ihb =>
    obtain ⟨u, hu, ru⟩ := iha h.1
    obtain ⟨v, hv, rv⟩ := ihb h.2
    simp only [KExpr.eval, hu, hv, ok_bind]
    cases u with
    | foreign => exact ru.elim
    | kernel k =>
      cases v with
      | foreign => exact rv.elim
      | kernel l => exact ⟨_, rfl, Or.inl ru.1, fun x y => by simp only [Kernel.value, KExpr.covariance, ru.2 x y, rv.2 x y]⟩
      | number c =>
        exact ⟨_, rfl, Or.inl ru.1, fun x y => by simp only [Kernel.value, KExpr.covariance, ru.2 x y, ← rv.2 x y]⟩
    | number c =>
      cases v with
      | foreign => exact rv.elim
      | kernel l =>
        exact ⟨_, rfl, Or.inr rv.1, fun x y => by simp only [Kernel.value, KExpr.covariance, ← ru.2 x y, rv.2 x y]⟩
      | number c' =>
        exact ⟨_, rfl, fun hk => hk.elim ru.1 rv.1, fun x y => by simp only [KExpr.covariance, ← ru.2 x y, ← rv.2 x y]⟩
  | pow a p iha =>
    obtain ⟨u, hu, ru⟩ := iha h.1
    simp only [KExpr.eval, hu, ok_bind]
    cases u with
    | foreign => exact ru.elim
    | kernel k => exact ⟨_, rfl, ru.1, fun x y => by simp only [Kernel.pow', Kernel.value, KExpr.covariance, ru.2 x y]⟩
    | number c => exact (ru.1 h.2).elim

/-- `2 * rbf ** 2 + 1`. -/
example (ls : Fin d → ℝ) : KExpr.PowersOfKernels (.add (.mul (.number 2) (.pow (.kernel (.rbf ls)) 2)) (.number 1)) ∧
    KExpr.eval (.add (.mul (.number 2) (.pow (.kernel (.rbf ls)) 2)) (.number 1)) =
      .ok (.kernel (.sum (.prod (.const 2) (.expo (.rbf ls) 2)) (.const 1))) :=
  ⟨⟨⟨trivial, trivial, trivial⟩, trivial⟩, rfl⟩

/-- **C86 refuted.** `2 * rbf * 3` is a kernel with a differentiable covariance, but its `gradient_x` raises
ValueError. -/
theorem C86_refuted_gradient (ls x y : Fin d → ℝ) : ∃ k : Kernel d,
    KExpr.eval (.mul (.mul (.number 2) (.kernel (.rbf ls))) (.number 3)) = .ok (.kernel k) ∧
    k.gradientX x [y] = .error .valueError ∧ DifferentiableAt ℝ (fun x => k.value x y) x := by
  refine ⟨_, rfl, rfl, ?_⟩
  have h := (rbf_gradient ls x y).differentiableAt
  exact ((differentiableAt_const (2 : ℝ)).mul h).mul (differentiableAt_const (3 : ℝ))

end

end Skopt

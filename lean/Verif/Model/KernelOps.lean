import Verif.Model.Kernels

/-!
# Arithmetic with kernels (the operators of skopt/learning/gaussian_process/kernels.py)

An operand is a kernel of skopt, a number, or an object of another class - in particular a kernel of scikit-learn that is
not one of skopt's subclasses.  Python tries `__add__` of the left operand first, and `__radd__` of the right operand if
the left one is a number.  With a kernel of scikit-learn on the left, its own operator is used; that is not modelled.
-/

namespace Skopt

noncomputable section

variable {d : Nat}

/-- An operand of `+` and `*`.  (kernels.py:25-43) -/
inductive Operand (d : Nat) where
  | kernel (k : Kernel d)
  | number (c : ℝ)
  | foreign (tag : Nat)

/-- The kernels that contain `ConstantKernel(b)` for an object `b` that is not a number are not followed further: their
values are arrays of objects, on which every use as a covariance matrix raises TypeError.
(kernels.py:26-27, 31-32, 36-37, 41-42) -/
def constantOf : Operand d → Except PyErr (Kernel d)
  | .kernel b => .ok b
  | .number c => .ok (.const c)
  | .foreign _ => .error .unmodelled

/-- `Kernel.__add__`, kernels.py:25-28. -/
def Kernel.add' (k : Kernel d) (b : Operand d) : Except PyErr (Kernel d) := do
  let b ← constantOf b
  .ok (.sum k b)

/-- `Kernel.__radd__`, kernels.py:30-33. -/
def Kernel.radd (k : Kernel d) (b : Operand d) : Except PyErr (Kernel d) := do
  let b ← constantOf b
  .ok (.sum b k)

/-- `Kernel.__mul__`, kernels.py:35-38. -/
def Kernel.mul' (k : Kernel d) (b : Operand d) : Except PyErr (Kernel d) := do
  let b ← constantOf b
  .ok (.prod k b)

/-- `Kernel.__rmul__`, kernels.py:40-43. -/
def Kernel.rmul (k : Kernel d) (b : Operand d) : Except PyErr (Kernel d) := do
  let b ← constantOf b
  .ok (.prod b k)

/-- `Kernel.__pow__`, kernels.py:45-46. -/
def Kernel.pow' (k : Kernel d) (p : ℝ) : Kernel d := .expo k p

/-- `a + b` as Python dispatches it between numbers and kernels (to kernels.py:25-33 if one of them is a kernel). -/
def pyAdd : Operand d → Operand d → Except PyErr (Operand d)
  | .kernel k, b => do
      let r ← k.add' b
      .ok (.kernel r)
  | .number c, .kernel k => do
      let r ← k.radd (.number c)
      .ok (.kernel r)
  | .number a, .number b => .ok (.number (a + b))
  | _, _ => .error .unmodelled

/-- `a * b` as Python dispatches it between numbers and kernels (to kernels.py:35-43 if one of them is a kernel). -/
def pyMul : Operand d → Operand d → Except PyErr (Operand d)
  | .kernel k, b => do
      let r ← k.mul' b
      .ok (.kernel r)
  | .number c, .kernel k => do
      let r ← k.rmul (.number c)
      .ok (.kernel r)
  | .number a, .number b => .ok (.number (a * b))
  | _, _ => .error .unmodelled

/-- `a ** p` with a number `p` (kernels.py:45-46 if `a` is a kernel).  Powers of numbers are not modelled. -/
def pyPow : Operand d → ℝ → Except PyErr (Operand d)
  | .kernel k, p => .ok (.kernel (k.pow' p))
  | _, _ => .error .unmodelled

end

end Skopt

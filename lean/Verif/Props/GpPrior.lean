import Verif.Props.GaussianProcess

/-!
# C57: the prior variance is the kernel at equal arguments
-/

namespace Skopt

variable {d : Nat}

/-- Every white kernel in the kernel has the level zero, as `fit` leaves it (gpr.py:208-220), and the Matérn functions given in other form are one at distance zero. -/
def Noiseless : Kernel d → Prop
  | .white v => v = 0
  | .matern _ (.other f) => f 0 = 1
  | .sum a b => Noiseless a ∧ Noiseless b
  | .prod a b => Noiseless a ∧ Noiseless b
  | .expo a _ => Noiseless a
  | _ => True

/-- **C57, prior variance.** The prior variance used for predictions (`kernel.diag`) is the covariance of the point with
itself; a white kernel added to the kernel adds its noise level. -/
theorem C57_prior_variance (k : Kernel d) (h : Noiseless k) (x : Fin d → ℝ) :
    k.diag x = k.value x x ∧ ∀ v, (Kernel.sum k (.white v)).diag x = k.value x x + v := by
  have key : ∀ k : Kernel d, Noiseless k → k.diag x = k.value x x := by
    intro k
    induction k with
    | rbf ls => intro _; simp [Kernel.diag, Kernel.value, kdistSq, kdiff]
    | matern ls nu =>
      intro h
      have h0 : kdist ls x x = 0 := by simp [kdist, kdistSq, kdiff]
      cases nu with
      | other f => simp only [Kernel.diag, Kernel.value, Nu.value, h0]; exact h.symm
      | _ => simp [Kernel.diag, Kernel.value, Nu.value, h0]
    | rq a l => intro _; simp [Kernel.diag, Kernel.value, kdistSq, kdiff]
    | expSine l p => intro _; simp [Kernel.diag, Kernel.value, kdist, kdistSq, kdiff]
    | const c => intro _; rfl
    | white v => intro h; exact h
    | dot s => intro _; rfl
    | hamming ls => intro _; simp [Kernel.diag, Kernel.value]
    | sum a b iha ihb => intro h; simp only [Kernel.diag, Kernel.value, iha h.1, ihb h.2]
    | prod a b iha ihb => intro h; simp only [Kernel.diag, Kernel.value, iha h.1, ihb h.2]
    | expo a p iha => intro h; simp only [Kernel.diag, Kernel.value, iha h]
  exact ⟨key k h, fun v => by simp only [Kernel.diag, key k h]⟩

/-- The sum of a Matérn kernel with two length scales and the square of a linear kernel. -/
example : Noiseless (.sum (.matern ![1, 2] .fiveHalves) (.expo (.dot 3) 2) : Kernel 2) := ⟨trivial, trivial⟩

/-- The kernel of `gp_minimize` after fitting with noise. -/
example : Noiseless (.sum (.prod (.const 3) (.matern ![1, 2] .fiveHalves)) (.white 0) : Kernel 2) :=
  ⟨⟨trivial, trivial⟩, rfl⟩

end Skopt

import Verif.Lemmas.Kernels
import Verif.Lemmas.Basic
import Mathlib.Analysis.Calculus.Deriv.Abs
import Mathlib.Analysis.SpecialFunctions.Log.Deriv

/-!
# C55: gradients of kernels with respect to the point
-/

namespace Skopt

variable {d : Nat}

/-! ## Specification -/

/-- The parameters of the kernel are meaningful and the kernel is differentiable in its first argument at `x`: length
scales, periods and mixture parameters are positive, Matérn kernels with `nu = 1/2` are not looked at in their kink,
and powers are integral or of a positive number. -/
def SmoothAt : Kernel d → (Fin d → ℝ) → (Fin d → ℝ) → Prop
  | .rbf _, _, _ => True
  | .matern ls .half, x, y => (∀ i, 0 < ls i) ∧ x ≠ y
  | .matern ls _, _, _ => ∀ i, 0 < ls i
  | .rq alpha _, _, _ => 0 < alpha
  | .expSine l p, _, _ => 0 < l ∧ 0 < p
  | .const _, _, _ => True
  | .white _, _, _ => True
  | .dot _, _, _ => True
  | .hamming _, _, _ => True
  | .sum a b, x, y => SmoothAt a x y ∧ SmoothAt b x y
  | .prod a b, x, y => SmoothAt a x y ∧ SmoothAt b x y
  | .expo a p, x, y => SmoothAt a x y ∧ (0 < a.value x y ∨ ∃ n : Nat, 1 ≤ n ∧ p = n)

/-- Built from constant and white kernels only. -/
def ConstOnly : Kernel d → Prop
  | .const _ => True
  | .white _ => True
  | .sum a b => ConstOnly a ∧ ConstOnly b
  | .prod a b => ConstOnly a ∧ ConstOnly b
  | .expo a _ => ConstOnly a
  | _ => False

/-- Kernels that may be a factor of a product: no products or powers inside, except of constants, and `nu = 1/2` only
in one dimension. -/
def FactorOk : Kernel d → Prop
  | .matern _ .half => d = 1
  | .matern _ (.other _) => False
  | .hamming _ => False
  | .sum a b => FactorOk a ∧ FactorOk b
  | .prod a b => ConstOnly a ∧ ConstOnly b
  | .expo a _ => ConstOnly a
  | _ => True

/-- Kernels for which a gradient is available. -/
def GradientOk : Kernel d → Prop
  | .matern _ (.other _) => False
  | .hamming _ => False
  | .sum a b => GradientOk a ∧ GradientOk b
  | .prod a b => FactorOk a ∧ FactorOk b
  | .expo a _ => GradientOk a
  | _ => True

/-! ## Lemmas -/

theorem gradRow_correct (k : Kernel d) : ∀ (r : Nat) (x y g : Fin d → ℝ), k.gradRow r x y = .ok g → SmoothAt k x y →
    HasGradient (fun x => k.value x y) g x := by
  induction k with
  | rbf ls =>
    intro r x y g h hs
    simp only [Kernel.gradRow] at h
    split_ifs at h
    cases h
    exact rbf_gradient ls x y
  | matern ls nu =>
    intro r x y g h hs
    cases nu with
    | half =>
      simp only [Kernel.gradRow] at h
      split_ifs at h <;> cases h <;> exact matern_half_gradient ls x y hs.1 hs.2
    | threeHalves =>
      simp only [Kernel.gradRow] at h
      split_ifs at h
      cases h
      exact matern_three_gradient ls x y hs
    | fiveHalves =>
      simp only [Kernel.gradRow] at h
      split_ifs at h
      cases h
      exact matern_five_gradient ls x y hs
    | other f => cases h
  | rq a l =>
    intro r x y g h hs
    simp only [Kernel.gradRow] at h
    split_ifs at h
    cases h
    exact rq_gradient a l x y hs
  | expSine l p =>
    intro r x y g h hs
    simp only [Kernel.gradRow] at h
    split_ifs at h
    cases h
    exact expSine_gradient l p x y hs.1 hs.2
  | const c =>
    intro r x y g h hs
    cases h
    unfold HasGradient
    rw [linForm_zero]
    exact hasFDerivAt_const c x
  | white c =>
    intro r x y g h hs
    cases h
    unfold HasGradient
    rw [linForm_zero]
    exact hasFDerivAt_const 0 x
  | dot s =>
    intro r x y g h hs
    cases h
    exact dot_gradient s x y
  | hamming ls => intro r x y g h hs; cases h
  | sum a b iha ihb =>
    intro r x y g h hs
    simp only [Kernel.gradRow, bind, Except.bind] at h
    cases ha : a.gradRow r x y with
    | error e => rw [ha] at h; cases h
    | ok u =>
      rw [ha] at h
      cases hb : b.gradRow r x y with
      | error e => rw [hb] at h; cases h
      | ok v =>
        rw [hb] at h
        cases h
        unfold HasGradient
        rw [linForm_add]
        exact (iha r x y u ha hs.1).add (ihb r x y v hb hs.2)
  | prod a b iha ihb =>
    intro r x y g h hs
    simp only [Kernel.gradRow, bind, Except.bind] at h
    cases hav : a.call (r + 1) x y with
    | error e => rw [hav] at h; cases h
    | ok av =>
    rw [hav] at h
    cases hbv : b.call (r + 1) x y with
    | error e => rw [hbv] at h; cases h
    | ok bv =>
    rw [hbv] at h
    cases hb : b.gradRow (r + 1) x y with
    | error e => rw [hb] at h; cases h
    | ok v =>
    rw [hb] at h
    cases ha : a.gradRow (r + 1) x y with
    | error e => rw [ha] at h; cases h
    | ok u =>
    rw [ha] at h
    cases h
    unfold HasGradient
    rw [linForm_add, linForm_smul, linForm_smul, call_value a _ x y av hav, call_value b _ x y bv hbv]
    exact (iha _ x y u ha hs.1).mul (ihb _ x y v hb hs.2)
  | expo a p iha =>
    intro r x y g h hs
    simp only [Kernel.gradRow, bind, Except.bind] at h
    cases hav : a.call (r + 1) x y with
    | error e => rw [hav] at h; cases h
    | ok av =>
    rw [hav] at h
    cases ha : a.gradRow r x y with
    | error e => rw [ha] at h; cases h
    | ok u =>
    rw [ha] at h
    cases h
    unfold HasGradient
    rw [linForm_smul, call_value a _ x y av hav]
    have hd : HasDerivAt (fun t : ℝ => t ^ p) (p * a.value x y ^ (p - 1)) (a.value x y) := by
      refine Real.hasDerivAt_rpow_const ?_
      rcases hs.2 with h | ⟨n, h1, h2⟩
      · exact .inl h.ne'
      · right
        rw [h2]
        exact_mod_cast h1
    exact hd.comp_hasFDerivAt x (iha r x y u ha hs.1)

theorem call_one (k : Kernel d) (x y : Fin d → ℝ) : ∃ v, k.call 1 x y = .ok v := by
  induction k with
  | sum a b iha ihb =>
    obtain ⟨u, hu⟩ := iha
    obtain ⟨v, hv⟩ := ihb
    exact ⟨_, by simp only [Kernel.call, hu, hv, bind, Except.bind]; rfl⟩
  | prod a b iha ihb =>
    obtain ⟨u, hu⟩ := iha
    obtain ⟨v, hv⟩ := ihb
    exact ⟨_, by simp only [Kernel.call, hu, hv, bind, Except.bind]; rfl⟩
  | expo a p iha =>
    obtain ⟨u, hu⟩ := iha
    exact ⟨_, by simp only [Kernel.call, hu, bind, Except.bind]; rfl⟩
  | _ => exact ⟨_, rfl⟩

theorem call_deep (k : Kernel d) (r : Nat) (x y : Fin d → ℝ) :
    (∃ v, k.call (r + 2) x y = .ok v) ↔ ConstOnly k := by
  induction k with
  | sum a b iha ihb =>
    simp only [ConstOnly, ← iha, ← ihb, Kernel.call, bind, Except.bind]
    cases ha : a.call (r + 2) x y <;> cases hb : b.call (r + 2) x y <;> simp
  | prod a b iha ihb =>
    simp only [ConstOnly, ← iha, ← ihb, Kernel.call, bind, Except.bind]
    cases ha : a.call (r + 2) x y <;> cases hb : b.call (r + 2) x y <;> simp
  | expo a p iha =>
    simp only [ConstOnly, ← iha, Kernel.call, bind, Except.bind]
    cases ha : a.call (r + 2) x y <;> simp
  | const c => exact ⟨fun _ => trivial, fun _ => ⟨_, rfl⟩⟩
  | white c => exact ⟨fun _ => trivial, fun _ => ⟨_, rfl⟩⟩
  | _ => simp [Kernel.call, ConstOnly]

theorem gradRow_const (k : Kernel d) (h : ConstOnly k) : ∀ (r : Nat) (x y : Fin d → ℝ), ∃ g, k.gradRow r x y = .ok g := by
  have hc : ∀ (k : Kernel d), ConstOnly k → ∀ (r : Nat) (x y : Fin d → ℝ), ∃ v, k.call (r + 1) x y = .ok v := by
    intro k h r x y
    cases r with
    | zero => exact call_one k x y
    | succ r => exact (call_deep k r x y).2 h
  induction k with
  | sum a b iha ihb =>
    intro r x y
    obtain ⟨u, hu⟩ := iha h.1 r x y
    obtain ⟨v, hv⟩ := ihb h.2 r x y
    exact ⟨_, by simp only [Kernel.gradRow, hu, hv, bind, Except.bind]; rfl⟩
  | prod a b iha ihb =>
    intro r x y
    obtain ⟨u, hu⟩ := iha h.1 (r + 1) x y
    obtain ⟨v, hv⟩ := ihb h.2 (r + 1) x y
    obtain ⟨u', hu'⟩ := hc a h.1 r x y
    obtain ⟨v', hv'⟩ := hc b h.2 r x y
    exact ⟨_, by simp only [Kernel.gradRow, hu, hv, hu', hv', bind, Except.bind]; rfl⟩
  | expo a p iha =>
    intro r x y
    obtain ⟨u, hu⟩ := iha h r x y
    obtain ⟨u', hu'⟩ := hc a h r x y
    exact ⟨_, by simp only [Kernel.gradRow, hu, hu', bind, Except.bind]; rfl⟩
  | const c => intro r x y; exact ⟨_, rfl⟩
  | white c => intro r x y; exact ⟨_, rfl⟩
  | _ => exact h.elim

theorem gradRow_one (k : Kernel d) (x y : Fin d → ℝ) : (∃ g, k.gradRow 1 x y = .ok g) ↔ FactorOk k := by
  induction k with
  | sum a b iha ihb =>
    simp only [FactorOk, ← iha, ← ihb, Kernel.gradRow, bind, Except.bind]
    cases ha : a.gradRow 1 x y <;> cases hb : b.gradRow 1 x y <;> simp
  | prod a b iha ihb =>
    constructor
    · rintro ⟨g, h⟩
      simp only [Kernel.gradRow, bind, Except.bind] at h
      cases ha : a.call (1 + 1) x y with
      | error e => rw [ha] at h; cases h
      | ok u =>
        rw [ha] at h
        cases hb : b.call (1 + 1) x y with
        | error e => rw [hb] at h; cases h
        | ok v => exact ⟨(call_deep a 0 x y).1 ⟨u, ha⟩, (call_deep b 0 x y).1 ⟨v, hb⟩⟩
    · intro h
      exact gradRow_const (.prod a b) h 1 x y
  | expo a p iha =>
    constructor
    · rintro ⟨g, h⟩
      simp only [Kernel.gradRow, bind, Except.bind] at h
      cases ha : a.call (1 + 1) x y with
      | error e => rw [ha] at h; cases h
      | ok u => exact (call_deep a 0 x y).1 ⟨u, ha⟩
    · intro h
      exact gradRow_const (.expo a p) h 1 x y
  | matern ls nu =>
    cases nu with
    | half =>
      simp only [Kernel.gradRow, FactorOk]
      by_cases hd : d = 1 <;> simp [hd]
    | threeHalves => exact ⟨fun _ => trivial, fun _ => ⟨_, rfl⟩⟩
    | fiveHalves => exact ⟨fun _ => trivial, fun _ => ⟨_, rfl⟩⟩
    | other f => exact ⟨fun ⟨g, h⟩ => (by cases h), fun h => h.elim⟩
  | hamming ls => exact ⟨fun ⟨g, h⟩ => (by cases h), fun h => h.elim⟩
  | _ => exact ⟨fun _ => trivial, fun _ => ⟨_, rfl⟩⟩

theorem gradRow_zero (k : Kernel d) (x y : Fin d → ℝ) : (∃ g, k.gradRow 0 x y = .ok g) ↔ GradientOk k := by
  induction k with
  | sum a b iha ihb =>
    simp only [GradientOk, ← iha, ← ihb, Kernel.gradRow, bind, Except.bind]
    cases ha : a.gradRow 0 x y <;> cases hb : b.gradRow 0 x y <;> simp
  | prod a b iha ihb =>
    obtain ⟨u, hu⟩ := call_one a x y
    obtain ⟨v, hv⟩ := call_one b x y
    simp only [GradientOk, ← gradRow_one _ x y, Kernel.gradRow, bind, Except.bind, zero_add, hu, hv]
    cases ha : a.gradRow 1 x y <;> cases hb : b.gradRow 1 x y <;> simp
  | expo a p iha =>
    obtain ⟨u, hu⟩ := call_one a x y
    simp only [GradientOk, ← iha, Kernel.gradRow, bind, Except.bind, zero_add, hu]
    cases ha : a.gradRow 0 x y <;> simp
  | matern ls nu =>
    cases nu with
    | half => exact ⟨fun _ => trivial, fun _ => ⟨_, rfl⟩⟩
    | threeHalves => exact ⟨fun _ => trivial, fun _ => ⟨_, rfl⟩⟩
    | fiveHalves => exact ⟨fun _ => trivial, fun _ => ⟨_, rfl⟩⟩
    | other f => exact ⟨fun ⟨g, h⟩ => (by cases h), fun h => h.elim⟩
  | hamming ls => exact ⟨fun ⟨g, h⟩ => (by cases h), fun h => h.elim⟩
  | _ => exact ⟨fun _ => trivial, fun _ => ⟨_, rfl⟩⟩

theorem forall₂_entries {α β : Type} {R : α → β → Prop} {xs : List α} {ys : List β} (h : List.Forall₂ R xs ys) :
    ∀ (i : Nat) (a : α) (b : β), xs[i]? = some a → ys[i]? = some b → R a b := by
  induction h with
  | nil => intro i a b h; simp at h
  | cons h1 _ ih =>
    intro i a b ha hb
    cases i with
    | zero =>
      simp only [List.getElem?_cons_zero, Option.some.injEq] at ha hb
      subst ha; subst hb
      exact h1
    | succ i => exact ih i a b (by simpa using ha) (by simpa using hb)

/-! ## C55 -/

/-- **C55.** Where the kernel is differentiable in its first argument, every row that `gradient_x` returns is the
gradient of the covariance with the training point of that row; there is one row per training point. -/
theorem C55_kernel_gradient (k : Kernel d) (x : Fin d → ℝ) (train gs : List (Fin d → ℝ))
    (h : k.gradientX x train = .ok gs) :
    gs.length = train.length ∧
    ∀ (i : Nat) (y g : Fin d → ℝ), train[i]? = some y → gs[i]? = some g → SmoothAt k x y →
      HasGradient (fun x => k.value x y) g x := by
  unfold Kernel.gradientX at h
  have hf := mapE_eq_ok.1 h
  refine ⟨hf.length_eq.symm, fun i y g hy hg hs => ?_⟩
  exact gradRow_correct k 0 x y g (forall₂_entries hf i y g hy hg) hs

/-- The default kernel of the optimizer on a two-dimensional space, with noise. -/
noncomputable def defaultPlane : Kernel 2 :=
  .sum (.prod (.const 1) (.matern (fun _ => 1) .fiveHalves)) (.white 1)

/-- Meets the hypotheses of `C55_kernel_gradient`. -/
example : (∃ gs, defaultPlane.gradientX (fun _ => 0) [fun _ => 1, fun _ => 0] = .ok gs) ∧
    SmoothAt defaultPlane (fun _ => 0) (fun _ => 1) :=
  ⟨⟨_, rfl⟩, ⟨trivial, fun _ => one_pos⟩, trivial⟩

/-- **C55.** For which kernels the gradient is available: all but those with a Hamming kernel or an unusual `nu`, as
long as the factors of products contain no further products or powers (except of constants), and no Matérn kernel with
`nu = 1/2` in more than one dimension. -/
theorem C55_gradient_available_partial (k : Kernel d) (x y : Fin d → ℝ) (train : List (Fin d → ℝ)) :
    (∃ gs, k.gradientX x (y :: train) = .ok gs) ↔ GradientOk k := by
  constructor
  · rintro ⟨gs, h⟩
    have hf := mapE_eq_ok.1 h
    cases hf with
    | cons h1 _ => exact (gradRow_zero k x y).1 ⟨_, h1⟩
  · intro h
    unfold Kernel.gradientX
    have : ∀ l : List (Fin d → ℝ), ∃ gs, mapE (fun y => k.gradRow 0 x y) l = .ok gs := by
      intro l
      induction l with
      | nil => exact ⟨[], rfl⟩
      | cons y l ih =>
        obtain ⟨g, hg⟩ := (gradRow_zero k x y).2 h
        obtain ⟨gs, hgs⟩ := ih
        exact ⟨g :: gs, by simp only [mapE, hg, hgs]⟩
    exact this _

example : GradientOk defaultPlane := ⟨⟨trivial, trivial⟩, trivial⟩

/-- **C55 refuted.** The gradient of a product of three kernels raises ValueError: the inner product adds a second axis
to a point that already has one. -/
theorem C55_refuted_three_factors (ls x y : Fin d → ℝ) :
    (Kernel.prod (.prod (.const 1) (.rbf ls)) (.rbf ls)).gradientX x [y] = .error .valueError ∧
    DifferentiableAt ℝ (fun x => (Kernel.prod (.prod (.const 1) (.rbf ls)) (.rbf ls)).value x y) x := by
  refine ⟨rfl, ?_⟩
  have h := (rbf_gradient ls x y).differentiableAt
  exact ((differentiableAt_const (1 : ℝ)).mul h).mul h

/-- **C55 refuted.** The gradient of a constant times a Matérn kernel with `nu = 1/2` raises ValueError in two
dimensions. -/
theorem C55_refuted_matern_half_product (ls x y : Fin 2 → ℝ) :
    (Kernel.prod (.const 1) (.matern ls .half)).gradientX x [y] = .error .valueError := rfl

/-- **C55 refuted.** At a training point the Matérn kernel with `nu = 1/2` has no gradient, but the code returns
one. -/
theorem C55_refuted_matern_half_kink :
    (Kernel.matern (fun _ : Fin 1 => 1) .half).gradientX (fun _ => 0) [fun _ => 0] = .ok [fun _ => -1] ∧
    ¬ DifferentiableAt ℝ (fun x => (Kernel.matern (fun _ : Fin 1 => 1) .half).value x fun _ => 0) fun _ => 0 := by
  constructor
  · have : maternHalfGrad (fun _ : Fin 1 => 1) (fun _ => 0) (fun _ => 0) = fun _ => -1 := by
      funext i
      simp [maternHalfGrad, kdist_self]
    simp only [Kernel.gradientX, mapE, Kernel.gradRow, if_true, this]
  · intro h
    have h1 : DifferentiableAt ℝ (fun t : ℝ => (fun _ : Fin 1 => t)) 0 :=
      differentiableAt_pi.2 fun _ => differentiableAt_id
    have h2 : DifferentiableAt ℝ
        (fun t : ℝ => (Kernel.matern (fun _ : Fin 1 => 1) .half).value (fun _ => t) fun _ => 0) 0 :=
      DifferentiableAt.comp (0 : ℝ)
        (g := fun x => (Kernel.matern (fun _ : Fin 1 => 1) .half).value x fun _ => 0) h h1
    have h3 : (fun t : ℝ => (Kernel.matern (fun _ : Fin 1 => 1) .half).value (fun _ => t) fun _ => 0) =
        fun t => Real.exp (-|t|) := by
      funext t
      simp [Kernel.value, Nu.value, kdist, kdistSq, kdiff, Real.sqrt_sq_eq_abs]
    rw [h3] at h2
    have h4 := (h2.log (Real.exp_pos _).ne').fun_neg
    simp only [Real.log_exp, neg_neg] at h4
    exact not_differentiableAt_abs_zero h4

end Skopt

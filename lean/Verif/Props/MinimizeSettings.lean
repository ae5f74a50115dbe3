import Verif.Model.Wrappers
import Verif.Props.Constructor
import Verif.Props.MinimizeRuns

/-!
# C77: `gp_minimize`, `forest_minimize` and `gbrt_minimize` refuse unknown settings before evaluating anything
-/

namespace Skopt

variable {F M R G : Type} [LinearOrder F]

/-! ## Specification -/

/-- Nothing was done: an exception, no evaluation and no callback. -/
def RefusedOutright (o : Outcome F M G) : Prop := (∃ e, o.result = .error e) ∧ o.trace = []

/-- The settings of a surrogate search that no function can make sense of: an unknown acquisition function, an unknown
acquisition optimizer, an unknown surrogate, or L-BFGS for a surrogate without gradients. -/
inductive Senseless (dims : List (Dim F)) (base : BaseArg) (acqFunc acqOptimizer : String) : Prop where
  | acqFunc (h : acqFunc ∉ ["gp_hedge", "EI", "LCB", "PI", "EIps", "PIps"])
  | acqOptimizer (h : acqOptimizer ∉ ["auto", "lbfgs", "sampling"])
  | surrogate (h : ¬ ValidBase base)
  | gradients (h : acqOptimizer = "lbfgs") (hown : OwnEstimator base) (hps : acqFunc ∉ ["EIps", "PIps"])
      (hg : ¬ BaseGradients dims base)

/-! ## Lemmas -/

omit [LinearOrder F] in
theorem mkConfig_senseless (dims : List (Dim F)) (base : BaseArg) (c : WrapArgs F M) (opt : String) (n : ℤ)
    (h : Senseless dims base c.acqFunc opt) :
    ∃ e, mkConfig ((c.toMin (base.cook dims) opt).optArgs n) = .error e := by
  by_contra hcon
  have hcon : ∀ e, mkConfig ((c.toMin (base.cook dims) opt).optArgs n) ≠ .error e := fun e he => hcon ⟨e, he⟩
  simp only [mkConfig, MinArgs.optArgs, WrapArgs.toMin, Args.optimizer, Option.getD_none] at hcon
  cases hacq : acqOf c.acqFunc with
  | none => simp only [hacq] at hcon; exact hcon _ rfl
  | some acq =>
    simp only [hacq] at hcon
    by_cases hn : n < 0
    · rw [if_pos hn] at hcon; exact hcon _ rfl
    rw [if_neg hn] at hcon
    rcases cook_valid dims base with ⟨hv, e, he, hreg⟩ | ⟨hv, he | ⟨e, he, hreg⟩⟩
    · simp only [he, estArgOf, if_neg hreg] at hcon
      cases h with
      | acqFunc h => rw [(acqOf_none_iff _).2 h] at hacq; cases hacq
      | acqOptimizer h =>
        rw [(optOf_other_iff _).2 h] at hcon
        exact hcon .valueError (by simp)
      | surrogate h => exact h hv
      | gradients hopt hown hps hg =>
        have hw : wrapPs acq e = e := by
          have : acq.isPs = false := by
            revert hacq
            unfold acqOf
            split <;> intro h <;> cases h <;> first | rfl | simp_all
          simp [wrapPs, this]
        have hgr : hasGradients e = false := by
          cases hq : hasGradients e
          · rfl
          · exact absurd ((hasGradients_own hown hv he).1 hq) hg
        rw [(optOf_lbfgs_iff _).2 hopt] at hcon
        exact hcon .valueError (by simp [hw, hgr])
    · simp only [he, estArgOf] at hcon
      exact hcon .valueError (by simp)
    · simp only [he, estArgOf, if_pos hreg] at hcon
      exact hcon .valueError (by simp)

theorem baseMinimize_refused (A : Arith F) (W : World F M R G) (sh : Shared F G) (func : Objective F)
    (m : MinArgs F M) (rng : R) (h : ∀ n, ∃ e, mkConfig (m.optArgs n) = .error e) :
    RefusedOutright (baseMinimize A W sh func m rng) := by
  cases hp : m.prepare with
  | error e => simp only [RefusedOutright, baseMinimize, hp]; exact ⟨⟨_, rfl⟩, trivial⟩
  | ok q =>
    obtain ⟨x0, n⟩ := q
    obtain ⟨e, he⟩ := h n
    simp only [RefusedOutright, baseMinimize, hp, he]
    exact ⟨⟨_, rfl⟩, trivial⟩

/-! ## C77 -/

/-- **C77 (`gp_minimize`).** Whatever the objective, the budget, the starting points and the space: settings that make
no sense are refused, with nothing evaluated and no callback called.  `none` is the default surrogate. -/
theorem C77_gp_minimize (A : Arith F) (W : World F M R G) (sh : Shared F G) (func : Objective F)
    (base : Option BaseArg) (c : WrapArgs F M) (rng : R)
    (h : Senseless sh.dims (base.getD (.name "GP")) c.acqFunc c.acqOptimizer) :
    RefusedOutright (gpMinimize A W sh func base c rng) := by
  have h' : Senseless (sh.dims.map Dim.normalized) (base.getD (.name "GP")) c.acqFunc c.acqOptimizer := by
    cases h with
    | acqFunc h => exact .acqFunc h
    | acqOptimizer h => exact .acqOptimizer h
    | surrogate h => exact .surrogate h
    | gradients h1 h2 h3 hg =>
      refine .gradients h1 h2 h3 fun hcon => hg ?_
      revert hcon
      cases base.getD (.name "GP") with
      | object o => cases o <;> exact id
      | name s =>
        rintro ⟨hs, d, hd, hd'⟩
        obtain ⟨d', hd'', rfl⟩ := List.mem_map.1 hd
        exact ⟨hs, d', hd'', by rwa [normalized_isCat] at hd'⟩
  have key : gpMinimize A W sh func base c rng =
      baseMinimize A W { sh with dims := sh.dims.map Dim.normalized } func
        (c.toMin ((base.getD (.name "GP")).cook (sh.dims.map Dim.normalized)) c.acqOptimizer) rng := by
    cases base <;> simp only [gpMinimize, setTransformer_normalize] <;> rfl
  rw [key]
  exact baseMinimize_refused A W _ func _ rng fun n => mkConfig_senseless _ _ c _ n h'

/-- **C77 (`forest_minimize`).** It has no `acq_optimizer`. -/
theorem C77_forest_minimize (A : Arith F) (W : World F M R G) (sh : Shared F G) (func : Objective F)
    (base : BaseArg) (c : WrapArgs F M) (rng : R)
    (h : c.acqFunc ∉ ["gp_hedge", "EI", "LCB", "PI", "EIps", "PIps"] ∨ ¬ ValidBase base) :
    RefusedOutright (forestMinimize A W sh func base c rng) :=
  baseMinimize_refused A W _ func _ rng fun n => mkConfig_senseless _ _ c _ n
    (h.elim Senseless.acqFunc Senseless.surrogate)

/-- **C77 (`gbrt_minimize`, restricted).** Unknown acquisition functions and surrogates are refused.

Missing: unknown values of `acq_optimizer` and L-BFGS without gradients, which are accepted
(`C77_refuted_gbrt_acq_optimizer`). -/
theorem C77_gbrt_minimize_partial (A : Arith F) (W : World F M R G) (sh : Shared F G) (func : Objective F)
    (base : Option BaseArg) (c : WrapArgs F M) (rng : R)
    (h : c.acqFunc ∉ ["gp_hedge", "EI", "LCB", "PI", "EIps", "PIps"] ∨ ∃ b, base = some b ∧ ¬ ValidBase b) :
    RefusedOutright (gbrtMinimize A W sh func base c rng) := by
  have key : gbrtMinimize A W sh func base c rng =
      baseMinimize A W sh func (c.toMin ((base.getD (.name "GBRT")).cook sh.dims) "sampling") rng := by
    cases base <;> simp only [gbrtMinimize] <;> rfl
  rw [key]
  refine baseMinimize_refused A W _ func _ rng fun n => mkConfig_senseless _ _ c _ n ?_
  rcases h with h | ⟨b, rfl, h⟩
  · exact .acqFunc h
  · exact .surrogate h

/-- Senseless settings of each kind: a misspelt acquisition function, an unknown optimizer, an unknown surrogate, and
L-BFGS on a purely categorical space.
Meets the hypotheses of `C77_gp_minimize`, `C77_forest_minimize`. -/
example : Senseless liveDims (.name "GP") "ei" "auto" ∧ Senseless liveDims (.name "GP") "EI" "l-bfgs" ∧
    Senseless liveDims (.name "xgb") "EI" "auto" ∧
    Senseless (ctorCats : List (Dim ℚ)) (.name "GP") "EI" "lbfgs" :=
  ⟨.acqFunc (by decide), .acqOptimizer (by decide), .surrogate (by unfold ValidBase; decide +kernel),
    .gradients rfl trivial (by decide) (by
      rintro ⟨-, d, hd, h⟩
      simp only [ctorCats, List.mem_cons, List.not_mem_nil, or_false] at hd
      subst hd
      cases h)⟩

/-- The call of the C76 example with an acquisition optimizer that does not exist. -/
def liveCallOdd : WrapArgs ℝ Unit := { liveCall with acqOptimizer := "no such optimizer" }

/-- **C77 is false of `gbrt_minimize`.** Its parameter `acq_optimizer` (gbrt.py:12) is never looked at: "sampling" is
passed to `base_minimize` in its place (gbrt.py:186).  An unknown value is accepted and the run completes. -/
theorem C77_refuted_gbrt_acq_optimizer :
    ∃ (W : World ℝ Unit Unit Unit) (sh : Shared ℝ Unit) (func : Objective ℝ) (c : WrapArgs ℝ Unit),
      Senseless sh.dims (.name "GBRT") c.acqFunc c.acqOptimizer ∧
      Completes sh.dims c.callback c.nCalls (gbrtMinimize exact W sh func none c ()) := by
  refine ⟨realWorld, ⟨liveDims, none⟩, sumObjective, liveCallOdd, .acqOptimizer (by decide), ?_⟩
  have h := liveCall_wellPosed
  exact C76_gbrt_minimize_partial realWorld ⟨liveDims, none⟩ sumObjective liveCallOdd
    (.point [.num 3, .num (2 : ℤ), .str "b"]) () liveDims_workable
    ⟨by simp [liveCallOdd, liveCall], by decide, by decide, by rintro k ⟨⟩⟩ liveWorld_reliable (Or.inl rfl)
    sumObjective_total
    ⟨h.x0, h.proper, h.members, h.y0, h.initial, h.some, h.budget, h.budget', h.callback, h.calm⟩

end Skopt

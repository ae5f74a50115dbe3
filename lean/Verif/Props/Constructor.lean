import Verif.Model.Estimators
import Verif.Lemmas.Generator
import Verif.Model.Exact

/-!
# C63, C72: what the constructor of Optimizer accepts, and what it builds
-/

namespace Skopt

variable {F : Type}

/-! ## Specification -/

/-- A Hamming kernel occurs in the kernel. -/
inductive MentionsHamming : Kern → Prop
  | leaf (n : Nat) : MentionsHamming (.hamming n)
  | sumLeft {a b : Kern} : MentionsHamming a → MentionsHamming (.sum a b)
  | sumRight {a b : Kern} : MentionsHamming b → MentionsHamming (.sum a b)
  | prodLeft {a b : Kern} : MentionsHamming a → MentionsHamming (.prod a b)
  | prodRight {a b : Kern} : MentionsHamming b → MentionsHamming (.prod a b)
  | expo {a : Kern} : MentionsHamming a → MentionsHamming (.expo a)

/-- Whether `predict` of the estimator really returns gradients: Gaussian processes do unless a Hamming kernel is
involved; trees do not; a multi-output regressor consists of copies of the estimator it wraps. -/
def ProvidesGradients : Est → Prop
  | .gp none => True
  | .gp (some k) => ¬ MentionsHamming k
  | .forest => False
  | .extraTrees => False
  | .gbrt => False
  | .multi e => ProvidesGradients e
  | .multiNone => False
  | .regressor _ g => g = true
  | .notRegressor => False

/-- The argument names an estimator known to skopt, or is a regressor or `None`. -/
def ValidBase : BaseArg → Prop
  | .name s => s.toUpper ∈ ["GP", "RF", "ET", "GBRT", "DUMMY"]
  | .object none => True
  | .object (some e) => e ≠ .notRegressor

/-- Whether the surrogate described by the argument provides gradients on the space: the default Gaussian process does
unless all dimensions are categorical. -/
def BaseGradients (dims : List (Dim F)) : BaseArg → Prop
  | .name s => s.toUpper = "GP" ∧ ∃ d ∈ dims, d.isCat = false
  | .object none => False
  | .object (some e) => ProvidesGradients e

/-- The surrogate an argument stands for (the kernel of the Gaussian process is the subject of C72). -/
def Denotes : BaseArg → Option Est → Prop
  | .name s, e => (s.toUpper = "GP" ∧ ∃ k, e = some (.gp (some k))) ∨ (s.toUpper = "RF" ∧ e = some .forest) ∨
      (s.toUpper = "ET" ∧ e = some .extraTrees) ∨ (s.toUpper = "GBRT" ∧ e = some .gbrt) ∨
      (s.toUpper = "DUMMY" ∧ e = none)
  | .object o, e => e = o

/-- The argument is a name, `None`, or an object of one of skopt's own estimator classes. -/
def OwnEstimator : BaseArg → Prop
  | .name _ => True
  | .object none => True
  | .object (some (.gp _)) => True
  | .object (some .forest) => True
  | .object (some .extraTrees) => True
  | .object (some .gbrt) => True
  | .object (some .notRegressor) => True
  | _ => False

/-- The number of initial points asked for. -/
def CtorArgs.initial (a : CtorArgs) : ℤ := a.nRandomStarts.getD a.nInitialPoints

/-! ## Lemmas -/

theorem anyHamming_iff : ∀ k : Kern, k.anyHamming = true ↔ MentionsHamming k
  | .const => by simp only [Kern.anyHamming]; exact ⟨(by simp), by rintro ⟨⟩⟩
  | .white => by simp only [Kern.anyHamming]; exact ⟨(by simp), by rintro ⟨⟩⟩
  | .matern _ => by simp only [Kern.anyHamming]; exact ⟨(by simp), by rintro ⟨⟩⟩
  | .other => by simp only [Kern.anyHamming]; exact ⟨(by simp), by rintro ⟨⟩⟩
  | .hamming n => by simp only [Kern.anyHamming]; exact ⟨fun _ => .leaf n, fun _ => trivial⟩
  | .sum a b => by
    simp only [Kern.anyHamming, Bool.or_eq_true, anyHamming_iff a, anyHamming_iff b]
    constructor
    · rintro (h | h)
      · exact .sumLeft h
      · exact .sumRight h
    · rintro (_ | h | h)
      · exact .inl h
      · exact .inr (by assumption)
  | .prod a b => by
    simp only [Kern.anyHamming, Bool.or_eq_true, anyHamming_iff a, anyHamming_iff b]
    constructor
    · rintro (h | h)
      · exact .prodLeft h
      · exact .prodRight h
    · intro h
      cases h with
      | prodLeft h => exact .inl h
      | prodRight h => exact .inr h
  | .expo a => by
    simp only [Kern.anyHamming, anyHamming_iff a]
    exact ⟨.expo, by rintro ⟨⟩; assumption⟩

theorem normalized_isCat (d : Dim F) : d.normalized.isCat = d.isCat := by cases d <;> rfl

theorem normalized_size (d : Dim F) : d.normalized.transformedSize = 1 := by cases d <;> rfl

theorem normalized_sizes (dims : List (Dim F)) :
    ((dims.map Dim.normalized).map Dim.transformedSize).sum = dims.length := by
  induction dims with
  | nil => rfl
  | cons d ds ih => simp only [List.map_cons, List.sum_cons, ih, normalized_size, List.length_cons]; omega

theorem normalized_allCat (dims : List (Dim F)) : (dims.map Dim.normalized).all Dim.isCat = dims.all Dim.isCat := by
  induction dims with
  | nil => rfl
  | cons d ds ih => simp only [List.map_cons, List.all_cons, ih, normalized_isCat]

/-- The kernel of the default Gaussian process. -/
def defaultKernel (dims : List (Dim F)) : Kern :=
  .prod .const (if dims.all Dim.isCat then .hamming dims.length else .matern dims.length)

theorem cook_gp (s : String) (dims : List (Dim F)) (h : s.toUpper = "GP") :
    cookEstimator s dims = .ok (some (.gp (some (defaultKernel dims)))) := by
  simp only [cookEstimator, h, setTransformer_normalize, bind, Except.bind, normalized_sizes, normalized_allCat,
    defaultKernel]

theorem cook_cases (s : String) (dims : List (Dim F)) :
    (s.toUpper = "GP" ∧ cookEstimator s dims = .ok (some (.gp (some (defaultKernel dims))))) ∨
    (s.toUpper ∈ ["RF", "ET", "GBRT", "DUMMY"] ∧ s.toUpper ≠ "GP" ∧ ∃ e, cookEstimator s dims = .ok e ∧
      (e = none ∨ e = some .forest ∨ e = some .extraTrees ∨ e = some .gbrt)) ∨
    (s.toUpper ∉ ["GP", "RF", "ET", "GBRT", "DUMMY"] ∧ cookEstimator s dims = .error .valueError) := by
  by_cases h1 : s.toUpper = "GP"
  · exact .inl ⟨h1, cook_gp s dims h1⟩
  by_cases h2 : s.toUpper = "RF"
  · exact .inr (.inl ⟨by simp [h2], h1, (some .forest), by simp only [cookEstimator, h2], by simp⟩)
  by_cases h3 : s.toUpper = "ET"
  · exact .inr (.inl ⟨by simp [h3], h1, (some .extraTrees), by simp only [cookEstimator, h3], by simp⟩)
  by_cases h4 : s.toUpper = "GBRT"
  · exact .inr (.inl ⟨by simp [h4], h1, (some .gbrt), by simp only [cookEstimator, h4], by simp⟩)
  by_cases h5 : s.toUpper = "DUMMY"
  · exact .inr (.inl ⟨by simp [h5], h1, none, by simp only [cookEstimator, h5], by simp⟩)
  refine .inr (.inr ⟨by simp [h1, h2, h3, h4, h5], ?_⟩)
  unfold cookEstimator
  split <;> first | contradiction | rfl

theorem acqOf_none_iff (s : String) : acqOf s = none ↔ s ∉ ["gp_hedge", "EI", "LCB", "PI", "EIps", "PIps"] := by
  unfold acqOf
  split <;> simp_all

theorem optOf_other_iff (s : String) : optOf s = .other ↔ s ∉ ["auto", "lbfgs", "sampling"] := by
  unfold optOf
  split <;> simp_all

theorem optOf_lbfgs_iff (s : String) : optOf s = .lbfgs ↔ s = "lbfgs" := by
  unfold optOf
  split <;> simp_all

theorem optOf_sampling_iff (s : String) : optOf s = .sampling ↔ s = "sampling" := by
  unfold optOf
  split <;> simp_all

/-- The outcome of the checks that follow once the estimator is known. -/
theorem mkConfig_cases (a : Args) (acq : AcqFunc) (ha : a.acq = some acq) (hreg : a.est.isRegressor = true)
    (hn : 0 ≤ a.nRandomStarts.getD a.nInitialPoints) :
    (mkConfig a = .error .valueError ∧
      (a.acqOptimizer = .other ∨ (a.acqOptimizer = .lbfgs ∧ a.est.hasGradients = false))) ∨
    (∃ c, mkConfig a = .ok c ∧ a.acqOptimizer ≠ .other ∧ (a.acqOptimizer = .lbfgs → a.est.hasGradients = true) ∧
      (c.lbfgs = true ↔ a.est.hasGradients = true ∧ a.acqOptimizer ≠ .sampling) ∧ c.acq = acq ∧
      c.nInitial = a.nRandomStarts.getD a.nInitialPoints ∧ c.queueSize = a.queueSize ∧
      c.hasEst = !a.est.isNone ∧ c.isGP = a.est.isGP) := by
  have hn' : ¬ a.nRandomStarts.getD a.nInitialPoints < 0 := by omega
  simp only [mkConfig, ha, if_neg hn', hreg, Bool.true_eq_false, false_and, if_false]
  cases ho : a.acqOptimizer <;> cases hg : a.est.hasGradients <;> simp [Args.optimizer, ho, hg]

theorem hasGradients_own {dims : List (Dim F)} {base : BaseArg} {e : Option Est} (hown : OwnEstimator base)
    (hv : ValidBase base) (he : base.cook dims = .ok e) : hasGradients e = true ↔ BaseGradients dims base := by
  cases base with
  | name s =>
    rcases cook_cases s dims with ⟨hs, h⟩ | ⟨_, hs, e', h, he'⟩ | ⟨hs, _⟩
    · have : e = _ := (Except.ok.inj (h.symm.trans he)).symm
      subst this
      simp only [hasGradients, defaultKernel, Kern.anyHamming, BaseGradients, hs, true_and]
      by_cases hc : dims.all Dim.isCat = true
      · simp only [hc, if_true, Kern.anyHamming]
        simp only [Bool.false_or, Bool.not_true, Bool.false_eq_true, false_iff]
        rintro ⟨d, hd, hd'⟩
        have := List.all_eq_true.1 hc d hd
        rw [hd'] at this
        cases this
      · simp only [hc]
        simp only [Bool.false_eq_true, if_false, Kern.anyHamming, Bool.or_false, Bool.not_false, true_iff]
        simpa using hc
    · have : e = e' := Except.ok.inj (he.symm.trans h)
      subst this
      simp only [BaseGradients, hs, false_and, iff_false]
      rcases he' with rfl | rfl | rfl | rfl <;> simp [hasGradients]
    · exact absurd hv hs
  | object o =>
    have : e = o := (Except.ok.inj he).symm
    subst this
    match e, hown with
    | none, _ => simp [hasGradients, BaseGradients]
    | some (.gp none), _ => simp [hasGradients, BaseGradients, ProvidesGradients]
    | some (.gp (some k)), _ =>
      simp only [hasGradients, BaseGradients, ProvidesGradients, ← anyHamming_iff]
      simp
    | some .forest, _ => simp [hasGradients, BaseGradients, ProvidesGradients]
    | some .extraTrees, _ => simp [hasGradients, BaseGradients, ProvidesGradients]
    | some .gbrt, _ => simp [hasGradients, BaseGradients, ProvidesGradients]
    | some .notRegressor, _ => exact absurd rfl hv

theorem cook_valid (dims : List (Dim F)) (base : BaseArg) :
    (ValidBase base ∧ ∃ e, base.cook dims = .ok e ∧ ¬ (Est.isRegressor e = false ∧ e.isNone = false)) ∨
    (¬ ValidBase base ∧ (base.cook dims = .error .valueError ∨
      ∃ e, base.cook dims = .ok e ∧ (Est.isRegressor e = false ∧ e.isNone = false))) := by
  cases base with
  | name s =>
    rcases cook_cases s dims with ⟨hs, h⟩ | ⟨hs, hs', e', h, he'⟩ | ⟨hs, h⟩
    · exact .inl ⟨by simp [ValidBase, hs], _, h, by simp [Est.isRegressor]⟩
    · refine .inl ⟨List.mem_cons_of_mem _ hs, _, h, ?_⟩
      rcases he' with rfl | rfl | rfl | rfl <;> simp [Est.isRegressor]
    · exact .inr ⟨hs, .inl h⟩
  | object o =>
    match o with
    | none => exact .inl ⟨trivial, _, rfl, by simp [Est.isRegressor]⟩
    | some .notRegressor => exact .inr ⟨fun h => h rfl, .inr ⟨_, rfl, by simp [Est.isRegressor]⟩⟩
    | some (.gp k) => exact .inl ⟨(by intro h; cases h), _, rfl, by simp [Est.isRegressor]⟩
    | some .forest => exact .inl ⟨(by intro h; cases h), _, rfl, by simp [Est.isRegressor]⟩
    | some .extraTrees => exact .inl ⟨(by intro h; cases h), _, rfl, by simp [Est.isRegressor]⟩
    | some .gbrt => exact .inl ⟨(by intro h; cases h), _, rfl, by simp [Est.isRegressor]⟩
    | some (.multi e) => exact .inl ⟨(by intro h; cases h), _, rfl, by simp [Est.isRegressor]⟩
    | some .multiNone => exact .inl ⟨(by intro h; cases h), _, rfl, by simp [Est.isRegressor]⟩
    | some (.regressor k g) => exact .inl ⟨(by intro h; cases h), _, rfl, by simp [Est.isRegressor]⟩

theorem cookedDims_ok (dims : List (Dim F)) (objects : Bool) (base : BaseArg) :
    ∃ d, base.cookedDims dims objects = .ok d := by
  cases base with
  | name s =>
    simp only [BaseArg.cookedDims]
    split_ifs
    · exact ⟨_, setTransformer_normalize dims⟩
    · exact ⟨_, rfl⟩
  | object o => exact ⟨_, rfl⟩

/-- The checks after the estimator was cooked, and what they build. -/
theorem build_cases (dims : List (Dim F)) (objects : Bool) (a : CtorArgs) :
    (buildOptimizer dims objects a = .error .valueError ∧
      (a.acqFunc ∉ ["gp_hedge", "EI", "LCB", "PI", "EIps", "PIps"] ∨ a.initial < 0 ∨ ¬ ValidBase a.base ∨
        a.acqOptimizer ∉ ["auto", "lbfgs", "sampling"] ∨
        (a.acqOptimizer = "lbfgs" ∧ ∃ acq e, acqOf a.acqFunc = some acq ∧ a.base.cook dims = .ok e ∧
          hasGradients (wrapPs acq e) = false))) ∨
    (∃ b acq e cooked, buildOptimizer dims objects a = .ok b ∧ acqOf a.acqFunc = some acq ∧ 0 ≤ a.initial ∧
      ValidBase a.base ∧ a.base.cook dims = .ok e ∧ a.acqOptimizer ∈ ["auto", "lbfgs", "sampling"] ∧
      (a.acqOptimizer = "lbfgs" → hasGradients (wrapPs acq e) = true) ∧ b.est = wrapPs acq e ∧
      (b.cfg.lbfgs = true ↔ hasGradients (wrapPs acq e) = true ∧ a.acqOptimizer ≠ "sampling") ∧
      b.cfg.acq = acq ∧ b.cfg.nInitial = a.initial ∧ b.cfg.queueSize = a.queueSize ∧
      b.cfg.hasEst = !(wrapPs acq e).isNone ∧ b.cfg.isGP = Est.isGP (wrapPs acq e) ∧
      a.base.cookedDims dims objects = .ok cooked ∧
      b.dims = if Est.isGP (wrapPs acq e) then cooked.map Dim.normalized else cooked) := by
  unfold buildOptimizer
  cases hacq : acqOf a.acqFunc with
  | none => exact .inl ⟨rfl, .inl ((acqOf_none_iff _).1 hacq)⟩
  | some acq =>
    simp only
    by_cases hn : a.nRandomStarts.getD a.nInitialPoints < 0
    · rw [if_pos hn]; exact .inl ⟨rfl, .inr (.inl hn)⟩
    rw [if_neg hn]
    obtain ⟨cd, hcd⟩ := cookedDims_ok dims objects a.base
    rcases cook_valid dims a.base with ⟨hv, e, he, hreg⟩ | ⟨hv, he | ⟨e, he, hreg⟩⟩
    · simp only [he, hcd, bind, Except.bind, if_neg hreg]
      rcases mkConfig_cases (a.checked acq (wrapPs acq e)) acq rfl rfl (not_lt.1 hn) with
        ⟨h, h'⟩ | ⟨c, h, h1, h2, h3, h4, h5, h6, h7, h8⟩
      · rw [h]
        refine .inl ⟨rfl, ?_⟩
        rcases h' with h' | ⟨h', h''⟩
        · exact .inr (.inr (.inr (.inl ((optOf_other_iff _).1 h'))))
        · exact .inr (.inr (.inr (.inr ⟨(optOf_lbfgs_iff _).1 h', acq, e, rfl, rfl, h''⟩)))
      · rw [h]
        simp only [CtorArgs.checked] at h1 h2 h3 h5 h6 h7 h8 ⊢
        have hopt : a.acqOptimizer ∈ ["auto", "lbfgs", "sampling"] := by
          by_contra hcon
          exact h1 ((optOf_other_iff _).2 hcon)
        by_cases hgp : Est.isGP (wrapPs acq e) = true
        · rw [if_pos hgp, setTransformer_normalize]
          refine .inr ⟨_, acq, e, cd, rfl, rfl, not_lt.1 hn, hv, rfl, hopt,
            fun hl => h2 ((optOf_lbfgs_iff _).2 hl), rfl, ?_, h4, h5, h6, h7, h8, rfl, by rw [if_pos hgp]⟩
          rw [h3, Ne, optOf_sampling_iff]
        · rw [if_neg hgp]
          refine .inr ⟨_, acq, e, cd, rfl, rfl, not_lt.1 hn, hv, rfl, hopt,
            fun hl => h2 ((optOf_lbfgs_iff _).2 hl), rfl, ?_, h4, h5, h6, h7, h8, rfl, by rw [if_neg hgp]⟩
          rw [h3, Ne, optOf_sampling_iff]
    · simp only [he, bind, Except.bind]
      exact .inl ⟨by first | rfl | trivial, .inr (.inr (.inl hv))⟩
    · simp only [he, hcd, bind, Except.bind, if_pos hreg]
      exact .inl ⟨by first | rfl | trivial, .inr (.inr (.inl hv))⟩

/-- A successful result with a computable feature. -/
theorem ok_with {α : Type} {r : Except PyErr α} (f : α → Bool)
    (h : (match r with | .ok b => f b | .error _ => false) = true) : ∃ b, r = .ok b ∧ f b = true := by
  cases r with
  | ok b => exact ⟨b, rfl, h⟩
  | error e => cases h

/-! ## C63 -/

/-- **C63 (restricted).** For acquisition functions that are not per second and skopt's own estimators, construction
passes its argument checks exactly when the acquisition function is one of the six names, the number of initial points
(after the deprecated `n_random_starts`) is not negative, the base estimator is a known name, a regressor or `None`,
the acquisition optimizer is "auto", "lbfgs" or "sampling", and "lbfgs" is asked for only if the surrogate provides
gradients.  Otherwise it raises ValueError.  An accepted optimizer uses L-BFGS exactly if the surrogate provides
gradients and "sampling" was not asked for.

Missing: the per-second functions, multi-output regressors and regressors of other classes, for which the check for
gradients is wrong (see the refutations). -/
theorem C63_constructor_partial (dims : List (Dim F)) (objects : Bool) (a : CtorArgs) (hown : OwnEstimator a.base)
    (hps : a.acqFunc ≠ "EIps" ∧ a.acqFunc ≠ "PIps") :
    ((∃ b, buildOptimizer dims objects a = .ok b) ↔
      a.acqFunc ∈ ["gp_hedge", "EI", "LCB", "PI", "EIps", "PIps"] ∧ 0 ≤ a.initial ∧ ValidBase a.base ∧
      a.acqOptimizer ∈ ["auto", "lbfgs", "sampling"] ∧ (a.acqOptimizer = "lbfgs" → BaseGradients dims a.base)) ∧
    (∀ err, buildOptimizer dims objects a = .error err → err = .valueError) ∧
    (∀ b, buildOptimizer dims objects a = .ok b →
      (b.cfg.lbfgs = true ↔ BaseGradients dims a.base ∧ a.acqOptimizer ≠ "sampling") ∧
      b.cfg.nInitial = a.initial ∧ b.cfg.queueSize = a.queueSize) := by
  have hwrap : ∀ acq e, acqOf a.acqFunc = some acq → wrapPs acq e = e := by
    intro acq e h
    have : acq.isPs = false := by
      revert h
      unfold acqOf
      split <;> intro h <;> cases h <;> first | rfl | simp_all
    simp [wrapPs, this]
  rcases build_cases dims objects a with ⟨hb, hwhy⟩ |
    ⟨b, acq, e, cd, hb, hacq, hn, hv, he, hopt, hl, _, hlb, _, hni, hq, _, _, _, _⟩
  · refine ⟨⟨fun ⟨b, h⟩ => (by rw [hb] at h; cases h), ?_⟩, fun err h => (by rw [hb] at h; cases h; rfl),
      fun b h => (by rw [hb] at h; cases h)⟩
    rintro ⟨h1, h2, h3, h4, h5⟩
    exfalso
    rcases hwhy with h | h | h | h | ⟨h, acq, e, hacq, he, hg⟩
    · exact h h1
    · omega
    · exact h h3
    · exact h h4
    · rw [hwrap acq e hacq] at hg
      have := (hasGradients_own hown h3 he).2 (h5 h)
      rw [hg] at this
      cases this
  · rw [hwrap acq e hacq] at hl hlb
    refine ⟨⟨fun _ => ⟨?_, hn, hv, hopt, fun h => (hasGradients_own hown hv he).1 (hl h)⟩, fun _ => ⟨b, hb⟩⟩,
      fun err h => (by rw [hb] at h; cases h), ?_⟩
    · by_contra hcon
      rw [(acqOf_none_iff _).2 hcon] at hacq
      cases hacq
    · intro b' h
      have : b = b' := Except.ok.inj (hb.symm.trans h)
      subst this
      exact ⟨by rw [hlb, hasGradients_own hown hv he], hni, hq⟩

/-- **C63 (surrogate).** An accepted optimizer uses the acquisition function it was told to and the surrogate the
argument stands for; the per-second functions wrap it in a multi-output regressor (value and time) unless it is one
already. -/
theorem C63_surrogate (dims : List (Dim F)) (objects : Bool) (a : CtorArgs) (b : Built F)
    (h : buildOptimizer dims objects a = .ok b) :
    (a.acqFunc, b.cfg.acq) ∈ [("gp_hedge", AcqFunc.gpHedge), ("EI", .EI), ("LCB", .LCB), ("PI", .PI),
      ("EIps", .EIps), ("PIps", .PIps)] ∧
    ∃ e, Denotes a.base e ∧
      (a.acqFunc ∉ ["EIps", "PIps"] → b.est = e) ∧
      (a.acqFunc ∈ ["EIps", "PIps"] → ∀ e₁, e = some e₁ →
        ((∃ e₂, e₁ = .multi e₂) ∨ e₁ = .multiNone → b.est = e) ∧
        ((∀ e₂, e₁ ≠ .multi e₂) ∧ e₁ ≠ .multiNone → b.est = some (.multi e₁))) := by
  rcases build_cases dims objects a with ⟨hb, -⟩ |
    ⟨b', acq, e, cd, hb, hacq, -, -, he, -, -, hest, -, hcacq, -⟩
  · rw [hb] at h; cases h
  · have : b' = b := Except.ok.inj (hb.symm.trans h)
    subst this
    have hpair : (a.acqFunc, acq) ∈ [("gp_hedge", AcqFunc.gpHedge), ("EI", .EI), ("LCB", .LCB), ("PI", .PI),
        ("EIps", .EIps), ("PIps", .PIps)] := by
      revert hacq
      unfold acqOf
      split <;> intro h <;> cases h <;> simp_all
    have hps : acq.isPs = true ↔ a.acqFunc ∈ ["EIps", "PIps"] := by
      simp only [List.mem_cons, Prod.mk.injEq, List.not_mem_nil, or_false] at hpair
      rcases hpair with ⟨h1, rfl⟩ | ⟨h1, rfl⟩ | ⟨h1, rfl⟩ | ⟨h1, rfl⟩ | ⟨h1, rfl⟩ | ⟨h1, rfl⟩ <;>
        rw [h1] <;> decide
    refine ⟨by rw [hcacq]; exact hpair, e, ?_, ?_, ?_⟩
    · cases hbase : a.base with
      | object o =>
        rw [hbase] at he
        simp only [BaseArg.cook, Except.ok.injEq] at he
        exact he.symm
      | name s =>
        rw [hbase] at he
        simp only [BaseArg.cook, cookEstimator] at he
        simp only [Denotes]
        split at he
        · next hs =>
          simp only [bind_eq_ok, Except.ok.injEq] at he
          obtain ⟨nd, -, rfl⟩ := he
          exact Or.inl ⟨hs, _, rfl⟩
        · next hs => injection he with he; subst he; exact Or.inr (Or.inl ⟨hs, rfl⟩)
        · next hs => injection he with he; subst he; exact Or.inr (Or.inr (Or.inl ⟨hs, rfl⟩))
        · next hs => injection he with he; subst he; exact Or.inr (Or.inr (Or.inr (Or.inl ⟨hs, rfl⟩)))
        · next hs => injection he with he; subst he; exact Or.inr (Or.inr (Or.inr (Or.inr ⟨hs, rfl⟩)))
        · cases he
    · intro hn
      have : acq.isPs = false := by
        cases hq : acq.isPs
        · rfl
        · exact absurd (hps.1 hq) hn
      rw [hest]; simp [wrapPs, this]
    · intro hin e₁ he₁
      subst he₁
      have hq := hps.2 hin
      constructor
      · rintro (⟨e₂, rfl⟩ | rfl) <;> rw [hest] <;> simp [wrapPs, Est.isMulti]
      · rintro ⟨h1, h2⟩
        have hm : Est.isMulti (some e₁) = false := by
          cases e₁ <;> first | rfl | exact absurd rfl (h1 _) | exact absurd rfl h2
        rw [hest]; simp [wrapPs, hq, hm]

/-- A per-second acquisition function with the default surrogate, and with a multi-output regressor. -/
example : (∃ b, buildOptimizer (F := ℚ) [.real ⟨0, 10, .uniform, 10, .identity, none, id⟩] false
      { acqFunc := "EIps" } = .ok b ∧
      (match b.est with | some (.multi (.gp _)) => true | _ => false) = true) ∧
    ∃ b, buildOptimizer (F := ℚ) [.real ⟨0, 10, .uniform, 10, .identity, none, id⟩] false
      { acqFunc := "PIps", base := .object (some (.multi .forest)) } = .ok b ∧
      (match b.est with | some (.multi .forest) => true | _ => false) = true :=
  ⟨ok_with _ (by decide +kernel), ok_with _ (by decide +kernel)⟩

/-- A space with a numeric and a categorical dimension of three categories (one-hot encoded, as by default). -/
def ctorDims : List (Dim ℚ) := [.real ⟨0, 10, .uniform, 10, .identity, none, id⟩,
  .cat ⟨[.str "a", .str "b", .str "c"], none, .onehot, none, fun _ => "", fun s => .ok (.str s)⟩]

/-- A space of categories only. -/
def ctorCats : List (Dim ℚ) :=
  [.cat ⟨[.str "a", .str "b", .str "c"], none, .onehot, none, fun _ => "", fun s => .ok (.str s)⟩]

/-- Meets the hypotheses of `C63_constructor_partial`. -/
example : ∃ b, buildOptimizer ctorDims false { acqFunc := "EI", acqOptimizer := "lbfgs" } = .ok b ∧
    b.cfg.lbfgs = true := ok_with (fun b : Built ℚ => b.cfg.lbfgs) (by decide +kernel)

example : ∃ b, buildOptimizer ctorCats false { acqFunc := "EI" } = .ok b ∧ b.cfg.lbfgs = false := by
  obtain ⟨b, h, h'⟩ := ok_with (r := buildOptimizer ctorCats false { acqFunc := "EI" }) (!·.cfg.lbfgs)
    (by decide +kernel)
  exact ⟨b, h, by simpa using h'⟩

example : OwnEstimator ({ base := .name "rf", acqFunc := "LCB" } : CtorArgs).base := trivial

/-- **C63 refuted.** With a per-second acquisition function the trees are hidden inside a multi-output regressor, and
the check takes it for an estimator with gradients: "lbfgs" is accepted, and even chosen by "auto", for a random
forest. -/
theorem C63_refuted_trees_per_second : ¬ BaseGradients ctorDims (.name "RF") ∧
    (∃ b, buildOptimizer ctorDims false { base := .name "RF", acqFunc := "EIps", acqOptimizer := "lbfgs" } = .ok b ∧
      b.cfg.lbfgs = true) ∧
    ∃ b, buildOptimizer ctorDims false { base := .name "RF", acqFunc := "EIps" } = .ok b ∧ b.cfg.lbfgs = true := by
  refine ⟨?_, ok_with (fun b : Built ℚ => b.cfg.lbfgs) (by decide +kernel),
    ok_with (fun b : Built ℚ => b.cfg.lbfgs) (by decide +kernel)⟩
  rintro ⟨h, _⟩
  revert h
  decide +kernel

/-- **C63 refuted.** On a categorical space with a per-second acquisition function, "auto" chooses L-BFGS although the
kernel of the default Gaussian process is then a Hamming kernel, which has no gradient. -/
theorem C63_refuted_categorical_per_second : ¬ BaseGradients ctorCats (.name "gp") ∧
    ∃ b, buildOptimizer ctorCats false { acqFunc := "PIps" } = .ok b ∧ b.cfg.lbfgs = true := by
  refine ⟨?_, ok_with (fun b : Built ℚ => b.cfg.lbfgs) (by decide +kernel)⟩
  rintro ⟨_, d, hd, h⟩
  simp only [ctorCats, List.mem_cons, List.not_mem_nil, or_false] at hd
  subst hd
  cases h

/-- **C63 refuted.** Every regressor of another class counts as providing gradients, whether it does or not. -/
theorem C63_refuted_other_regressor : ¬ BaseGradients ctorDims (.object (some (.regressor none false))) ∧
    ∃ b, buildOptimizer ctorDims false { base := .object (some (.regressor none false)), acqFunc := "EI" } = .ok b ∧
      b.cfg.lbfgs = true := by
  refine ⟨?_, ok_with (fun b : Built ℚ => b.cfg.lbfgs) (by decide +kernel)⟩
  rintro h
  cases h

/-- **C63 refuted.** The documentation promises that "auto" chooses sampling on a categorical space; for a Gaussian
process object with a kernel of one's own it chooses L-BFGS. -/
theorem C63_refuted_auto_on_categories : (∀ d ∈ ctorCats, d.isCat = true) ∧
    ∃ b, buildOptimizer ctorCats false { base := .object (some (.gp (some (.matern 1)))), acqFunc := "EI" } = .ok b ∧
      b.cfg.lbfgs = true := by
  refine ⟨?_, ok_with (fun b : Built ℚ => b.cfg.lbfgs) (by decide +kernel)⟩
  intro d hd
  simp only [ctorCats, List.mem_cons, List.not_mem_nil, or_false] at hd
  subst hd
  rfl

/-- **C63 refuted.** A multi-output regressor around `None` counts as an estimator: with the name "dummy" and a
per-second acquisition function the optimizer will try to fit it. -/
theorem C63_refuted_dummy_per_second :
    ∃ b, buildOptimizer ctorDims false { base := .name "dummy", acqFunc := "EIps" } = .ok b ∧
      b.cfg.hasEst = true ∧ b.est = some .multiNone := by
  obtain ⟨b, h, h'⟩ := ok_with
    (r := buildOptimizer ctorDims false { base := .name "dummy", acqFunc := "EIps" })
    (fun b => b.cfg.hasEst && (match b.est with | some .multiNone => true | _ => false)) (by decide +kernel)
  rw [Bool.and_eq_true] at h'
  refine ⟨b, h, h'.1, ?_⟩
  have h2 := h'.2
  match hb : b.est with
  | some .multiNone => rfl
  | none => rw [hb] at h2; cases h2
  | some (.gp _) | some .forest | some .extraTrees | some .gbrt | some (.multi _) | some (.regressor _ _)
  | some .notRegressor => rw [hb] at h2; cases h2

/-! ## C72 -/

/-- The numbers of length scales of the kernels in an estimator that have one per dimension. -/
def Kern.scales : Kern → List Nat
  | .matern n => [n]
  | .hamming n => [n]
  | .sum a b => a.scales ++ b.scales
  | .prod a b => a.scales ++ b.scales
  | .expo a => a.scales
  | _ => []

/-- The numbers of length scales in an estimator. -/
def Est.scales : Est → List Nat
  | .gp (some k) => k.scales
  | .multi e => e.scales
  | _ => []

/-- The number of columns of the matrix the surrogate is fitted on. -/
def columns (dims : List (Dim F)) : Nat := (dims.map Dim.transformedSize).sum

/-- **C72 (restricted).** The default Gaussian process has one length scale per column of the matrix it is fitted on,
if the acquisition function is not per second, or the dimensions were given as objects, or no dimension takes more
than one column.

Missing: per-second functions with dimensions given as tuples and lists (see the refutation). -/
theorem C72_kernel_matches_columns_partial (dims : List (Dim F)) (objects : Bool) (a : CtorArgs) (s : String)
    (hbase : a.base = .name s) (hgp : s.toUpper = "GP") (b : Built F)
    (h : buildOptimizer dims objects a = .ok b)
    (hok : (a.acqFunc ≠ "EIps" ∧ a.acqFunc ≠ "PIps") ∨ objects = true ∨ ∀ d ∈ dims, d.transformedSize = 1) :
    ∃ e, b.est = some e ∧ e.scales = [columns b.dims] := by
  rcases build_cases dims objects a with ⟨hb, _⟩ |
    ⟨b', acq, e, cd, hb, hacq, _, _, he, _, _, hest, _, _, _, _, _, _, hcd, hdims⟩
  · rw [hb] at h; cases h
  have hbb : b' = b := Except.ok.inj (hb.symm.trans h)
  subst hbb
  rw [hbase] at he hcd
  have he' : e = some (.gp (some (defaultKernel dims))) := Except.ok.inj (he.symm.trans (cook_gp s dims hgp))
  subst he'
  have hsc : (defaultKernel dims).scales = [dims.length] := by
    unfold defaultKernel
    split_ifs <;> rfl
  have hcols : ∀ l : List (Dim F), columns (l.map Dim.normalized) = l.length := normalized_sizes
  by_cases hps : acq.isPs = true
  · have hw : wrapPs acq (some (.gp (some (defaultKernel dims)))) = some (.multi (.gp (some (defaultKernel dims)))) := by
      simp [wrapPs, hps, Est.isMulti]
    rw [hw] at hest hdims
    refine ⟨_, hest, ?_⟩
    simp only [Est.scales, hsc, hdims, Est.isGP, Bool.false_eq_true, if_false]
    congr 1
    rcases hok with ⟨h1, h2⟩ | hobj | hone
    · exfalso
      have : acq.isPs = false := by
        revert hacq
        unfold acqOf
        split <;> intro hacq <;> cases hacq <;> first | rfl | contradiction
      rw [hps] at this
      cases this
    · simp only [BaseArg.cookedDims, hgp, hobj, and_self, if_true, setTransformer_normalize] at hcd
      rw [← Except.ok.inj hcd, hcols]
    · simp only [BaseArg.cookedDims, hgp, true_and] at hcd
      by_cases hobj : objects = true
      · rw [if_pos hobj, setTransformer_normalize] at hcd
        rw [← Except.ok.inj hcd, hcols]
      · rw [if_neg hobj] at hcd
        rw [← Except.ok.inj hcd]
        have : ∀ l : List (Dim F), (∀ d ∈ l, d.transformedSize = 1) → l.length = columns l := by
          intro l hl
          induction l with
          | nil => rfl
          | cons d l ih =>
            have h1 := hl d List.mem_cons_self
            have h2 := ih fun d hd => hl d (List.mem_cons_of_mem _ hd)
            simp only [columns, List.map_cons, List.sum_cons, List.length_cons, h1] at h2 ⊢
            omega
        exact this dims hone
  · have hw : wrapPs acq (some (.gp (some (defaultKernel dims)))) = some (.gp (some (defaultKernel dims))) := by
      simp [wrapPs, hps]
    rw [hw] at hest hdims
    refine ⟨_, hest, ?_⟩
    simp only [Est.scales, hsc, hdims, Est.isGP, if_true, hcols]
    simp only [BaseArg.cookedDims, hgp, true_and] at hcd
    by_cases hobj : objects = true
    · rw [if_pos hobj, setTransformer_normalize] at hcd
      rw [← Except.ok.inj hcd, List.length_map]
    · rw [if_neg hobj] at hcd
      rw [← Except.ok.inj hcd]

example : ∃ b, buildOptimizer ctorDims false { acqFunc := "EI" } = .ok b ∧ columns b.dims = 2 := by
  obtain ⟨b, h, h'⟩ := ok_with (r := buildOptimizer ctorDims false { acqFunc := "EI" })
    (fun b => columns b.dims == 2) (by decide +kernel)
  exact ⟨b, h, by simpa using h'⟩

/-- **C72 refuted.** For dimensions given as tuples and lists and a per-second acquisition function, the kernel is made
for the normalized space but the surrogate is fitted on the one-hot encoded one: two length scales, four columns. -/
theorem C72_refuted_per_second : ∃ b e, buildOptimizer ctorDims false { acqFunc := "EIps" } = .ok b ∧
    b.est = some e ∧ e.scales = [2] ∧ columns b.dims = 4 := by
  obtain ⟨b, h, h'⟩ := ok_with (r := buildOptimizer ctorDims false { acqFunc := "EIps" })
    (fun b => (b.est.map Est.scales == some [2]) && (columns b.dims == 4)) (by decide +kernel)
  rw [Bool.and_eq_true, beq_iff_eq, beq_iff_eq] at h'
  match hb : b.est with
  | none => rw [hb] at h'; cases h'.1
  | some e =>
    rw [hb] at h'
    exact ⟨b, e, h, hb, Option.some.inj h'.1, h'.2⟩

end Skopt

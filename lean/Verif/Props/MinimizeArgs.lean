import Verif.Props.Minimize
import Verif.Props.OptimizerHistory

/-!
# C44–C46: rejected calls, `dummy_minimize`, arguments left alone
-/

namespace Skopt

variable {F M R G : Type} [LinearOrder F]

/-! ## C44 -/

/-- A call that should be refused because of its budget or the form of its arguments: an empty or
unusable `x0`, no initial points at all, a budget below the required evaluations, starting points of the
wrong dimension, values that do not match the starting points, or callbacks that are not callable.
`n` is the number of initial points asked for. -/
inductive Refusable (m : MinArgs F M) (nDims : Nat) (n : ℤ) : Prop where
  | emptyList (h : m.x0 = .list [])
  | emptyTuple (h : m.x0 = .tuple [])
  | tupleOfPoints (p : Point F) (l : List (Val F)) (h : m.x0 = .tuple (.seq p :: l))
  | notSubscriptable (h : m.x0 = .other)
  | noStart (h : m.x0 = .none) (hn : n ≤ 0)
  | budget (st : Starts F) (h : m.x0 = st.toX0) (hst : st.Proper) (hy : m.y0 = .none)
      (hb : m.nCalls < n + st.all.length)
  | budgetGiven (st : Starts F) (h : m.x0 = st.toX0) (hst : st.Proper) (hy : m.y0 ≠ .none)
      (hb : m.nCalls < n)
  | negative (st : Starts F) (h : m.x0 = st.toX0) (hst : st.Proper) (hb : n + st.all.length < 0)
  | wrongDimension (st : Starts F) (h : m.x0 = st.toX0) (hst : st.Proper)
      (hd : ∃ p ∈ st.all, p.length ≠ nDims)
  | values (st : Starts F) (h : m.x0 = st.toX0) (hst : st.Proper) (hne : st.all ≠ [])
      (ys : List (YArg F)) (hy : m.y0 = .iter ys) (hl : ys.length ≠ st.all.length)
  | noValues (st : Starts F) (h : m.x0 = st.toX0) (hst : st.Proper) (hne : st.all ≠ [])
      (hy : m.y0 = .other)
  | callbacks (h : m.callback = .invalid)

omit [LinearOrder F] in
theorem setTransformers_length {dims dims' : List (Dim F)} {ts : List TKind}
    (h : Space.setTransformers dims ts = .ok dims') : dims'.length = dims.length := by
  induction dims generalizing dims' ts with
  | nil => simp only [Space.setTransformers, Except.ok.injEq] at h; rw [← h]
  | cons d ds ih =>
    cases ts with
    | nil => cases h
    | cons t ts =>
      simp only [Space.setTransformers, bind_eq_ok, Except.ok.injEq] at h
      obtain ⟨d', _, ds', h2, rfl⟩ := h
      simp [ih h2]

omit [LinearOrder F] in
theorem init_dims_length {A : Arith F} {W : World F M R G} {sh sh₁ : Shared F G} {cfg : Config}
    {rng : R} {s : Opt F M R}
    (hW : ∀ g dims n r, (W.generate g dims n r).2.1.length = dims.length)
    (h : Opt.init A W sh cfg rng = (sh₁, .ok s)) : sh₁.dims.length = sh.dims.length := by
  unfold Opt.init at h
  split at h
  · cases h
  · next dims hdims =>
    have hl : dims.length = sh.dims.length := by
      split at hdims
      · rw [setTransformer_normalize] at hdims
        injection hdims with hdims
        rw [← hdims]; simp
      · injection hdims with hdims
        rw [hdims]
    split at h
    · simp only [Prod.mk.injEq] at h
      rw [← h.1]; exact hl
    · next g _ =>
      have hlen := hW g dims cfg.nInitial (W.seed rng).2
      dsimp only at h
      generalize W.generate g dims cfg.nInitial (W.seed rng).2 = q at h hlen
      obtain ⟨g', dims', o⟩ := q
      cases o with
      | error e => cases h
      | ok P =>
        simp only at h hlen
        split at h
        · cases h
        · next dims'' hset =>
          simp only [Prod.mk.injEq] at h
          rw [← h.1]
          have := setTransformers_length hset
          simp only
          omega

/-- **C44.** A call that is refused for one of these reasons raises and has not evaluated the objective.

Missing: starting points of the right length that lie outside the space; they are evaluated before `tell`
refuses them (`C44_refuted_outside_space`). -/
theorem C44_refused_without_evaluation_partial (A : Arith F) (W : World F M R G) (sh : Shared F G)
    (func : Objective F) (m : MinArgs F M) (rng : R)
    (hW : ∀ g dims n r, (W.generate g dims n r).2.1.length = dims.length)
    (hm : Refusable m sh.dims.length (m.nRandomStarts.getD m.nInitialPoints)) :
    (∃ e, (baseMinimize A W sh func m rng).result = .error e) ∧
      evalsOf (baseMinimize A W sh func m rng).trace = [] := by
  -- the stages
  cases hp : m.prepare with
  | error e => exact ⟨⟨e, by simp [baseMinimize, hp]⟩, by simp [baseMinimize, hp, evalsOf]⟩
  | ok q =>
    obtain ⟨x0, n⟩ := q
    obtain ⟨hn, hpts, hpos, hbud⟩ := prepare_ok hp
    subst hn
    have hst : ∀ st : Starts F, m.x0 = st.toX0 → st.Proper → x0 = st.all.map Val.seq := by
      intro st h1 h2
      rw [h1, Starts.points_eq h2] at hpts
      injection hpts with hpts
      exact hpts.symm
    cases hc : mkConfig (m.optArgs (m.nRandomStarts.getD m.nInitialPoints + x0.length)) with
    | error e => exact ⟨⟨e, by simp [baseMinimize, hp, hc]⟩, by simp [baseMinimize, hp, hc, evalsOf]⟩
    | ok cfg =>
      cases hi : (Opt.init A W sh cfg rng : Shared F G × Except PyErr (Opt F M R)) with
      | mk sh₁ so =>
      cases so with
      | error e =>
        exact ⟨⟨e, by simp [baseMinimize, hp, hc, hi]⟩, by simp [baseMinimize, hp, hc, hi, evalsOf]⟩
      | ok s =>
        cases hs : checkStarts sh₁.dims.length x0 with
        | error e =>
          exact ⟨⟨e, by simp [baseMinimize, hp, hc, hi, hs]⟩,
            by simp [baseMinimize, hp, hc, hi, hs, evalsOf]⟩
        | ok _ =>
          cases hcb : checkCallback m.callback with
          | error e =>
            exact ⟨⟨e, by simp [baseMinimize, hp, hc, hi, hs, hcb]⟩,
              by simp [baseMinimize, hp, hc, hi, hs, hcb, evalsOf]⟩
          | ok cbs =>
            -- only mismatched values get this far
            have hbody : x0 ≠ [] → (startValues (M := M) func x0 m.y0 = ([], .error .valueError)) →
                (∃ e, (baseMinimize A W sh func m rng).result = .error e) ∧
                  evalsOf (baseMinimize A W sh func m rng).trace = [] := by
              intro hx hv
              have hx' : x0.isEmpty = false := by cases x0 <;> simp_all
              constructor
              · exact ⟨.valueError, by
                  simp [baseMinimize, hp, hc, hi, hs, hcb, minimizeBody, hx', hv]⟩
              · simp [baseMinimize, hp, hc, hi, hs, hcb, minimizeBody, hx', hv, evalsOf]
            cases hm with
            | emptyList h => rw [h] at hpts; cases hpts
            | emptyTuple h => rw [h] at hpts; cases hpts
            | tupleOfPoints p l h => rw [h] at hpts; simp [X0.points, Val.isSeq] at hpts
            | notSubscriptable h => rw [h] at hpts; cases hpts
            | noStart h hn =>
              exfalso
              rw [h] at hpts
              simp only [X0.points, Except.ok.injEq] at hpts
              have := hpos hpts.symm
              omega
            | budget st h h' hy hb =>
              exfalso
              have := hst st h h'
              rw [hy] at hbud
              simp only [Y0.falsy, Y0.values, if_true, this, List.length_map] at hbud
              omega
            | budgetGiven st h h' hy hb =>
              exfalso
              split at hbud <;> omega
            | negative st h h' hb =>
              exfalso
              have := hst st h h'
              rw [this] at hc
              simp only [mkConfig, MinArgs.optArgs, Option.getD_none, List.length_map] at hc
              split at hc
              · cases hc
              · rw [if_pos hb] at hc; cases hc
            | wrongDimension st h h' hd =>
              exfalso
              obtain ⟨p, hp', hl⟩ := hd
              have := hst st h h'
              rw [this, init_dims_length hW hi] at hs
              unfold checkStarts at hs
              split at hs
              · cases hs
              · split at hs
                · cases hs
                · next hall =>
                  rw [not_not, List.all_eq_true] at hall
                  have := hall (.seq p) (List.mem_map_of_mem hp')
                  simp [Val.len?] at this
                  exact hl this
            | values st h h' hne ys hy hl =>
              have hx := hst st h h'
              refine hbody ?_ ?_
              · rw [hx]; simpa using hne
              · rw [hy, hx]
                simp only [startValues, Y0.values, List.length_map]
                rw [if_pos fun e => hl e.symm]
            | noValues st h h' hne hy =>
              have hx := hst st h h'
              refine hbody ?_ ?_
              · rw [hx]; simpa using hne
              · rw [hy]; rfl
            | callbacks h => rw [h] at hcb; cases hcb

/-- **C44.** A call that returns, returns a result with at least one observation. -/
theorem C44_returns_observation (A : Arith F) (W : World F M R G) (sh : Shared F G)
    (func : Objective F) (m : MinArgs F M) (rng : R) (res : Option (Result F M))
    (h : (baseMinimize A W sh func m rng).result = .ok res) :
    ∃ r, res = some r ∧ r.xIters ≠ [] := by
  obtain ⟨x0, cfg, sh₁, s, cbs, h1, h2, h3, h4, h5, h6⟩ := baseMinimize_ok h
  obtain ⟨-, hpts, hpos, hbud⟩ := prepare_ok h1
  rw [h] at h6
  have htell : ∀ {s t : Opt F M R} {x : XArg F} {y : YArg F} {r : Result F M},
      tell A W sh₁.dims s x y true = (t, .ok r) → r.xIters ≠ [] := by
    intro s t x y r ht
    have := C30_tell_returns_result A W sh₁.dims s x y true r (by rw [ht])
    obtain ⟨j1, _, j3⟩ := createResult_parts this
    rw [j1]; exact j3
  have hloop : ∀ (n : Nat) (done : List (Val F)) (hist : List (Result F M)) (s : Opt F M R)
      (last : Option (Result F M)) (t : List (Event F M)) (o : Option (Result F M)),
      minimizeLoop A W sh₁.dims func cbs n done hist s last = (t, .ok o) →
      (n ≠ 0 ∨ ∃ r, last = some r ∧ r.xIters ≠ []) → ∃ r, o = some r ∧ r.xIters ≠ [] := by
    intro n
    induction n with
    | zero =>
      intro done hist s last t o hl hor
      simp only [minimizeLoop, Prod.mk.injEq, Except.ok.injEq] at hl
      rcases hor with hor | hor
      · exact absurd rfl hor
      · rw [← hl.2]; exact hor
    | succ n ih =>
      intro done hist s last t o hl _
      simp only [minimizeLoop] at hl
      split at hl
      · cases hl
      · split at hl
        · cases hl
        · split at hl
          · cases hl
          · next s₂ r ht =>
            have hne := htell ht
            split at hl
            · cases hl
            · simp only [Prod.mk.injEq, Except.ok.injEq] at hl
              exact ⟨r, hl.2.symm, hne⟩
            · next t₁ _ =>
              generalize hg : minimizeLoop A W sh₁.dims func cbs n _ _ s₂ (some r) = q at hl
              obtain ⟨t', o'⟩ := q
              simp only [Prod.mk.injEq] at hl
              obtain ⟨-, rfl⟩ := hl
              exact ih _ _ _ _ _ _ hg (Or.inr ⟨r, rfl, hne⟩)
  unfold minimizeBody at h6
  split at h6
  · next hx =>
    refine hloop _ _ _ _ _ _ _ h6.symm (Or.inl ?_)
    rw [List.isEmpty_iff] at hx
    have := hpos hx
    subst hx
    simp at hbud
    omega
  · split at h6
    · cases h6
    · split at h6
      · cases h6
      · next s₂ r ht =>
        have hne := htell ht
        split at h6
        · simp only [Prod.mk.injEq] at h6
          cases h6.2
        · simp only [Prod.mk.injEq, Except.ok.injEq] at h6
          exact ⟨r, h6.2, hne⟩
        · generalize hg : minimizeLoop A W sh₁.dims func cbs _ _ _ s₂ (some r) = q at h6
          obtain ⟨t', o'⟩ := q
          simp only [Prod.mk.injEq] at h6
          obtain ⟨-, rfl⟩ := h6
          exact hloop _ _ _ _ _ _ _ hg (Or.inr ⟨r, rfl, hne⟩)

/-- Calls that are refused: too small a budget, and values that do not match.
Meets the hypotheses of `C44_refused_without_evaluation_partial`. -/
example : Refusable { toyMin .none with nCalls := 2 } 1 2 ∧
    Refusable { toyMin .none with y0 := .iter [] } 1 2 := by
  refine ⟨.budget (.points [[.num 3]]) rfl (by simp [Starts.Proper]) rfl (by simp [Starts.all]),
    .values (.points [[.num 3]]) rfl (by simp [Starts.Proper]) (by simp [Starts.all]) [] rfl
      (by simp [Starts.all])⟩

/-- **C44 is false for starting points outside the space**: `Real(0, 10)` with `x0 = [[11]]`; the
objective is evaluated at 11, then the call raises `ValueError`. -/
theorem C44_refuted_outside_space :
    let m : MinArgs ℚ Nat := { toyMin .none with x0 := .list [.seq [.num 11]] }
    let out := baseMinimize ratArith okWorld toyShared countingObjective m 0
    evalsOf out.trace = [.seq [.num 11]] ∧ out.result.toOption.isSome = false := by
  refine ⟨?_, ?_⟩ <;> decide +kernel

/-! ## C45 -/

/-- **C45.** `dummy_minimize` without starting points, or with a list of at most `n_calls` starting
points, or with values for its starting points: if it returns without having been stopped, it has
evaluated the objective exactly `n_calls` times.

Missing: a single starting point written without the outer list, and more starting points than calls. -/
theorem C45_dummy_budget_partial (A : Arith F) (W : World F M R G) (sh : Shared F G)
    (func : Objective F) (nCalls : ℤ) (st : Starts F) (y0 : Y0 F) (verbose : Bool) (cb : CbArg F M)
    (queueSize : Option ℤ) (rng : R) (res : Option (Result F M)) (hst : st.Proper) (hn : 0 ≤ nCalls)
    (hform : y0 ≠ .none ∨ st = .absent ∨ ∃ ps, st = .points ps ∧ (ps.length : ℤ) ≤ nCalls)
    (h : (dummyMinimize A W sh func nCalls st.toX0 y0 verbose cb queueSize rng).result = .ok res)
    (hgo : ∀ i r, Event.call i r (.ok (some true)) ∉
      (dummyMinimize A W sh func nCalls st.toX0 y0 verbose cb queueSize rng).trace) :
    ((evalsOf (dummyMinimize A W sh func nCalls st.toX0 y0 verbose cb queueSize rng).trace).length : ℤ) =
      nCalls := by
  have hx : y0 = .none → st ≠ .absent → ∃ ps, st = .points ps ∧ (ps.length : ℤ) ≤ nCalls := by
    intro h1 h2
    rcases hform with hf | hf | hf
    · exact absurd h1 hf
    · exact absurd hf h2
    · exact hf
  have key : ∃ m : MinArgs F M, m.x0 = st.toX0 ∧ m.nCalls = nCalls ∧
      0 ≤ m.nRandomStarts.getD m.nInitialPoints ∧
      dummyMinimize A W sh func nCalls st.toX0 y0 verbose cb queueSize rng =
        baseMinimize A W sh func m rng := by
    cases y0 with
    | none =>
      cases st with
      | absent => refine ⟨_, rfl, rfl, ?_, rfl⟩; exact hn
      | point p =>
        obtain ⟨ps, h1, _⟩ := hx rfl (by simp)
        cases h1
      | points ps =>
        obtain ⟨ps', h1, h2⟩ := hx rfl (by simp)
        injection h1 with h1
        subst h1
        refine ⟨_, rfl, rfl, ?_, rfl⟩
        simp only [Option.getD_none, List.length_map]
        omega
    | iter ys => cases st <;> (refine ⟨_, rfl, rfl, ?_, rfl⟩; exact hn)
    | num y => cases st <;> (refine ⟨_, rfl, rfl, ?_, rfl⟩; exact hn)
    | other => cases st <;> (refine ⟨_, rfl, rfl, ?_, rfl⟩; exact hn)
  obtain ⟨m, e1, e2, e3, e5⟩ := key
  rw [e5] at h hgo ⊢
  rw [← e2]
  exact (C42_exact_budget_partial A W sh func m rng st res e1 hst e3 h hgo).1

/-- A two-dimensional space. -/
def planeDims : List (Dim ℚ) :=
  [.real ⟨0, 10, .uniform, 10, .identity, none, id⟩, .real ⟨0, 10, .uniform, 10, .identity, none, id⟩]

/-- Three calls with one starting point in a list.
Meets the hypotheses of `C45_dummy_budget_partial`. -/
example :
    let out := dummyMinimize ratArith okWorld ⟨planeDims, some ()⟩ countingObjective 3
      (Starts.points [[.num 3, .num 4]]).toX0 .none false (CbArg.none : CbArg ℚ Nat) none 0
    evalsOf out.trace =
      [.seq [.num 3, .num 4], .seq [.num 2, .num 2], .seq [.num 3, .num 3]] ∧
    out.result.toOption.isSome = true := by
  refine ⟨?_, ?_⟩ <;> decide +kernel

/-- **C45 is false for a single starting point** `x0 = [3, 4]`, the first documented form: with an initial
point generator a run of three calls evaluates the starting point and one more, then raises. -/
theorem C45_refuted_single_point :
    let out := dummyMinimize ratArith okWorld ⟨planeDims, some ()⟩ countingObjective 3
      (Starts.point [.num 3, .num 4]).toX0 .none false (CbArg.none : CbArg ℚ Nat) none 0
    evalsOf out.trace = [.seq [.num 3, .num 4], .seq [.num 2, .num 2]] ∧
    (match out.result with
      | .error .indexError => true
      | _ => false) = true := by
  refine ⟨?_, ?_⟩ <;> decide +kernel

/-- **C45 is false for a single starting point in a space with more dimensions than calls**: one call in a
space of three dimensions raises `ValueError` (`Expected n_initial_points >= 0`). -/
theorem C45_refuted_single_point_many_dims :
    let out := dummyMinimize ratArith okWorld ⟨planeDims ++ toyDims, none⟩ countingObjective 1
      (Starts.point [.num 3, .num 4, .num 5]).toX0 .none false (CbArg.none : CbArg ℚ Nat) none 0
    evalsOf out.trace = [] ∧
    (match out.result with
      | .error .valueError => true
      | _ => false) = true := by
  refine ⟨?_, ?_⟩ <;> decide +kernel

/-- **C45 is false for more starting points than calls**: `n_calls = 1` with two starting points is
accepted and evaluates both. -/
theorem C45_refuted_too_many_points :
    let out := dummyMinimize ratArith okWorld ⟨planeDims, none⟩ countingObjective 1
      (Starts.points [[.num 3, .num 4], [.num 5, .num 6]]).toX0 .none false
      (CbArg.none : CbArg ℚ Nat) none 0
    evalsOf out.trace = [.seq [.num 3, .num 4], .seq [.num 5, .num 6]] ∧
    out.result.toOption.isSome = true := by
  refine ⟨?_, ?_⟩ <;> decide +kernel

/-! ## C46 -/

/-- **C46.** Without `verbose`, or with callbacks not given as a list, the caller's callback argument is
unchanged; without a Gaussian process surrogate the caller's dimensions are unchanged – whatever happens
during the run. -/
theorem C46_arguments_unchanged_partial (A : Arith F) (W : World F M R G) (hW : Restores W)
    (sh : Shared F G) (func : Objective F) (m : MinArgs F M) (rng : R)
    (hl : ∀ d ∈ sh.dims, HasLegalTransform d) :
    (m.verbose = false ∨ (∀ cs, m.callback ≠ .list cs) →
      (baseMinimize A W sh func m rng).callback = m.callback) ∧
    (m.opt.est.isGP = false → (baseMinimize A W sh func m rng).shared.dims = sh.dims) := by
  have hcb : m.verbose = false ∨ (∀ cs, m.callback ≠ .list cs) →
      (if m.verbose then m.callback.afterVerbose else m.callback) = m.callback := by
    rintro (h | h)
    · rw [h]; rfl
    · cases hm : m.callback with
      | list cs => exact absurd hm (h cs)
      | none => cases m.verbose <;> rfl
      | one c => cases m.verbose <;> rfl
      | invalid => cases m.verbose <;> rfl
  have hgp : ∀ n cfg, mkConfig (m.optArgs n) = .ok cfg → cfg.isGP = m.opt.est.isGP := by
    intro n cfg h
    simp only [mkConfig] at h
    split at h
    · cases h
    · split at h
      · cases h
      · split at h
        · cases h
        · split at h
          · cases h
          · split at h
            · cases h
            · injection h with h
              rw [← h]
              rfl
  unfold baseMinimize
  split
  · exact ⟨fun _ => rfl, fun _ => rfl⟩
  · split
    · exact ⟨fun _ => rfl, fun _ => rfl⟩
    · next x0 n hp cfg hc =>
      have hi : m.opt.est.isGP = false →
          ((Opt.init A W sh cfg rng : Shared F G × Except PyErr (Opt F M R))).1.dims = sh.dims := by
        intro h
        exact init_dims hW sh cfg rng hl (by rw [hgp _ _ hc, h]; simp)
      split
      · next sh₁ e h => rw [h] at hi; exact ⟨fun _ => rfl, hi⟩
      · next sh₁ s h =>
        rw [h] at hi
        split
        · exact ⟨fun _ => rfl, hi⟩
        · split
          · exact ⟨fun _ => rfl, hi⟩
          · exact ⟨hcb, hi⟩

/-- The hypotheses hold for a run with two dimensions and a list of callbacks. -/
example : Restores okWorld ∧ (∀ d ∈ planeDims, HasLegalTransform d) := by
  refine ⟨fun _ _ _ _ => rfl, ?_⟩
  intro d hd
  simp only [planeDims, List.mem_cons, List.not_mem_nil, or_false, or_self] at hd
  subst hd
  exact Or.inl rfl

/-- **C46 is false with `verbose=True`**: the `VerboseCallback` stays behind in the caller's list, and a
second call with the same list reports twice. -/
theorem C46_refuted_verbose :
    let m : MinArgs ℚ Nat := { toyMin (.list [silent]) with verbose := true }
    let out := baseMinimize ratArith okWorld toyShared countingObjective m 0
    (match out.callback with
      | .list cs => cs.length
      | _ => 0) = 2 ∧
    (baseMinimize ratArith okWorld toyShared countingObjective { m with callback := out.callback } 0).trace.length
      = out.trace.length + 4 := by
  refine ⟨?_, ?_⟩ <;> decide +kernel

/-- **C46 is false with a Gaussian process**: the caller's dimension objects are switched to the
`normalize` transform. -/
theorem C46_refuted_gp :
    (baseMinimize ratArith okWorld ⟨planeDims, none⟩ countingObjective
      { toyMin .none with x0 := .none } 0).shared.dims.map Dim.tkind = [.normalize, .normalize] ∧
    planeDims.map Dim.tkind = [.identity, .identity] := by
  refine ⟨?_, ?_⟩ <;> decide +kernel

end Skopt

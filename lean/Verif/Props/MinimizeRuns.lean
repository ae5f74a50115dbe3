import Verif.Props.Minimize
import Verif.Props.Liveness
import Verif.Props.OptimizerHistory
import Verif.Lemmas.LiveCopy
import Verif.Model.Wrappers

/-!
# C76: a well-posed minimisation runs to the end

Composition of C42 (budget), C68 (no exception) and C33 (points inside the space) for whole runs of
`base_minimize`, from the arguments to the returned result.
-/

namespace Skopt

variable {M R G : Type}

/-! ## Specification -/

/-- Settings that make sense: a known acquisition function, a regressor or no surrogate at all, L-BFGS only with
gradients, at least one candidate, restart and model. -/
structure SaneArgs (a : Args) : Prop where
  acq : ∃ f, a.acq = some f
  est : a.est.isRegressor = true ∨ a.est.isNone = true
  optimizer : a.acqOptimizer = .sampling ∨ a.acqOptimizer = .auto ∨
    (a.acqOptimizer = .lbfgs ∧ a.est.hasGradients = true)
  points : a.nPoints ≠ 0
  restarts : a.nRestarts ≠ 0
  queue : ∀ k, a.queueSize = some k → 0 < k

/-- The acquisition function takes computation times into account. -/
def Args.perSecond (a : Args) : Bool := a.acq = some .EIps ∨ a.acq = some .PIps

/-- A minimisation that is well posed: the numbers of calls and initial points fit, starting points are members of
the space and come without values or with one finite value (in the per-second modes: value and time) each,
callbacks never raise. -/
structure WellPosed (dims : List (Dim ℝ)) (m : MinArgs ℝ M) (st : Starts ℝ) : Prop where
  x0 : m.x0 = st.toX0
  proper : st.Proper
  members : ∀ p ∈ st.all, InSpace exact dims p
  y0 : m.y0 = .none ∨ st.all ≠ [] ∧ m.y0.given.length = st.all.length ∧
    ∀ y ∈ m.y0.given, Told m.opt.perSecond y
  initial : 0 ≤ m.nRandomStarts.getD m.nInitialPoints
  some : 0 < m.nRandomStarts.getD m.nInitialPoints ∨ st.all ≠ []
  budget : m.nRandomStarts.getD m.nInitialPoints ≤ m.nCalls
  budget' : m.y0 = .none → m.nRandomStarts.getD m.nInitialPoints + (st.all.length : ℤ) ≤ m.nCalls
  callback : m.callback ≠ .invalid
  calm : ∀ c ∈ m.callback.callables, ∀ hist, ∃ d, c hist = .ok d

/-- The result is the first best of what it lists, and this is a member of the space. -/
def BestListed (dims : List (Dim ℝ)) (r : Result ℝ M) : Prop :=
  ∃ (fs : List ℝ) (b : Nat) (p : Point ℝ) (f : ℝ), r.funcVals = fs.map Flt.fin ∧ FirstLeast fs b ∧
    r.xIters[b]? = some r.x ∧ r.x = .seq p ∧ InSpace exact dims p ∧ fs[b]? = some f ∧ r.fun_ = .fin f

/-! ## Lemmas -/

variable {W : World ℝ M R G} {dims : List (Dim ℝ)}

/-- A log prior comes with positive bounds and a base above one. -/
def PositiveLog : Dim ℝ → Prop
  | .real d => d.prior = .logUniform → 0 < d.low ∧ 1 < d.base
  | .int d => d.prior = .logUniform → 0 < d.low ∧ 1 < d.base
  | .cat _ => True

/-- On normalized dimensions the remaining conditions of `Workable` are automatic. -/
theorem workable_normalized (hne : dims ≠ []) (hv : ∀ d ∈ dims, ValidDim exact d)
    (hlog : ∀ d ∈ dims, PositiveLog d)
    (hdt : ∀ d ∈ dims, ∀ v, Legal exact d v → Representable d v) : Workable (dims.map Dim.normalized) := by
  refine ⟨by simpa using hne, ?_, ?_, ?_, ?_⟩ <;> intro d' hd' <;> obtain ⟨d, hd, rfl⟩ := List.mem_map.1 hd'
  · have := hv d hd
    cases d with
    | real d => exact ⟨this.1, Or.inr rfl, this.2.2⟩
    | int d =>
      obtain ⟨l, h, h1, h2, h3, h4, h5, h6, h7⟩ := this
      exact ⟨l, h, h1, h2, h3, h4, h5, Or.inr rfl, h7⟩
    | cat d => exact this
  · have := hlog d hd
    cases d with
    | real d => exact this
    | int d => exact this
    | cat d => intro h; cases h
  · cases d with
    | real d => exact Or.inl rfl
    | int d => exact Or.inl rfl
    | cat d => exact Or.inr rfl
  · have := hdt d hd
    cases d with
    | real d =>
      rintro v ⟨x, rfl, h⟩
      exact this (.num x) ⟨x, rfl, h⟩
    | int d => exact fun _ _ => trivial
    | cat d => exact fun _ _ => trivial

theorem live_best {s : Opt ℝ M R} (hs : Live dims s) {r : Result ℝ M} (h : getResult s = .ok r) :
    BestListed dims r := by
  have hv := hs.values
  generalize s.cfg.acq.isPs = ps at hv
  cases ps with
  | false =>
    obtain ⟨fs, hfs⟩ := observed_nums hv
    obtain ⟨b, h1, h2, h3, h4, -, h5, -⟩ := (C30_first_best_partial s r h).1 fs hfs
    have hx : r.x ∈ s.Xi := List.mem_of_getElem? h2
    obtain ⟨p, hp, hpS⟩ := hs.points _ hx
    obtain ⟨f, hf, hmin⟩ := h1
    rw [hf] at h3
    exact ⟨fs, b, p, f, h4, ⟨f, hf, hmin⟩, by rw [h5]; exact h2, hp, hpS, hf, by simpa using h3.symm⟩
  | true =>
    obtain ⟨qs, hqs⟩ := observed_pairs hv
    have hne : qs ≠ [] := by
      rintro rfl
      unfold getResult createResult at h
      rw [hqs] at h
      cases h
    obtain ⟨b, h1, h2, h3, h4, -, h5, -⟩ := (C30_first_best_partial s r h).2 qs hqs hne
    have hx : r.x ∈ s.Xi := List.mem_of_getElem? h2
    obtain ⟨p, hp, hpS⟩ := hs.points _ hx
    obtain ⟨f, hf, hmin⟩ := h1
    have e : r.fun_ = .fin f := by
      rw [List.getElem?_map] at hf
      cases hq : qs[b]? with
      | none => rw [hq] at hf; cases hf
      | some q =>
        rw [hq] at hf h3
        simp only [Option.map_some, Option.some.injEq] at hf h3
        rw [← h3, hf]
    exact ⟨qs.map Prod.fst, b, p, f, by rw [h4, List.map_map]; rfl, ⟨f, hf, hmin⟩, by rw [h5]; exact h2, hp, hpS, hf, e⟩

/-- A `tell` of a run that goes well. -/
theorem tell_running (hd : Workable dims) (hW : Reliable W dims) {s : Opt ℝ M R} (hs : Running W dims s)
    {c : Call ℝ} (hg : GoodCall s.cfg.acq.isPs dims c) {x : XArg ℝ} {y : YArg ℝ} (hc : c.toOp = .tell x y true) :
    ∃ t r, tell exact W dims s x y true = (t, .ok r) ∧ Running W dims t ∧ BestListed dims r ∧ t.cfg = s.cfg := by
  have hna : c ≠ .ask := by rintro rfl; cases hc
  have hfit : c.fits := by
    cases c with
    | one p y' f => simp only [Call.toOp, Op.tell.injEq] at hc; exact hc.2.2
    | batch o f => simp only [Call.toOp, Op.tell.injEq] at hc; exact hc.2.2
    | _ => trivial
  obtain ⟨h1, h2, h3, h4, h5⟩ := step_live hd hW (none : Option G) hs.live hs.sane hg fun h => absurd h hna
  obtain ⟨-, f2, -⟩ := step_frame exact W (⟨dims, none⟩ : Shared ℝ G) s c.toOp
  rw [hc] at h1 h2 h3 h4 h5 f2
  generalize ht : tell exact W dims s x y true = q at *
  obtain ⟨t, o⟩ := q
  have e : step exact W (⟨dims, none⟩ : Shared ℝ G) s (.tell x y true) = (⟨dims, none⟩, t, do
      let r ← o; .ok (.result r)) := by
    simp only [step, ht]
  rw [e] at h2 h3 h4 h5 f2
  cases o with
  | error e => obtain ⟨a, ha⟩ := h2; cases ha
  | ok r =>
    refine ⟨t, r, rfl, ⟨h3, h5 hfit hs.ready, ?_, ?_⟩, ?_⟩
    · rw [h4]; exact hs.sane
    · rw [f2]; exact hs.design
    · have := C30_tell_returns_result exact W dims s x y true r (by rw [ht])
      rw [ht] at this
      exact ⟨live_best h3 this, h4⟩

theorem evalCallbacks_calm {F M : Type} {cbs : List (Callback F M)} (h : ∀ c ∈ cbs, ∀ hist, ∃ d, c hist = .ok d)
    (hist : List (Result F M)) (r : Result F M) (i : Nat) (b : Bool) :
    ∃ t b', evalCallbacks hist r cbs i b = (t, .ok b') ∧ evalsOf t = [] := by
  have hn := (evalCallbacks_spec hist r cbs i b).2.2
  suffices hs : ∃ b', (evalCallbacks hist r cbs i b).2 = .ok b' by
    obtain ⟨b', hb⟩ := hs
    exact ⟨_, b', by rw [← hb], hn⟩
  clear hn
  induction cbs generalizing i b with
  | nil => exact ⟨b, rfl⟩
  | cons c cs ih =>
    obtain ⟨d, hd⟩ := h c List.mem_cons_self hist
    obtain ⟨b', hb⟩ := ih (fun c hc => h c (List.mem_cons_of_mem _ hc)) (i + 1) (b || d.getD false)
    exact ⟨b', by simp only [evalCallbacks, hd]; exact hb⟩

/-- An objective that is defined on the whole space and returns finite numbers or, in the per-second modes, finite
numbers with positive times. -/
def TotalOn (ps : Bool) (dims : List (Dim ℝ)) (func : Objective ℝ) : Prop :=
  ∀ done p, InSpace exact dims p → ∃ y, func done (.seq p) = .ok y ∧ Told ps y

theorem minimizeLoop_runs (hd : Workable dims) (hW : Reliable W dims) {func : Objective ℝ}
    {ps : Bool} (hfunc : TotalOn ps dims func) {cbs : List (Callback ℝ M)}
    (hcbs : ∀ c ∈ cbs, ∀ hist, ∃ d, c hist = .ok d) (n : Nat) (done : List (Val ℝ)) (hist : List (Result ℝ M)) {s : Opt ℝ M R} (hs : Running W dims s)
    (hps : s.cfg.acq.isPs = ps) (last : Option (Result ℝ M)) (hlast : ∀ r, last = some r → BestListed dims r) :
    ∃ t o, minimizeLoop exact W dims func cbs n done hist s last = (t, .ok o) ∧
      (∀ r, o = some r → BestListed dims r) ∧ (n ≠ 0 ∨ last ≠ none → o ≠ none) ∧
      ∀ v ∈ evalsOf t, ∃ p, v = .seq p ∧ InSpace exact dims p := by
  induction n generalizing done hist s last with
  | zero => exact ⟨[], last, rfl, hlast, fun h => h.elim (fun h => absurd rfl h) id, by simp [evalsOf]⟩
  | succ n ih =>
    obtain ⟨p, hp⟩ := askOne_live hd hW hs.live hs.ready
    have hpS := askOne_member hd hW hs.design hs.ready hp
    obtain ⟨rng', hfr⟩ := askOne_frame exact W dims s
    obtain ⟨y, hv, hy⟩ := hfunc done p hpS
    have hs' : Running W dims { s with rng := rng' } :=
      ⟨⟨hs.live.points, hs.live.values, hs.live.aligned, hs.live.hedge, hs.live.proposals⟩,
        ⟨hs.ready.initial, hs.ready.model⟩, hs.sane, hs.design⟩
    obtain ⟨t, r, h1, h2, h3, h2'⟩ := tell_running hd hW hs' (c := .one p y true)
      ⟨hpS, inSpace_flat hd.nonempty hd.valid hpS, by
        show Told s.cfg.acq.isPs y
        rw [hps]; exact hy⟩ rfl
    obtain ⟨tc, b, hc, hce⟩ := evalCallbacks_calm hcbs (hist ++ [r]) r 0 false
    have hask : askOne exact W dims s = ({ s with rng := rng' }, .ok p) := by
      rw [← hfr, ← hp]
    have hone : evalsOf [(Event.eval (.seq p) : Event ℝ M)] = [.seq p] := rfl
    cases b with
    | true =>
      refine ⟨.eval (.seq p) :: tc, some r, ?_, ?_, by simp, ?_⟩
      · simp only [minimizeLoop, hask, hv, h1, hc]
      · rintro r' ⟨⟩; exact h3
      · intro w hw
        rw [← List.singleton_append, evalsOf_append, hce, hone, List.append_nil, List.mem_singleton] at hw
        exact ⟨p, hw, hpS⟩
    | false =>
      obtain ⟨t', o, i1, i2, i3, i4⟩ := ih (done ++ [.seq p]) (hist ++ [r]) h2 (by
        rw [h2']; exact hps) (some r) (by rintro r' ⟨⟩; exact h3)
      refine ⟨.eval (.seq p) :: (tc ++ t'), o, ?_, i2, fun _ => i3 (Or.inr (by simp)), ?_⟩
      · simp only [minimizeLoop, hask, hv, h1, hc, i1]
      · intro w hw
        rw [← List.singleton_append, evalsOf_append, evalsOf_append, hce, hone, List.nil_append,
          List.mem_append, List.mem_singleton] at hw
        rcases hw with rfl | hw
        · exact ⟨p, rfl, hpS⟩
        · exact i4 w hw

theorem evalAll_runs {func : Objective ℝ} {b : Bool} (hfunc : TotalOn b dims func) (ps : List (Point ℝ))
    (hps : ∀ p ∈ ps, InSpace exact dims p) (done : List (Val ℝ)) :
    ∃ t ys, evalAll (M := M) func done (ps.map Val.seq) = (t, .ok ys) ∧ ys.length = ps.length ∧
      (∀ y ∈ ys, Told b y) ∧ evalsOf t = ps.map Val.seq := by
  induction ps generalizing done with
  | nil => exact ⟨[], [], rfl, rfl, by simp, rfl⟩
  | cons p ps ih =>
    obtain ⟨v, hv, hv'⟩ := hfunc done p (hps p List.mem_cons_self)
    obtain ⟨t, ys, h1, h2, h3, h4⟩ := ih (fun p hp => hps p (List.mem_cons_of_mem _ hp)) (done ++ [.seq p])
    refine ⟨.eval (.seq p) :: t, v :: ys, ?_, by simp [h2], ?_, ?_⟩
    · simp only [List.map_cons, evalAll, hv, h1]; rfl
    · intro y hy
      rcases List.mem_cons.1 hy with rfl | hy
      · exact hv'
      · exact h3 y hy
    · rw [← List.singleton_append, evalsOf_append, h4]; rfl

theorem mkConfig_sane {a : Args} (h : SaneArgs a) {n : ℤ} (hn : 0 ≤ n) :
    ∃ cfg, mkConfig { a with nInitialPoints := n, nRandomStarts := none } = .ok cfg ∧ Sane cfg ∧ cfg.nInitial = n ∧
      cfg.isGP = a.est.isGP ∧ cfg.hasEst = (!a.est.isNone) ∧ cfg.acq.isPs = a.perSecond := by
  obtain ⟨⟨f, hf⟩, hest, hopt, hp, hr, hq⟩ := h
  have h1 : ¬ (a.est.isRegressor = false ∧ a.est.isNone = false) := by
    rintro ⟨h1, h2⟩
    rcases hest with h | h
    · rw [h1] at h; cases h
    · rw [h2] at h; cases h
  have h2 : ({ a with nInitialPoints := n, nRandomStarts := none } : Args).optimizer ≠ .other ∧
      ¬ (a.est.hasGradients = false ∧
        ({ a with nInitialPoints := n, nRandomStarts := none } : Args).optimizer ≠ .sampling) := by
    unfold Args.optimizer
    rcases hopt with h | h | ⟨h, h'⟩
    · simp [h]
    · simp only [h]
      cases a.est.hasGradients <;> simp
    · simp [h, h']
  have e : mkConfig { a with nInitialPoints := n, nRandomStarts := none } =
      .ok ⟨f, !a.est.isNone, a.est.isGP, decide
        (({ a with nInitialPoints := n, nRandomStarts := none } : Args).optimizer = .lbfgs), a.nPoints, a.nRestarts, n,
        a.queueSize⟩ := by
    unfold mkConfig
    rw [hf] at h2 ⊢
    simp only [Option.getD_none]
    rw [if_neg (by omega), if_neg h1, if_neg h2.1, if_neg h2.2]
  refine ⟨_, e, ⟨hp, fun _ => hr, hq⟩, rfl, rfl, rfl, ?_⟩
  simp only [Args.perSecond, hf]
  cases f <;> decide

theorem minimizeBody_runs (hd : Workable dims) (hW : Reliable W dims) {func : Objective ℝ}
    {b : Bool} (hfunc : TotalOn b dims func) {cbs : List (Callback ℝ M)}
    (hcbs : ∀ c ∈ cbs, ∀ hist, ∃ d, c hist = .ok d) (nCalls : ℤ) (ps : List (Point ℝ)) (hps : ∀ p ∈ ps, InSpace exact dims p) (y0 : Y0 ℝ)
    (hy : y0 = .none ∨ ps ≠ [] ∧ y0.given.length = ps.length ∧ ∀ y ∈ y0.given, Told b y)
    (hn : 0 < nCalls ∨ ps ≠ []) {s : Opt ℝ M R} (hs : Running W dims s) (hb : s.cfg.acq.isPs = b) :
    ∃ t r, minimizeBody exact W dims func cbs nCalls (ps.map Val.seq) y0 s = (t, .ok (some r)) ∧
      BestListed dims r ∧ ∀ v ∈ evalsOf t, ∃ p, v = .seq p ∧ InSpace exact dims p := by
  unfold minimizeBody
  by_cases he : ps = []
  · subst he
    obtain ⟨t, o, h1, h2, h3, h4⟩ := minimizeLoop_runs hd hW hfunc hcbs nCalls.toNat [] [] hs hb none (by simp)
    have : o ≠ none := h3 (Or.inl (by
      rcases hn with h | h
      · omega
      · exact absurd rfl h))
    cases o with
    | none => exact absurd rfl this
    | some r => exact ⟨t, r, by simpa using h1, h2 r rfl, h4⟩
  · rw [if_neg (by simpa using he)]
    obtain ⟨t, ys, h1, h2, h3, h4⟩ : ∃ t ys, startValues (M := M) func (ps.map Val.seq) y0 = (t, .ok ys) ∧
        ys.length = ps.length ∧ (∀ y ∈ ys, Told b y) ∧ ∀ v ∈ evalsOf t, v ∈ ps.map Val.seq := by
      rcases hy with rfl | ⟨-, hl, hf⟩
      · obtain ⟨t, ys, h1, h2, h3, h4⟩ := evalAll_runs (M := M) hfunc ps hps []
        exact ⟨t, ys, h1, h2, h3, by rw [h4]; exact fun v hv => hv⟩
      · have hpos : 0 < ps.length := List.length_pos_iff.2 he
        unfold startValues
        cases y0 with
        | none => simp only [Y0.given, List.length_nil] at hl; omega
        | other => simp only [Y0.given, List.length_nil] at hl; omega
        | iter ys =>
          refine ⟨[], ys, ?_, hl, hf, by simp [evalsOf]⟩
          simp only [Y0.given] at hl
          simp [Y0.values, hl]
        | num y =>
          refine ⟨[], [.num y], ?_, hl, hf, by simp [evalsOf]⟩
          simp only [Y0.given, List.length_singleton] at hl
          simp [Y0.values, hl.symm]
    rw [h1]
    have hz1 : ps.map Val.seq = (ps.zip ys).map fun o => Val.seq o.1 := by
      conv_lhs => rw [← List.map_fst_zip (l₁ := ps) (l₂ := ys) (by omega)]
      rw [List.map_map]; rfl
    have hz2 : ys = (ps.zip ys).map Prod.snd := (List.map_snd_zip (by omega)).symm
    obtain ⟨s₂, r, ht, hs₂, hr, hs₂c⟩ := tell_running hd hW hs (c := .batch (ps.zip ys) true) ⟨by
        intro h0
        have := congrArg List.length h0
        rw [List.length_zip, List.length_nil, h2, Nat.min_self] at this
        exact he (List.length_eq_zero_iff.1 this), by
        intro o ho
        obtain ⟨a, c⟩ := o
        have := List.of_mem_zip ho
        exact ⟨hps a this.1, by rw [hb]; exact h3 c this.2⟩⟩ rfl
    rw [← hz1, ← hz2] at ht
    obtain ⟨tc, stop, hc, hce⟩ := evalCallbacks_calm hcbs [r] r 0 false
    have hin : ∀ v ∈ ps.map Val.seq, ∃ p, v = .seq p ∧ InSpace exact dims p := by
      intro v hv
      obtain ⟨p, hp, rfl⟩ := List.mem_map.1 hv
      exact ⟨p, rfl, hps p hp⟩
    simp only [ht, hc]
    cases stop with
    | true =>
      refine ⟨_, r, rfl, hr, ?_⟩
      intro v hv
      rw [evalsOf_append, hce, List.append_nil] at hv
      exact hin v (h4 v hv)
    | false =>
      obtain ⟨t', o, i1, i2, i3, i4⟩ := minimizeLoop_runs hd hW hfunc hcbs
        (nCalls - (evaluatedFirst (ps.map Val.seq) y0).length).toNat (evaluatedFirst (ps.map Val.seq) y0) [r] hs₂
        (by rw [hs₂c]; exact hb) (some r) (by rintro r' ⟨⟩; exact hr)
      have : o ≠ none := i3 (Or.inr (by simp))
      cases o with
      | none => exact absurd rfl this
      | some r' =>
        simp only [i1]
        refine ⟨_, r', rfl, i2 r' rfl, ?_⟩
        intro v hv
        rw [evalsOf_append, evalsOf_append, hce, List.nil_append, List.mem_append] at hv
        rcases hv with hv | hv
        · exact hin v (h4 v hv)
        · exact i4 v hv

theorem traceOf_call {F M : Type} {cbs : List (Callback F M)} {steps : List (List (Val F) × Result F M)}
    {hist : List (Result F M)} {i : Nat} {r : Result F M} {d : Except PyErr (Option Bool)}
    (h : Event.call i r d ∈ traceOf cbs hist steps) : ∃ c ∈ cbs, ∃ hist, d = c hist := by
  induction steps generalizing hist with
  | nil => cases h
  | cons q steps ih =>
    obtain ⟨vs, r'⟩ := q
    simp only [traceOf, List.mem_append, List.mem_map, List.mem_mapIdx] at h
    rcases h with ⟨v, _, hv⟩ | ⟨j, hj, he⟩ | h
    · cases hv
    · injection he with _ _ he
      exact ⟨cbs[j], List.getElem_mem _, _, he.symm⟩
    · exact ih h

/-! ## C76 -/

/-- **C76.** A well-posed minimisation with sane settings, on a space that encodes and decodes properly (after the
normalization a Gaussian process brings about), with an objective that returns finite numbers on the whole space (in
the per-second modes: finite numbers with positive times) and third-party calls that do what they promise, returns a result: no exception
is raised.  Every evaluated point is a member of the space, the reported optimum is the first best of the listed observations and a member of the space, and
unless a callback asks to stop the objective is evaluated exactly `n_calls` times.

Missing: a surrogate-free search with generated initial points, spaces with
dimensions that do not encode (see C02 and C04). -/
theorem C76_minimize_returns_partial (W : World ℝ M R G) (sh : Shared ℝ G) (func : Objective ℝ) (m : MinArgs ℝ M)
    (st : Starts ℝ) (rng : R) (hset : SaneArgs m.opt) (hd : Workable (searched m.opt.est.isGP sh.dims))
    (hW : Reliable W (searched m.opt.est.isGP sh.dims))
    (hgen : sh.gen = none ∨ m.opt.est.isNone = false ∧ Generates W (searched m.opt.est.isGP sh.dims))
    (hfunc : TotalOn m.opt.perSecond sh.dims func) (hm : WellPosed sh.dims m st) :
    let out := baseMinimize exact W sh func m rng
    (∃ r, out.result = .ok (some r) ∧ BestListed sh.dims r) ∧
    (∀ v ∈ evalsOf out.trace, ∃ p, v = .seq p ∧ InSpace exact sh.dims p) ∧
    ((∀ c ∈ m.callback.callables, ∀ hist, c hist ≠ .ok (some true)) →
      ((evalsOf out.trace).length : ℤ) = m.nCalls) := by
  intro out
  have hpts : m.x0.points = .ok (st.all.map Val.seq) := by rw [hm.x0]; exact Starts.points_eq hm.proper
  have hfal : m.y0.falsy = true → m.y0 = .none := by
    intro h
    rcases hm.y0 with h0 | ⟨h1, h2, -⟩
    · exact h0
    · exfalso
      have hpos : 0 < st.all.length := List.length_pos_iff.2 h1
      cases hy : m.y0 with
      | none => rw [hy] at h2; simp only [Y0.given, List.length_nil] at h2; omega
      | other => rw [hy] at h2; simp only [Y0.given, List.length_nil] at h2; omega
      | iter ys =>
        rw [hy] at h h2
        simp only [Y0.falsy, Y0.values, List.isEmpty_iff] at h
        rw [h] at h2
        simp only [Y0.given, List.length_nil] at h2
        omega
      | num y => rw [hy] at h; simp [Y0.falsy, Y0.values] at h
  have hprep : m.prepare = .ok (st.all.map Val.seq,
      m.nRandomStarts.getD m.nInitialPoints + ((st.all.map Val.seq).length : ℤ)) := by
    unfold MinArgs.prepare
    rw [hpts, ok_bind]
    simp only
    rw [if_neg, if_neg]
    · split
      · next h =>
        have := hm.budget' (hfal h)
        rw [List.length_map]; omega
      · have := hm.budget; omega
    · rintro ⟨h1, h2⟩
      rcases hm.some with h | h
      · omega
      · rw [List.isEmpty_iff, List.map_eq_nil_iff] at h2; exact h h2
  have hpos : 0 < m.nRandomStarts.getD m.nInitialPoints + ((st.all.map Val.seq).length : ℤ) := by
    have := hm.initial
    rw [List.length_map]
    rcases hm.some with h | h
    · omega
    · have := List.length_pos_iff.2 h; omega
  obtain ⟨cfg, hcfg, hsane, hni, hgp, hest, hacq⟩ := mkConfig_sane hset hpos.le
  rw [← hgp] at hd hW hgen
  obtain ⟨sh₁, s, hinit, hsd, hrun⟩ := init_runs (M := M) (W := W) (sh := sh) (cfg := cfg) hd hsane (by rw [hni]; exact hpos) (by
    rcases hgen with h | ⟨h, h'⟩
    · exact Or.inl h
    · exact Or.inr ⟨by rw [hest, h]; rfl, h'⟩) rng
  have hmem : ∀ p ∈ st.all, InSpace exact (searched cfg.isGP sh.dims) p := fun p hp =>
    inSpace_searched.2 (hm.members p hp)
  have hstarts : checkStarts sh₁.dims.length (st.all.map Val.seq) = .ok () := by
    have hl : ∀ p ∈ st.all, p.length = sh₁.dims.length := by
      intro p hp
      rw [hsd]
      exact (hmem p hp).length_eq.symm
    unfold checkStarts
    rw [if_neg, if_neg]
    · simp only [List.all_map, List.all_eq_true, not_not]
      intro p hp
      simpa [Val.len?] using hl p hp
    · simp [Val.len?]
  obtain ⟨cbs, hcb, hcs⟩ : ∃ cbs, checkCallback m.callback = .ok cbs ∧ m.callback.callables = cbs := by
    cases hc : m.callback with
    | none => exact ⟨[], rfl, rfl⟩
    | one c => exact ⟨[c], rfl, rfl⟩
    | list cs => exact ⟨cs, rfl, rfl⟩
    | invalid => exact absurd hc hm.callback
  have hcalm : ∀ c ∈ (if m.verbose then cbs ++ [verboseCallback] else cbs), ∀ hist, ∃ d, c hist = .ok d := by
    intro c hc hist
    split at hc
    · rcases List.mem_append.1 hc with h | h
      · exact hm.calm c (by rw [hcs]; exact h) hist
      · rw [List.mem_singleton] at h
        subst h
        exact ⟨none, rfl⟩
    · exact hm.calm c (by rw [hcs]; exact hc) hist
  obtain ⟨t, r, hb1, hb2, hb3⟩ := minimizeBody_runs hd hW
    (fun done p hp => hfunc done p (inSpace_searched.1 hp)) hcalm m.nCalls st.all hmem m.y0 hm.y0 (by
      rcases hm.some with h | h
      · have := hm.budget; exact Or.inl (by omega)
      · exact Or.inr h) hrun (by
        obtain ⟨_, _, e, -⟩ := init_ok hinit
        rw [e]; exact hacq)
  have hout : out = ⟨sh₁, if m.verbose then m.callback.afterVerbose else m.callback, t, .ok (some r)⟩ := by
    rw [hsd] at hstarts
    simp only [out, baseMinimize, hprep, MinArgs.optArgs, hcfg, hinit, hsd, hstarts, hcb, hb1]
  have hres : out.result = .ok (some r) := by rw [hout]
  refine ⟨⟨r, hres, ?_⟩, ?_, ?_⟩
  · obtain ⟨fs, b, p, f, g1, g2, g3, g4, g5, g6⟩ := hb2
    exact ⟨fs, b, p, f, g1, g2, g3, g4, inSpace_searched.1 g5, g6⟩
  · rw [hout]
    intro v hv
    obtain ⟨p, h1, h2⟩ := hb3 v hv
    exact ⟨p, h1, inSpace_searched.1 h2⟩
  · intro hquiet
    refine (C42_exact_budget_partial exact W sh func m rng st _ hm.x0 hm.proper hm.initial hres ?_).1
    intro i r' hin
    obtain ⟨first, rest, -, g2, -⟩ := minimizeBody_ok hb1
    rw [show (baseMinimize exact W sh func m rng).trace = t from congrArg Outcome.trace hout, g2] at hin
    obtain ⟨c, hc, hist, hch⟩ := traceOf_call hin
    split at hc
    · rcases List.mem_append.1 hc with h | h
      · exact hquiet c (by rw [hcs]; exact h) hist hch.symm
      · rw [List.mem_singleton] at h
        subst h
        cases hch
    · exact hquiet c (by rw [hcs]; exact hc) hist hch.symm

/-! ## The user-level functions -/

/-- What C76 promises of a call. -/
def Completes (dims : List (Dim ℝ)) (cb : CbArg ℝ M) (nCalls : ℤ) (out : Outcome ℝ M G) : Prop :=
  (∃ r, out.result = .ok (some r) ∧ BestListed dims r) ∧
  (∀ v ∈ evalsOf out.trace, ∃ p, v = .seq p ∧ InSpace exact dims p) ∧
  ((∀ c ∈ cb.callables, ∀ hist, c hist ≠ .ok (some true)) → ((evalsOf out.trace).length : ℤ) = nCalls)

/-- The acquisition function takes computation times into account. -/
def WrapArgs.perSecond (c : WrapArgs ℝ M) : Bool := c.acqFunc = "EIps" ∨ c.acqFunc = "PIps"

/-- The arguments of a call are well posed; which surrogate is used plays no role. -/
def WellPosedCall (dims : List (Dim ℝ)) (c : WrapArgs ℝ M) (st : Starts ℝ) : Prop :=
  WellPosed dims (c.toMin (.ok none) "sampling") st

/-- Settings that make sense for the user-level functions. -/
structure SaneCall (c : WrapArgs ℝ M) : Prop where
  acq : c.acqFunc ∈ ["gp_hedge", "EI", "LCB", "PI", "EIps", "PIps"]
  points : c.nPoints ≠ 0
  restarts : c.nRestarts ≠ 0
  queue : ∀ k, c.queueSize = some k → 0 < k

theorem WellPosedCall.any {c : WrapArgs ℝ M} {st : Starts ℝ} (h : WellPosedCall dims c st)
    (est : Except PyErr (Option Est)) (o : String) : WellPosed dims (c.toMin est o) st :=
  ⟨h.x0, h.proper, h.members, h.y0, h.initial, h.some, h.budget, h.budget', h.callback, h.calm⟩

theorem acqOf_sane {c : WrapArgs ℝ M} (h : SaneCall c) (est : Except PyErr (Option Est)) (o : String) :
    (∃ f, acqOf c.acqFunc = some f) ∧ (c.toMin est o).opt.perSecond = c.perSecond := by
  have := h.acq
  simp only [List.mem_cons, List.not_mem_nil, or_false] at this
  show (∃ f, acqOf c.acqFunc = some f) ∧
    decide (acqOf c.acqFunc = some .EIps ∨ acqOf c.acqFunc = some .PIps) =
      decide (c.acqFunc = "EIps" ∨ c.acqFunc = "PIps")
  rcases this with h | h | h | h | h | h <;> rw [h] <;> exact ⟨⟨_, rfl⟩, by decide +kernel⟩

theorem estArgOf_ok (f : AcqFunc) {e : Est} (he : e ≠ .notRegressor) :
    ∃ w, (w = e ∨ w = .multi e) ∧ estArgOf (some f) (.ok (some e)) =
      { isNone := false, isRegressor := true, isGP := Est.isGP (some w), hasGradients := hasGradients (some w) } := by
  have h1 : ¬ (Est.isRegressor (some e) = false ∧ (some e).isNone = false) := by
    rintro ⟨h, _⟩
    cases e <;> first | exact he rfl | cases h
  obtain ⟨w, hw, h2⟩ : ∃ w, (w = e ∨ w = .multi e) ∧ wrapPs f (some e) = some w := by
    unfold wrapPs
    split
    · exact ⟨_, Or.inr rfl, rfl⟩
    · exact ⟨_, Or.inl rfl, rfl⟩
  refine ⟨w, hw, ?_⟩
  simp only [estArgOf]
  rw [if_neg h1]
  simp only [h2, Option.isNone_some]

theorem toMin_sane {c : WrapArgs ℝ M} (h : SaneCall c) {e : Est} (he : e ≠ .notRegressor) {o : String}
    (ho : o = "sampling" ∨ o = "auto" ∨ o = "lbfgs" ∧ hasGradients (some e) = true) :
    SaneArgs (c.toMin (.ok (some e)) o).opt ∧
      ((c.toMin (.ok (some e)) o).opt.est.isGP = true → Est.isGP (some e) = true) ∧
      (c.toMin (.ok (some e)) o).opt.est.isNone = false ∧
      (c.toMin (.ok (some e)) o).opt.perSecond = c.perSecond := by
  obtain ⟨⟨f, hf⟩, hps⟩ := acqOf_sane h (.ok (some e)) o
  obtain ⟨w, hw, hest⟩ := estArgOf_ok f he
  have e1 : (c.toMin (.ok (some e)) o).opt.est = _ := (congrArg (fun a => estArgOf a _) hf).trans hest
  refine ⟨⟨⟨f, hf⟩, ?_, ?_, h.points, h.restarts, h.queue⟩, ?_, ?_, hps⟩
  · rw [e1]; exact Or.inl rfl
  · rw [e1]
    rcases ho with rfl | rfl | ⟨rfl, hg⟩
    · exact Or.inl rfl
    · exact Or.inr (Or.inl rfl)
    · refine Or.inr (Or.inr ⟨rfl, ?_⟩)
      rcases hw with rfl | rfl
      · exact hg
      · rfl
  · rw [e1]
    rcases hw with rfl | rfl
    · exact id
    · intro h; cases h
  · rw [e1]

/-- **C76 (`gp_minimize`).** The default surrogate, on any space of valid dimensions whose log priors have positive
bounds: nothing else is needed of the transforms, since `gp_minimize` normalizes the dimensions. -/
theorem C76_gp_minimize_partial (W : World ℝ M R G) (sh : Shared ℝ G) (func : Objective ℝ) (c : WrapArgs ℝ M)
    (st : Starts ℝ) (rng : R) (hne : sh.dims ≠ []) (hv : ∀ d ∈ sh.dims, ValidDim exact d)
    (hlog : ∀ d ∈ sh.dims, PositiveLog d) (hdt : ∀ d ∈ sh.dims, ∀ v, Legal exact d v → Representable d v)
    (hset : SaneCall c)
    (hopt : c.acqOptimizer = "sampling" ∨ c.acqOptimizer = "auto" ∨
      c.acqOptimizer = "lbfgs" ∧ ∃ d ∈ sh.dims, d.isCat = false)
    (hW : Reliable W (sh.dims.map Dim.normalized))
    (hgen : sh.gen = none ∨ Generates W (sh.dims.map Dim.normalized))
    (hfunc : TotalOn c.perSecond sh.dims func) (hm : WellPosedCall sh.dims c st) :
    Completes sh.dims c.callback c.nCalls (gpMinimize exact W sh func none c rng) := by
  have hd := workable_normalized hne hv hlog hdt
  obtain ⟨k, hk, hgr⟩ : ∃ k, cookEstimator "GP" (sh.dims.map Dim.normalized) = .ok (some (.gp (some k))) ∧
      ((∃ d ∈ sh.dims, d.isCat = false) → k.anyHamming = false) := by
    unfold cookEstimator
    rw [show "GP".toUpper = "GP" by decide +kernel]
    simp only [setTransformer_normalize, normalized_idem, ok_bind]
    refine ⟨_, rfl, ?_⟩
    rintro ⟨d, hd, hc⟩
    have : ¬ (sh.dims.map Dim.normalized).all Dim.isCat = true := by
      rw [List.all_map, List.all_eq_true]
      intro h
      have := h d hd
      simp only [Function.comp] at this
      cases d <;> simp_all [Dim.normalized, Dim.isCat]
    rw [if_neg this]
    rfl
  obtain ⟨s1, -, s3, s4⟩ := toMin_sane hset (e := .gp (some k)) (by simp) (o := c.acqOptimizer) (by
    rcases hopt with h | h | ⟨h, h'⟩
    · exact Or.inl h
    · exact Or.inr (Or.inl h)
    · exact Or.inr (Or.inr ⟨h, by simp [hasGradients, hgr h']⟩))
  have hs : searched (c.toMin (.ok (some (.gp (some k)))) c.acqOptimizer).opt.est.isGP
      (sh.dims.map Dim.normalized) = sh.dims.map Dim.normalized := by
    unfold searched
    split
    · exact normalized_idem _
    · rfl
  have key := C76_minimize_returns_partial W { sh with dims := sh.dims.map Dim.normalized } func
    (c.toMin (.ok (some (.gp (some k)))) c.acqOptimizer) st rng s1 (by rw [hs]; exact hd) (by rw [hs]; exact hW)
    (by
      rcases hgen with h | h
      · exact Or.inl h
      · exact Or.inr ⟨s3, by rw [hs]; exact h⟩)
    (by rw [s4]; exact fun done p hp => hfunc done p (inSpace_normalized.1 hp))
    (by
      have := hm.any (.ok (some (.gp (some k)))) c.acqOptimizer
      exact ⟨this.x0, this.proper, fun p hp => inSpace_normalized.2 (this.members p hp), this.y0, this.initial,
        this.some, this.budget, this.budget', this.callback, this.calm⟩)
  have hout : gpMinimize exact W sh func none c rng = baseMinimize exact W { sh with dims := sh.dims.map Dim.normalized }
      func (c.toMin (.ok (some (.gp (some k)))) c.acqOptimizer) rng := by
    simp only [gpMinimize, setTransformer_normalize, hk]
  rw [hout]
  obtain ⟨⟨r, k1, k2⟩, k3, k4⟩ := key
  refine ⟨⟨r, k1, ?_⟩, ?_, k4⟩
  · obtain ⟨fs, b, p, f, g1, g2, g3, g4, g5, g6⟩ := k2
    exact ⟨fs, b, p, f, g1, g2, g3, g4, inSpace_normalized.1 g5, g6⟩
  · intro v hv
    obtain ⟨p, h1, h2⟩ := k3 v hv
    exact ⟨p, h1, inSpace_normalized.1 h2⟩

/-- **C76 (`forest_minimize`).** With the names of tree-based surrogates, in upper or lower case. -/
theorem C76_forest_minimize_partial (W : World ℝ M R G) (sh : Shared ℝ G) (func : Objective ℝ) (name : String)
    (c : WrapArgs ℝ M) (st : Starts ℝ) (rng : R) (hname : name.toUpper ∈ ["ET", "RF", "GBRT"]) (hd : Workable sh.dims)
    (hset : SaneCall c) (hW : Reliable W sh.dims) (hgen : sh.gen = none ∨ Generates W sh.dims)
    (hfunc : TotalOn c.perSecond sh.dims func) (hm : WellPosedCall sh.dims c st) :
    Completes sh.dims c.callback c.nCalls (forestMinimize exact W sh func (.name name) c rng) := by
  obtain ⟨e, he, hnr, hngp⟩ : ∃ e, cookEstimator name sh.dims = .ok (some e) ∧ e ≠ .notRegressor ∧
      Est.isGP (some e) = false := by
    unfold cookEstimator
    simp only [List.mem_cons, List.not_mem_nil, or_false] at hname
    rcases hname with h | h | h <;> rw [h]
    · exact ⟨.extraTrees, rfl, by simp, rfl⟩
    · exact ⟨.forest, rfl, by simp, rfl⟩
    · exact ⟨.gbrt, rfl, by simp, rfl⟩
  obtain ⟨s1, s2, s3, s4⟩ := toMin_sane hset hnr (o := "sampling") (Or.inl rfl)
  have hs : searched (c.toMin (.ok (some e)) "sampling").opt.est.isGP sh.dims = sh.dims := by
    have : (c.toMin (.ok (some e)) "sampling").opt.est.isGP = false := by
      rw [Bool.eq_false_iff]
      intro h
      rw [s2 h] at hngp
      cases hngp
    rw [this]; rfl
  have hout : forestMinimize exact W sh func (.name name) c rng =
      baseMinimize exact W sh func (c.toMin (.ok (some e)) "sampling") rng := by
    simp only [forestMinimize, BaseArg.cook, he]
  rw [hout]
  exact C76_minimize_returns_partial W sh func _ st rng s1 (by rw [hs]; exact hd) (by rw [hs]; exact hW)
    (by
      rcases hgen with h | h
      · exact Or.inl h
      · exact Or.inr ⟨s3, by rw [hs]; exact h⟩) (by rw [s4]; exact hfunc) (hm.any _ _)

/-- **C76 (`gbrt_minimize`).** With the default surrogate. -/
theorem C76_gbrt_minimize_partial (W : World ℝ M R G) (sh : Shared ℝ G) (func : Objective ℝ)
    (c : WrapArgs ℝ M) (st : Starts ℝ) (rng : R) (hd : Workable sh.dims) (hset : SaneCall c) (hW : Reliable W sh.dims)
    (hgen : sh.gen = none ∨ Generates W sh.dims) (hfunc : TotalOn c.perSecond sh.dims func) (hm : WellPosedCall sh.dims c st) :
    Completes sh.dims c.callback c.nCalls (gbrtMinimize exact W sh func none c rng) :=
  C76_forest_minimize_partial W sh func "GBRT" c st rng (by decide +kernel) hd hset hW hgen hfunc hm

/-- **C76 (`dummy_minimize`).** Random search: without starting points, with at most `n_calls` starting points in a
list, or with starting points and their values (the case of C45). -/
theorem C76_dummy_minimize_partial (W : World ℝ M R G) (sh : Shared ℝ G) (func : Objective ℝ) (nCalls : ℤ)
    (st : Starts ℝ) (y0 : Y0 ℝ) (verbose : Bool) (cb : CbArg ℝ M) (queueSize : Option ℤ) (rng : R)
    (hd : Workable sh.dims) (hW : Reliable W sh.dims) (hgen : sh.gen = none) (hfunc : TotalOn false sh.dims func)
    (hq : ∀ k, queueSize = some k → 0 < k) (hst : st.Proper) (hmem : ∀ p ∈ st.all, InSpace exact sh.dims p)
    (hn : 0 < nCalls)
    (hform : st = .absent ∧ y0 = .none ∨ (∃ ps, st = .points ps ∧ (ps.length : ℤ) ≤ nCalls ∧ y0 = .none) ∨
      st.all ≠ [] ∧ y0.given.length = st.all.length ∧ ∀ y ∈ y0.given, FiniteNum y)
    (hcb : cb ≠ .invalid) (hcalm : ∀ c ∈ cb.callables, ∀ hist, ∃ d, c hist = .ok d) :
    Completes sh.dims cb nCalls (dummyMinimize exact W sh func nCalls st.toX0 y0 verbose cb queueSize rng) := by
  obtain ⟨n, hn0, hpos, hb1, hb2, hout⟩ : ∃ n : ℤ, 0 ≤ n ∧ (0 < n ∨ st.all ≠ []) ∧ n ≤ nCalls ∧
      (y0 = .none → n + (st.all.length : ℤ) ≤ nCalls) ∧
      dummyMinimize exact W sh func nCalls st.toX0 y0 verbose cb queueSize rng =
        baseMinimize exact W sh func
          { opt := { est := { isNone := true, isRegressor := false }, acq := some .EI
                     acqOptimizer := .sampling, queueSize := queueSize }
            nCalls := nCalls, nInitialPoints := n, x0 := st.toX0, y0 := y0, verbose := verbose
            callback := cb } rng := by
    rcases hform with ⟨rfl, rfl⟩ | ⟨ps, rfl, hl, rfl⟩ | ⟨hne, hl, _⟩
    · exact ⟨nCalls, hn.le, Or.inl hn, le_rfl, fun _ => by simp [Starts.all], rfl⟩
    · refine ⟨nCalls - ps.length, by omega, Or.inr hst, by omega, fun _ => by simp [Starts.all], ?_⟩
      simp [dummyMinimize, Starts.toX0, X0.len]
    · have hy : y0 ≠ .none := by
        rintro rfl
        exact hne (List.length_eq_zero_iff.1 (by simpa [Y0.given] using hl.symm))
      refine ⟨nCalls, hn.le, Or.inl hn, le_rfl, fun h => absurd h hy, ?_⟩
      cases y0 with
      | none => exact absurd rfl hy
      | _ => cases st <;> rfl
  rw [hout]
  refine C76_minimize_returns_partial W sh func _ st rng
    ⟨⟨.EI, rfl⟩, Or.inr rfl, Or.inl rfl, (by simp), (by simp), hq⟩ hd hW (Or.inl hgen) hfunc
    ⟨rfl, hst, hmem, ?_, hn0, hpos, hb1, hb2, hcb, hcalm⟩
  rcases hform with ⟨_, h⟩ | ⟨_, _, _, h⟩ | h
  · exact Or.inl h
  · exact Or.inl h
  · exact Or.inr h

/-! ## Example -/

/-- The sum of the first two coordinates. -/
noncomputable def sumObjective : Objective ℝ := fun _ x => match x with
  | .seq (.num a :: .num b :: _) => .ok (.num (.fin (a + b)))
  | _ => .error .typeError

theorem sumObjective_total : TotalOn false liveDims sumObjective := by
  intro done p hp
  cases hp with
  | cons h1 h =>
    cases h with
    | cons h2 _ =>
      obtain ⟨a, rfl, _⟩ := h1
      obtain ⟨b, rfl, _⟩ := h2
      exact ⟨_, rfl, a + exact.ofInt b, rfl⟩

/-- A starting point, eight evaluations of which five are random. -/
def liveCall : WrapArgs ℝ Unit :=
  { nCalls := 8, nInitialPoints := 5, x0 := .list [.num 3, .num (2 : ℤ), .str "b"], verbose := true }

theorem liveCall_wellPosed : WellPosedCall liveDims liveCall (.point [.num 3, .num (2 : ℤ), .str "b"]) := by
  refine ⟨rfl, ⟨_, _, rfl, rfl⟩, ?_, Or.inl rfl, ?_, Or.inr (by simp [Starts.all]), ?_, ?_, ?_, ?_⟩
  · intro p hp
    simp only [Starts.all, List.mem_singleton] at hp
    subst hp
    exact .cons ⟨3, rfl, by norm_num, by norm_num⟩ (.cons ⟨2, rfl, by norm_num [exact], by norm_num [exact]⟩
      (.cons (by simp [Legal]) .nil))
  · decide
  · decide
  · intro _; decide
  · rintro ⟨⟩
  · intro c hc
    cases hc

theorem liveCall_sane : SaneCall liveCall :=
  ⟨by simp [liveCall], by decide, by decide, by rintro k ⟨⟩⟩

/-- A whole run of `forest_minimize`, of `gbrt_minimize` and of `dummy_minimize` on a mixed space.
Meets the hypotheses of `C76_minimize_returns_partial`. -/
example : Completes liveDims .none 8
      (forestMinimize exact realWorld ⟨liveDims, none⟩ sumObjective (.name "et") liveCall ()) ∧
    Completes liveDims .none 8 (gbrtMinimize exact realWorld ⟨liveDims, none⟩ sumObjective none liveCall ()) ∧
    Completes liveDims .none 8 (dummyMinimize exact realWorld ⟨liveDims, none⟩ sumObjective 8
      (Starts.absent : Starts ℝ).toX0 .none false (.none : CbArg ℝ Unit) none ()) :=
  ⟨C76_forest_minimize_partial realWorld ⟨liveDims, none⟩ sumObjective "et" liveCall _ () (by decide +kernel)
      liveDims_workable liveCall_sane liveWorld_reliable (Or.inl rfl) sumObjective_total liveCall_wellPosed,
    C76_gbrt_minimize_partial realWorld ⟨liveDims, none⟩ sumObjective liveCall _ ()
      liveDims_workable liveCall_sane liveWorld_reliable (Or.inl rfl) sumObjective_total liveCall_wellPosed,
    C76_dummy_minimize_partial realWorld ⟨liveDims, none⟩ sumObjective 8 .absent .none false .none none ()
      liveDims_workable liveWorld_reliable rfl sumObjective_total (by rintro k ⟨⟩) trivial
      (by intro p hp; cases hp) (by norm_num) (Or.inl ⟨rfl, rfl⟩) (by rintro ⟨⟩) (by intro c hc; cases hc)⟩

/-- The same objective, reporting that every evaluation took two seconds. -/
noncomputable def timedObjective : Objective ℝ := fun done x => match sumObjective done x with
  | .ok y => .ok (.seq [y, .num (.fin 2)])
  | .error e => .error e

theorem timedObjective_total : TotalOn true liveDims timedObjective := by
  intro done p hp
  obtain ⟨y, h, v, rfl⟩ := sumObjective_total done p hp
  exact ⟨.seq [.num (.fin v), .num (.fin 2)], by simp only [timedObjective, h], v, 2, by norm_num, rfl⟩

/-- A whole run of `forest_minimize` with expected improvement per second. -/
example : Completes liveDims .none 8 (forestMinimize exact realWorld ⟨liveDims, none⟩ timedObjective (.name "RF")
    { liveCall with acqFunc := "EIps" } ()) := by
  have h := liveCall_wellPosed
  exact C76_forest_minimize_partial realWorld ⟨liveDims, none⟩ timedObjective "RF" { liveCall with acqFunc := "EIps" }
    (.point [.num 3, .num (2 : ℤ), .str "b"]) () (by decide +kernel) liveDims_workable
    ⟨by simp, by decide, by decide, by rintro k ⟨⟩⟩ liveWorld_reliable (Or.inl rfl) timedObjective_total
    ⟨h.x0, h.proper, h.members, Or.inl rfl, h.initial, h.some, h.budget, h.budget', h.callback, h.calm⟩

/-- A world that draws zeros and generates copies of one point of the mixed space. -/
def unitWorld : World ℝ Unit Unit Unit :=
  { realWorld with
    draws := fun _ dims n => ((), dims.map fun _ => ⟨List.replicate n 0, List.replicate n 0⟩)
    generate := fun g dims n _ => (g, (dims, .ok (List.replicate n.toNat [.num 0, .num (1 : ℤ), .str "a"]))) }

theorem unitWorld_reliable : Reliable unitWorld (liveDims.map Dim.normalized) where
  fit _ _ _ _ _ _ _ _ := ⟨(), rfl⟩
  predict _ X _ _ := ⟨_, rfl, by simp⟩
  draws r n := by
    have hz : ∀ x ∈ List.replicate n (0 : ℝ), 0 ≤ x ∧ x ≤ 1 := by
      intro x hx
      rw [List.eq_of_mem_replicate hx]
      norm_num
    constructor
    · refine .cons ⟨fun _ => hz, trivial⟩ (.cons ⟨fun _ => hz, trivial⟩ (.cons ⟨fun _ => hz, ?_⟩ .nil))
      intro i hi
      rw [List.eq_of_mem_replicate hi]
      decide
    · intro d hm
      simp only [unitWorld, List.mem_map] at hm
      obtain ⟨_, _, rfl⟩ := hm
      simp
  acquisition _ X _ _ _ _ := ⟨_, rfl, by simp⟩
  argsort v hv := by
    constructor
    · simpa [unitWorld, realWorld] using hv
    · intro i hi
      simpa [unitWorld, realWorld] using hi
  lbfgs _ _ _ _ x hx := ⟨x, .fin 0, rfl, hx⟩
  multinomial _ p := by simp [unitWorld, realWorld]
  log t _ := ⟨_, rfl⟩

/-- The same call for `gp_minimize`. -/
def liveCallGP : WrapArgs ℝ Unit := { liveCall with acqFunc := "gp_hedge", acqOptimizer := "lbfgs" }

/-- A whole run of `gp_minimize` with `gp_hedge`, L-BFGS and generated initial points. -/
example : Completes liveDims .none 8 (gpMinimize exact unitWorld ⟨liveDims, some ()⟩ sumObjective none
    liveCallGP ()) := by
  have h := liveCall_wellPosed
  refine C76_gp_minimize_partial unitWorld ⟨liveDims, some ()⟩ sumObjective liveCallGP
    (.point [.num 3, .num (2 : ℤ), .str "b"]) () liveDims_workable.nonempty
    liveDims_workable.valid ?_ liveDims_workable.dtype ⟨by simp [liveCallGP], by decide, by decide, by rintro k ⟨⟩⟩
    (Or.inr (Or.inr ⟨rfl, .real ⟨0, 10, .uniform, 10, .identity, none, id⟩, by simp [liveDims], rfl⟩))
    unitWorld_reliable (Or.inr ?_) sumObjective_total
    ⟨h.x0, h.proper, h.members, h.y0, h.initial, h.some, h.budget, h.budget', h.callback, h.calm⟩
  · intro d hd
    simp only [liveDims, List.mem_cons, List.not_mem_nil, or_false] at hd
    rcases hd with rfl | rfl | rfl
    · intro h; cases h
    · intro h; cases h
    · trivial
  · intro g n r _
    refine ⟨g, _, rfl, by simp, ?_⟩
    intro p hp
    rw [List.eq_of_mem_replicate hp]
    exact inSpace_normalized.2 (.cons ⟨0, rfl, by norm_num, by norm_num⟩
      (.cons ⟨1, rfl, by norm_num [exact], by norm_num [exact]⟩ (.cons (by simp [Legal]) .nil)))

end Skopt

import Verif.Lemmas.Seen
import Verif.Props.OptimizerHistory

/-!
# C83: checkpoints hold the complete record, and a run can be resumed from one
-/

namespace Skopt

variable {F M R G : Type}

/-! ## Specification -/

/-- The starting points whose values were given. -/
def givenPoints (y0 : Y0 F) (st : Starts F) : List (Val F) :=
  match y0 with
  | .none => []
  | _ => st.all.map Val.seq

/-- Their values (values without points are ignored). -/
def givenValues (y0 : Y0 F) (st : Starts F) : List (YArg F) :=
  if st.all.isEmpty then [] else y0.given

/-- `r` is the complete record when the objective was evaluated at `evals`: the given observations followed
by all evaluated ones, each with its value. -/
def IsRecord (func : Objective F) (y0 : Y0 F) (st : Starts F) (evals : List (Val F)) (r : Result F M) : Prop :=
  ∃ ys, Answers func [] evals ys ∧ r.xIters = givenPoints y0 st ++ evals ∧
    List.Forall₂ (fun y f => valueOf y = some f) (givenValues y0 st ++ ys) r.funcVals

/-- Callback `i` is not invoked in `t`. -/
def NotCalled (i : Nat) (t : List (Event F M)) : Prop := ∀ r d, Event.call i r d ∉ t

/-! ## Helpers -/

/-- At most one evaluation between invocations of callback `i`; `k` were made since the last one. -/
def Gap (i : Nat) : Nat → List (Event F M) → Prop
  | _, [] => True
  | k, .eval _ :: t => k = 0 ∧ Gap i 1 t
  | k, .call j _ _ :: t => Gap i (if j = i then 0 else k) t

theorem Gap.quiet {i k : Nat} {t : List (Event F M)} (h : evalsOf t = []) : Gap i k t := by
  induction t generalizing k with
  | nil => trivial
  | cons e t ih =>
    cases e with
    | eval x => cases h
    | call j r d => exact ih h

theorem Gap.prefix {i k : Nat} {a b : List (Event F M)} (h : Gap i k (a ++ b)) : Gap i k a := by
  induction a generalizing k with
  | nil => trivial
  | cons e t ih =>
    cases e with
    | eval x => exact ⟨h.1, ih h.2⟩
    | call j r d => exact ih h

theorem Gap.suffix {i k : Nat} {a b : List (Event F M)} {r : Result F M} {d : Except PyErr (Option Bool)}
    (h : Gap i k (a ++ .call i r d :: b)) : Gap i 0 b := by
  induction a generalizing k with
  | nil => simpa [Gap] using h
  | cons e t ih =>
    cases e with
    | eval x => exact ih h.2
    | call j r d => exact ih h

theorem Gap.length {i k : Nat} {t : List (Event F M)} (h : Gap i k t) (hn : NotCalled i t) (hk : k ≤ 1) :
    (evalsOf t).length + k ≤ 1 := by
  induction t generalizing k with
  | nil => simpa [evalsOf] using hk
  | cons e t ih =>
    have hn' : NotCalled i t := fun r d hm => hn r d (List.mem_cons_of_mem _ hm)
    cases e with
    | eval x =>
      have := ih h.2 hn' (le_refl _)
      rw [evalsOf_eval_cons, List.length_cons]
      have := h.1
      omega
    | call j r d =>
      have hj : j ≠ i := by
        rintro rfl
        exact hn r d List.mem_cons_self
      simp only [Gap, if_neg hj] at h
      exact ih h hn' hk

theorem gap_calls {hist : List (Result F M)} {r : Result F M} {i k : Nat} (cbs : List (Callback F M)) {i₀ : Nat}
    {stop b : Bool} (hok : (evalCallbacks hist r cbs i₀ stop).2 = .ok b) (h1 : i₀ ≤ i) (h2 : i < i₀ + cbs.length)
    {t : List (Event F M)} (ht : Gap i 0 t) : Gap i k ((evalCallbacks hist r cbs i₀ stop).1 ++ t) := by
  induction cbs generalizing i₀ k stop with
  | nil => simp at h2; omega
  | cons c cs ih =>
    simp only [evalCallbacks] at hok ⊢
    cases hc : c hist with
    | error e => rw [hc] at hok; cases hok
    | ok d =>
      simp only [hc] at hok ⊢
      show Gap i (if i₀ = i then 0 else k) (_ ++ t)
      by_cases he : i₀ = i
      · rw [if_pos he]
        clear ih
        generalize hcs : evalCallbacks hist r cs (i₀ + 1) (stop || d.getD false) = q
        have hn := (evalCallbacks_spec hist r cs (i₀ + 1) (stop || d.getD false)).2.2
        rw [hcs] at hn
        have : ∀ (u : List (Event F M)), evalsOf u = [] → Gap i 0 (u ++ t) := by
          intro u
          induction u with
          | nil => intro _; exact ht
          | cons e u ih =>
            cases e with
            | eval x => intro h; cases h
            | call j r d =>
              intro h
              show Gap i (if j = i then 0 else 0) (u ++ t)
              rw [ite_self]
              exact ih h
        exact this _ hn
      · rw [if_neg he]
        exact ih hok (by omega) (by simp at h2; omega)

section
variable [LinearOrder F]

theorem minimizeLoop_gap {A : Arith F} {W : World F M R G} {dims : List (Dim F)} {func : Objective F}
    {cbs : List (Callback F M)} {i : Nat} (hi : i < cbs.length) (n : Nat) {done : List (Val F)}
    {hist : List (Result F M)} {s : Opt F M R} {last : Option (Result F M)} :
    Gap i 0 (minimizeLoop A W dims func cbs n done hist s last).1 := by
  induction n generalizing done hist s last with
  | zero => trivial
  | succ n ih =>
    simp only [minimizeLoop]
    generalize askOne A W dims s = q
    obtain ⟨s₁, _ | x⟩ := q
    · trivial
    · simp only
      cases func done (.seq x) with
      | error e => exact ⟨rfl, trivial⟩
      | ok y =>
        simp only
        generalize tell A W dims s₁ (.lst x) y true = q
        obtain ⟨s₂, _ | r⟩ := q
        · exact ⟨rfl, trivial⟩
        · simp only
          have hc : ∀ b t, (evalCallbacks (hist ++ [r]) r cbs 0 false).2 = .ok b → Gap i 0 t →
              Gap i 1 ((evalCallbacks (hist ++ [r]) r cbs 0 false).1 ++ t) := fun b t h ht =>
            gap_calls cbs h (Nat.zero_le _) (by omega) ht
          have hn := (evalCallbacks_spec (hist ++ [r]) r cbs 0 false).2.2
          generalize evalCallbacks (hist ++ [r]) r cbs 0 false = q at hc hn ⊢
          obtain ⟨t₁, _ | _ | _⟩ := q
          · exact ⟨rfl, Gap.quiet hn⟩
          · exact ⟨rfl, hc _ _ rfl ih⟩
          · exact ⟨rfl, Gap.quiet hn⟩

/-- A run is nothing, or evaluations of starting points followed by rounds. -/
theorem minimizeBody_gap {A : Arith F} {W : World F M R G} {dims : List (Dim F)} {func : Objective F}
    {cbs : List (Callback F M)} {i : Nat} (hi : i < cbs.length) {nCalls : ℤ} {x0 : List (Val F)} {y0 : Y0 F}
    {s : Opt F M R} :
    ∃ t₀ t, (minimizeBody A W dims func cbs nCalls x0 y0 s).1 = t₀ ++ t ∧ (∀ e ∈ t₀, ∃ x, e = .eval x) ∧
      Gap i 0 t := by
  unfold minimizeBody
  split
  · exact ⟨[], _, rfl, by simp, minimizeLoop_gap hi _⟩
  · have hsv : ∀ e ∈ (startValues (M := M) func x0 y0).1, ∃ x, e = .eval x := by
      unfold startValues
      split
      · exact (evalAll_spec (M := M) func [] x0).2
      · simp
      · simp
    generalize startValues (M := M) func x0 y0 = q at hsv ⊢
    obtain ⟨t₀, _ | ys⟩ := q
    · exact ⟨t₀, [], by simp, hsv, trivial⟩
    · simp only
      generalize tell A W dims s (.lst x0) (.seq ys) true = q
      obtain ⟨s₂, _ | r⟩ := q
      · exact ⟨t₀, [], by simp, hsv, trivial⟩
      · simp only
        have hc : ∀ b t, (evalCallbacks [r] r cbs 0 false).2 = .ok b → Gap i 0 t →
            Gap i 0 ((evalCallbacks [r] r cbs 0 false).1 ++ t) := fun b t h ht =>
          gap_calls cbs h (Nat.zero_le _) (by omega) ht
        have hn := (evalCallbacks_spec [r] r cbs 0 false).2.2
        generalize evalCallbacks [r] r cbs 0 false = q at hc hn ⊢
        obtain ⟨t₁, _ | _ | _⟩ := q
        · exact ⟨t₀, _, rfl, hsv, Gap.quiet hn⟩
        · exact ⟨t₀, _, rfl, hsv, hc _ _ rfl (minimizeLoop_gap hi _)⟩
        · exact ⟨t₀, _, rfl, hsv, Gap.quiet hn⟩

/-- How the trace of a call comes about, however it ends. -/
theorem baseMinimize_trace (A : Arith F) (W : World F M R G) (sh : Shared F G) (func : Objective F)
    (m : MinArgs F M) (rng : R) :
    (baseMinimize A W sh func m rng).trace = [] ∨
    ∃ x0 cfg sh₁ s,
      m.prepare = .ok (x0, m.nRandomStarts.getD m.nInitialPoints + x0.length) ∧
      mkConfig (m.optArgs (m.nRandomStarts.getD m.nInitialPoints + x0.length)) = .ok cfg ∧
      Opt.init A W sh cfg rng = (sh₁, .ok s) ∧ checkStarts sh₁.dims.length x0 = .ok () ∧
      ((baseMinimize A W sh func m rng).trace, (baseMinimize A W sh func m rng).result) =
        minimizeBody A W sh₁.dims func (m.callback.callables ++ (if m.verbose then [verboseCallback] else []))
          m.nCalls x0 m.y0 s := by
  cases hp : m.prepare with
  | error e => left; simp [baseMinimize, hp]
  | ok q =>
    obtain ⟨x0, n⟩ := q
    obtain ⟨hn, -⟩ := prepare_ok hp
    subst hn
    cases hc : mkConfig (m.optArgs (m.nRandomStarts.getD m.nInitialPoints + x0.length)) with
    | error e => left; simp [baseMinimize, hp, hc]
    | ok cfg =>
      cases hi : (Opt.init A W sh cfg rng : Shared F G × Except PyErr (Opt F M R)) with
      | mk sh₁ so =>
      cases so with
      | error e => left; simp [baseMinimize, hp, hc, hi]
      | ok s =>
        cases hs : checkStarts sh₁.dims.length x0 with
        | error e => left; simp [baseMinimize, hp, hc, hi, hs]
        | ok _ =>
          cases hcb : checkCallback m.callback with
          | error e => left; simp [baseMinimize, hp, hc, hi, hs, hcb]
          | ok cbs =>
            have hcs : m.callback.callables = cbs := by
              unfold checkCallback at hcb
              unfold CbArg.callables
              cases hm : m.callback with
              | none => rw [hm] at hcb; simpa using hcb
              | one c => rw [hm] at hcb; simpa using hcb
              | list cs => rw [hm] at hcb; simpa using hcb
              | invalid => rw [hm] at hcb; cases hcb
            refine Or.inr ⟨x0, cfg, sh₁, s, rfl, hc, hi, hs, ?_⟩
            simp only [baseMinimize, hp, hc, hi, hs, hcb, hcs]
            cases m.verbose <;> simp

omit [LinearOrder F] in
theorem mkConfig_parts {a : Args} {cfg : Config} (h : mkConfig a = .ok cfg) :
    cfg.nInitial = a.nRandomStarts.getD a.nInitialPoints ∧ cfg.hasEst = !a.est.isNone ∧ a.acq = some cfg.acq := by
  unfold mkConfig at h
  split at h
  · cases h
  · next acq hacq =>
    dsimp only at h
    split at h
    · cases h
    · split at h
      · cases h
      · split at h
        · cases h
        · split at h
          · cases h
          · cases h
            exact ⟨rfl, rfl, hacq⟩

theorem createResult_models {Xi : List (Val F)} {yi : List (YArg F)} {ms : List M} {r : Result F M}
    (h : createResult Xi yi ms = .ok r) : r.models = ms := by
  simp only [createResult, bind_eq_ok, Except.ok.injEq] at h
  obtain ⟨c, hc, b, hb, x, hx, f, hf, rfl⟩ := h
  rfl

theorem createResult_best {Xi : List (Val F)} {yi : List (YArg F)} {ms : List M} {r : Result F M}
    (h : createResult Xi yi ms = .ok r) {vs : List F} (hv : r.funcVals = vs.map Flt.fin) :
    ∃ b v, FirstLeast vs b ∧ r.xIters[b]? = some r.x ∧ vs[b]? = some v ∧ r.fun_ = .fin v := by
  simp only [createResult, bind_eq_ok, Except.ok.injEq] at h
  obtain ⟨c, hc, b, hb, x, hx, f, hf, rfl⟩ := h
  simp only at hv
  rw [hv] at hb hf
  rw [pyGet_eq_ok] at hx hf
  have hbl := firstLeast_of_npArgmin hb
  refine ⟨b, ?_⟩
  rw [List.getElem?_map] at hf
  cases hvb : vs[b]? with
  | none => rw [hvb] at hf; cases hf
  | some v =>
    rw [hvb] at hf
    exact ⟨v, hbl, hx, rfl, (Option.some.inj hf).symm⟩

omit [LinearOrder F] in
theorem checkpointFile_cases (i : Nat) (p : List (Event F M)) (before : Option (Result F M)) :
    (NotCalled i p ∧ checkpointFile i before p = before) ∨
    ∃ a r d b, p = a ++ .call i r d :: b ∧ NotCalled i b ∧ checkpointFile i before p = some r := by
  induction p generalizing before with
  | nil => exact Or.inl ⟨fun _ _ hm => (by cases hm), rfl⟩
  | cons e p ih =>
    cases e with
    | eval x =>
      rcases ih before with ⟨h1, h2⟩ | ⟨a, r, d, b, h1, h2, h3⟩
      · refine Or.inl ⟨fun r d hm => ?_, h2⟩
        rcases List.mem_cons.1 hm with hm | hm
        · cases hm
        · exact h1 r d hm
      · exact Or.inr ⟨.eval x :: a, r, d, b, by rw [h1]; rfl, h2, h3⟩
    | call j r' d' =>
      simp only [checkpointFile]
      rcases ih (if j = i then some r' else before) with ⟨h1, h2⟩ | ⟨a, r, d, b, h1, h2, h3⟩
      · by_cases hj : j = i
        · rw [if_pos hj] at h2 ⊢
          exact Or.inr ⟨[], r', d', p, by rw [hj]; rfl, h1, h2⟩
        · rw [if_neg hj] at h2 ⊢
          refine Or.inl ⟨fun r d hm => ?_, h2⟩
          rcases List.mem_cons.1 hm with hm | hm
          · injection hm with hm; exact hj hm.symm
          · exact h1 r d hm
      · exact Or.inr ⟨.call j r' d' :: a, r, d, b, by rw [h1]; rfl, h2, h3⟩

/-- What callbacks are shown, with the details needed below. -/
theorem shown_results (A : Arith F) (W : World F M R G) (sh : Shared F G) (func : Objective F) (m : MinArgs F M)
    (rng : R) (st : Starts F) (hx0 : m.x0 = st.toX0) (hst : st.Proper)
    (hflat : ∀ p, Val.seq p ∈ evalsOf (baseMinimize A W sh func m rng).trace → Flat p)
    {a b : List (Event F M)} {i : Nat} {r : Result F M} {d : Except PyErr (Option Bool)}
    (h : (baseMinimize A W sh func m rng).trace = a ++ .call i r d :: b) :
    IsRecord func m.y0 st (evalsOf a) r ∧
    (m.opt.est.isNone = false → (r.models = [] ↔ ((evalsOf a).length : ℤ) <
      m.nRandomStarts.getD m.nInitialPoints + (match m.y0 with | .none => (st.all.length : ℤ) | _ => 0))) ∧
    (∀ x ∈ r.xIters, ∃ p, x = Val.seq p) ∧
    (∀ vs, r.funcVals = vs.map Flt.fin → ∃ b v, FirstLeast vs b ∧ r.xIters[b]? = some r.x ∧ vs[b]? = some v ∧
      r.fun_ = .fin v) ∧ r.xIters ≠ [] := by
  rcases baseMinimize_trace A W sh func m rng with h0 | ⟨x0, cfg, sh₁, s, h1, h2, h3, h4, h5⟩
  · rw [h0] at h; simp at h
  · obtain ⟨-, hpts, hpos, hbud⟩ := prepare_ok h1
    rw [hx0, Starts.points_eq hst] at hpts
    injection hpts with hpts
    subst hpts
    obtain ⟨rg, pts, rfl, -⟩ := init_ok h3
    obtain ⟨c1, c2, -⟩ := mkConfig_parts h2
    have c1' : cfg.nInitial = m.nRandomStarts.getD m.nInitialPoints + (st.all.length : ℤ) := by
      rw [c1]; simp [MinArgs.optArgs]
    have c2' : cfg.hasEst = !m.opt.est.isNone := c2
    have htr := congrArg Prod.fst h5
    simp only at htr
    rw [htr] at hflat
    obtain ⟨Xg, yg, n₀, hseen, hn, hg⟩ := minimizeBody_seen (fun hc => by
      rw [c1', hc]; have := hpos (by rw [hc]; rfl); simpa using this) hflat
    rw [← htr] at hseen hg
    obtain ⟨ys, ys', ms, j1, j2, j3, j4, j5⟩ := hseen.at h
    rw [List.nil_append] at j1 j3 j4 j5
    obtain ⟨k1, k2, k3⟩ := createResult_parts j3
    have hvals : ∀ {ys ys' : List (YArg F)} {fs : List (Flt F)}, List.Forall₂ (OnRecord W cfg.acq) ys ys' →
        List.Forall₂ (fun y f => valueOf y = some f) ys' fs →
        List.Forall₂ (fun y f => valueOf y = some f) ys fs := by
      intro ys ys' fs ha hb
      induction ha generalizing fs with
      | nil => exact hb
      | cons h _ ih =>
        cases hb with
        | cons hb1 hb2 => exact .cons (by rw [onRecord_value h]; exact hb1) (ih hb2)
    have hne : (baseMinimize A W sh func m rng).trace ≠ [] := by rw [h]; simp
    have hgiven : Xg = givenPoints m.y0 st ∧ List.Forall₂ (OnRecord W cfg.acq) (givenValues m.y0 st) yg ∧
        n₀ = m.nRandomStarts.getD m.nInitialPoints + (match m.y0 with | .none => (st.all.length : ℤ) | _ => 0) := by
      by_cases hy : m.y0 = .none
      · obtain ⟨e1, e2, e3⟩ := hn hy
        rw [hy]
        refine ⟨e1, ?_, by rw [e3, c1']⟩
        rw [e2]
        unfold givenValues Y0.given
        split <;> exact .nil
      · obtain ⟨e1, e2, e3, e4⟩ := hg hy
        refine ⟨?_, ?_, ?_⟩
        · rw [e1]
          unfold givenPoints
          split
          · next hc => exact absurd hc hy
          · rfl
        · unfold givenValues
          by_cases hs : st.all = []
          · rw [e3 hs, hs]; exact .nil
          · rw [if_neg (by simpa using hs)]
            exact e4 hs hne
        · rw [e2, c1']
          split
          · next hc => exact absurd hc hy
          · omega
    obtain ⟨g1, g2, g3⟩ := hgiven
    refine ⟨⟨ys, j1, by rw [k1, g1], ?_⟩, ?_, by rw [k1]; exact j4, fun vs hv => createResult_best j3 hv, by
      rw [k1]; exact k3⟩
    · exact hvals (List.rel_append g2 j2) k2
    · intro he
      rw [createResult_models j3, j5 (by rw [c2', he]; rfl), g3]

end

/-! ## C83 -/

section
variable [LinearOrder F]

/-- **C83 (what callbacks see).** However the call ends: every result shown to a callback is the complete
record at that time – the given observations followed by all evaluations made so far, each with its value – and
its `x`, `fun` are the first best observation.

Missing: evaluated points all of whose entries are lists or tuples, which `tell` takes for a batch of points. -/
theorem C83_callbacks_see_everything_partial (A : Arith F) (W : World F M R G) (sh : Shared F G) (func : Objective F)
    (m : MinArgs F M) (rng : R) (st : Starts F) (hx0 : m.x0 = st.toX0) (hst : st.Proper)
    (hflat : ∀ p, Val.seq p ∈ evalsOf (baseMinimize A W sh func m rng).trace → Flat p)
    (a b : List (Event F M)) (i : Nat) (r : Result F M) (d : Except PyErr (Option Bool))
    (h : (baseMinimize A W sh func m rng).trace = a ++ .call i r d :: b) :
    IsRecord func m.y0 st (evalsOf a) r ∧
    ∀ vs, r.funcVals = vs.map Flt.fin → ∃ b v, FirstLeast vs b ∧ r.xIters[b]? = some r.x ∧ vs[b]? = some v ∧
      r.fun_ = .fin v := by
  obtain ⟨h1, -, -, h4, -⟩ := shown_results A W sh func m rng st hx0 hst hflat h
  exact ⟨h1, h4⟩

/-- **C83 (checkpoint).** Let a `CheckpointSaver` be among the callbacks.  At any moment of a call – so also
when it is interrupted or raises later – the file is untouched and no round of callbacks got to the saver, or the
file holds the complete record of all evaluations but at most one.

Missing: as above. -/
theorem C83_checkpoint_partial (A : Arith F) (W : World F M R G) (sh : Shared F G) (func : Objective F)
    (m : MinArgs F M) (rng : R) (st : Starts F) (hx0 : m.x0 = st.toX0) (hst : st.Proper)
    (hflat : ∀ p, Val.seq p ∈ evalsOf (baseMinimize A W sh func m rng).trace → Flat p) (i : Nat)
    (hi : m.callback.callables[i]? = some checkpointSaver) (before : Option (Result F M)) (p : List (Event F M))
    (hp : p <+: (baseMinimize A W sh func m rng).trace) :
    (NotCalled i p ∧ checkpointFile i before p = before) ∨
    ∃ r saved lost, checkpointFile i before p = some r ∧ evalsOf p = saved ++ lost ∧
      IsRecord func m.y0 st saved r ∧ lost.length ≤ 1 := by
  rcases checkpointFile_cases i p before with h | ⟨a, r, d, b, h1, h2, h3⟩
  · exact Or.inl h
  · right
    obtain ⟨q, hq⟩ := hp
    have hcut : (baseMinimize A W sh func m rng).trace = a ++ .call i r d :: (b ++ q) := by
      rw [← hq, h1]; simp
    refine ⟨r, evalsOf a, evalsOf b, h3, ?_, (shown_results A W sh func m rng st hx0 hst hflat hcut).1, ?_⟩
    · rw [h1, evalsOf_append, evalsOf_call_cons]
    · rcases baseMinimize_trace A W sh func m rng with h0 | ⟨x0, cfg, sh₁, s, -, -, -, -, h5⟩
      · rw [h0] at hcut; simp at hcut
      · have hil : i < (m.callback.callables ++ (if m.verbose then [verboseCallback] else [])).length := by
          have := (List.getElem?_eq_some_iff.1 hi).1
          rw [List.length_append]; omega
        obtain ⟨t₀, t, g1, g2, g3⟩ := minimizeBody_gap (A := A) (W := W) (dims := sh₁.dims) (func := func) hil
          (nCalls := m.nCalls) (x0 := x0) (y0 := m.y0) (s := s)
        have htr := congrArg Prod.fst h5
        simp only at htr
        rw [← htr, hcut] at g1
        rcases List.append_eq_append_iff.1 g1 with ⟨u, e1, e2⟩ | ⟨u, e1, e2⟩
        · cases u with
          | nil =>
            rw [List.nil_append] at e2
            rw [← e2] at g3
            have := Gap.suffix (a := []) g3
            have := Gap.length this.prefix h2 (Nat.zero_le _)
            omega
          | cons e u =>
            rw [List.cons_append] at e2
            injection e2 with e2 _
            obtain ⟨x, hx⟩ := g2 e (by rw [e1]; simp)
            rw [← e2] at hx
            cases hx
        · rw [e2] at g3
          have := Gap.length (Gap.suffix g3).prefix h2 (Nat.zero_le _)
          omega

/-- **C83 (resuming).** From a checkpoint written by one call, another call is started with
`x0 = res.x_iters, y0 = res.func_vals` (any other settings).  If it returns, nothing of the checkpoint was
evaluated again and its record is that of the checkpoint followed by its own evaluations, of which there are
`n_calls` if no callback stops it.

Missing: points made of lists only, and the per-second modes, where the times are missing from `func_vals`
(`C83_refuted_per_second`). -/
theorem C83_resume_partial (A : Arith F) (W : World F M R G) (sh sh' : Shared F G) (func func' : Objective F)
    (m m' : MinArgs F M) (rng rng' : R) (st : Starts F) (hx0 : m.x0 = st.toX0) (hst : st.Proper)
    (hflat : ∀ p, Val.seq p ∈ evalsOf (baseMinimize A W sh func m rng).trace → Flat p)
    (a b : List (Event F M)) (i : Nat) (r r' : Result F M) (d : Except PyErr (Option Bool))
    (h : (baseMinimize A W sh func m rng).trace = a ++ .call i r d :: b)
    (hx' : m'.x0 = .list r.xIters) (hy' : m'.y0 = .iter (r.funcVals.map YArg.num))
    (hflat' : ∀ p, Val.seq p ∈ evalsOf (baseMinimize A W sh' func' m' rng').trace → Flat p)
    (h' : (baseMinimize A W sh' func' m' rng').result = .ok (some r')) :
    let evals := evalsOf (baseMinimize A W sh' func' m' rng').trace
    (∃ ys vals, Answers func' [] evals ys ∧ List.Forall₂ (fun y f => valueOf y = some f) ys vals ∧
      r'.xIters = r.xIters ++ evals ∧ r'.funcVals = r.funcVals ++ vals) ∧
    ((∀ i r, Event.call i r (.ok (some true)) ∉ (baseMinimize A W sh' func' m' rng').trace) →
      (evals.length : ℤ) = max m'.nCalls 0) := by
  intro evals
  obtain ⟨-, -, hseq, -, hne⟩ := shown_results A W sh func m rng st hx0 hst hflat h
  obtain ⟨ps, hps⟩ : ∃ ps : List (Point F), r.xIters = ps.map Val.seq := by
    clear hx' hne h
    generalize r.xIters = xs at hseq
    induction xs with
    | nil => exact ⟨[], rfl⟩
    | cons x xs ih =>
      obtain ⟨p, rfl⟩ := hseq x List.mem_cons_self
      obtain ⟨ps, rfl⟩ := ih fun x hx => hseq x (List.mem_cons_of_mem _ hx)
      exact ⟨p :: ps, rfl⟩
  have hpn : ps ≠ [] := by
    rintro rfl
    exact hne hps
  have hx'' : m'.x0 = (Starts.points ps).toX0 := by rw [hx', hps]; rfl
  have hy'' : m'.y0 ≠ .none := by rw [hy']; exact fun hc => (by cases hc)
  constructor
  · obtain ⟨ys, g1, -, g3⟩ := C42_result_records_partial A W sh' func' m' rng' (.points ps) r' hx'' hpn h' hflat'
    obtain ⟨k1, k2, -⟩ := g3 hy''
    have k2' := k2 hpn
    rw [hy'] at k2'
    have k3 : List.Forall₂ (fun y f => valueOf y = some f) (r.funcVals.map YArg.num ++ ys) r'.funcVals := k2'
    obtain ⟨u, v, e1, e2, e3⟩ : ∃ u v, r'.funcVals = u ++ v ∧
        List.Forall₂ (fun y f => valueOf y = some f) (r.funcVals.map YArg.num) u ∧
        List.Forall₂ (fun y f => valueOf y = some f) ys v := by
      clear * - k3
      generalize r.funcVals.map YArg.num = xs at k3
      generalize r'.funcVals = zs at k3
      induction xs generalizing zs with
      | nil => exact ⟨[], zs, rfl, .nil, k3⟩
      | cons x xs ih =>
        cases k3 with
        | cons h1 h2 =>
          obtain ⟨u, v, rfl, e2, e3⟩ := ih _ h2
          exact ⟨_ :: u, v, rfl, .cons h1 e2, e3⟩
    have hu : u = r.funcVals := by
      clear * - e2
      generalize r.funcVals = xs at e2
      induction xs generalizing u with
      | nil => cases e2; rfl
      | cons x xs ih =>
        cases e2 with
        | cons h1 h2 =>
          rw [ih _ h2]
          injection h1 with h1
          rw [h1]
    refine ⟨ys, v, g1, e3, ?_, by rw [e1, hu]⟩
    rw [k1, hps]; rfl
  · intro hgo
    exact (C42_number_of_evaluations A W sh' func' m' rng' (.points ps) (some r') hx'' hpn h' hgo).2 hy''

end

/-! ## Examples -/

/-- An objective that raises at its fourth evaluation. -/
def failingObjective : Objective ℚ := fun done _ =>
  if done.length = 3 then .error (.external 7) else .ok (.num (.fin (done.length + 1)))

/-- The call of `toyMin` with a checkpoint and that objective. -/
def failingRun : Outcome ℚ Nat Unit :=
  baseMinimize ratArith okWorld toyShared failingObjective (toyMin (.one checkpointSaver)) 0

/-- The hypotheses of the C83 theorems are met by a run that raises: the file then holds three of the four
evaluations.
Meets the hypotheses of `C83_callbacks_see_everything_partial`, `C83_checkpoint_partial`. -/
example :
    (toyMin (.one checkpointSaver)).x0 = (Starts.points [[Val.num 3]]).toX0 ∧
    (toyMin (.one checkpointSaver)).callback.callables[0]? = some checkpointSaver ∧
    (∀ p, Val.seq p ∈ evalsOf failingRun.trace → Flat p) ∧
    failingRun.result.toOption.isNone = true ∧
    evalsOf failingRun.trace = [.seq [.num 3], .seq [.num 5], .seq [.num 5], .seq [.num 5]] ∧
    (checkpointFile 0 none failingRun.trace).map (fun r => (r.xIters, r.funcVals)) =
      some ([.seq [.num 3], .seq [.num 5], .seq [.num 5]], [.fin 1, .fin 2, .fin 3]) := by
  refine ⟨rfl, rfl, ?_, ?_, ?_, ?_⟩
  · intro p hp
    have : ∀ e ∈ evalsOf failingRun.trace, e.items.any (fun v => !v.isSeq) = true := by decide +kernel
    have := this _ hp
    simp only [Val.items, List.any_eq_true] at this
    obtain ⟨v, h1, h2⟩ := this
    exact ⟨v, h1, by simpa using h2⟩
  all_goals decide +kernel

/-- The call resumed from the file of the failed run. -/
def resumedArgs : MinArgs ℚ Nat :=
  match checkpointFile 0 none failingRun.trace with
  | some r => { toyMin .none with x0 := .list r.xIters, y0 := .iter (r.funcVals.map YArg.num) }
  | none => toyMin .none

/-- A resumed run that returns.
Meets the hypotheses of `C83_resume_partial`. -/
example :
    let out := baseMinimize ratArith okWorld toyShared countingObjective resumedArgs 0
    evalsOf out.trace = [.seq [.num 5], .seq [.num 5], .seq [.num 5], .seq [.num 5]] ∧
    (out.result.toOption.bind fun r => r.map fun r => (r.xIters.length, r.funcVals)) =
      some (7, [.fin 1, .fin 2, .fin 3, .fin 1, .fin 2, .fin 3, .fin 4]) := by
  refine ⟨?_, ?_⟩ <;> decide +kernel

/-- An objective with computation times. -/
def timedCounting : Objective ℚ := fun done _ => .ok (.seq [.num (.fin (done.length + 1)), .num (.fin 2)])

/-- A call in the per-second mode. -/
def psMin : MinArgs ℚ Nat :=
  { toyMin (.one checkpointSaver) with opt := { (toyMin .none).opt with acq := some .EIps } }

/-- **C83 is false in the per-second modes**: `res.func_vals` of a checkpoint does not contain the times, so a
call resumed with `x0 = res.x_iters, y0 = res.func_vals` raises `TypeError` – also with the very settings under
which the checkpoint was written. -/
theorem C83_refuted_per_second :
    ∃ r, checkpointFile 0 none (baseMinimize ratArith okWorld toyShared timedCounting psMin 0).trace = some r ∧
      (baseMinimize ratArith okWorld toyShared timedCounting psMin 0).result.toOption.isSome = true ∧
      (baseMinimize ratArith okWorld toyShared timedCounting
        { psMin with x0 := .list r.xIters, y0 := .iter (r.funcVals.map YArg.num) } 0).result.toOption.isNone = true := by
  obtain ⟨r, hr⟩ : ∃ r, checkpointFile 0 none
      (baseMinimize ratArith okWorld toyShared timedCounting psMin 0).trace = some r :=
    Option.isSome_iff_exists.1 (by decide +kernel)
  refine ⟨r, hr, by decide +kernel, ?_⟩
  have key : (checkpointFile 0 none (baseMinimize ratArith okWorld toyShared timedCounting psMin 0).trace).map
      (fun r => (baseMinimize ratArith okWorld toyShared timedCounting
        { psMin with x0 := .list r.xIters, y0 := .iter (r.funcVals.map YArg.num) } 0).result.toOption.isNone) =
      some true := by decide +kernel
  rw [hr] at key
  exact Option.some.inj key

end Skopt

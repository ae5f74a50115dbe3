import Verif.Props.Run
import Verif.Props.Minimize

/-!
# C96: the minimize functions are `Optimizer.run`
-/

namespace Skopt

variable {F M R G : Type} [LinearOrder F]

/-- A callback ends the call after the results `hist`, the last of which is `r`: it asks to stop and `r` is returned, or
it raises and the exception reaches the caller. -/
def Interrupts (cbs : List (Callback F M)) (hist : List (Result F M)) (r : Result F M)
    (o : Except PyErr (Option (Result F M))) : Prop :=
  ∃ c ∈ cbs, (c hist = .ok (some true) ∧ o = .ok (some r)) ∨ ∃ e, c hist = .error e ∧ o = .error e

/-- What a user of the objective observes of a call: the evaluated points are `pre` followed by those of
`Optimizer.run(func, n)` and the outcome is that of `run` – unless a callback ends the call after `k` rounds; then they
are those of `run(func, k)`, and the callback had seen the result at the start, `hist`, and those of `run(func, 1)`, …,
`run(func, k)`. -/
def RunsLike (A : Arith F) (W : World F M R G) (dims : List (Dim F)) (f : List (Point F) → Point F → Except PyErr (YArg F))
    (cbs : List (Callback F M)) (n : Nat) (s : Opt F M R) (pre : List (Val F)) (hist : List (Result F M))
    (evals : List (Val F)) (o : Except PyErr (Option (Result F M))) : Prop :=
  (evals = pre ++ (Opt.run A W dims f n s).1.map Val.seq ∧ o = (Opt.run A W dims f n s).2.2.map some) ∨
  ∃ k ≤ n, ∃ xs s' r new, Opt.run A W dims f k s = (xs, s', .ok r) ∧ evals = pre ++ xs.map Val.seq ∧
    new.length = k ∧ (∀ j r', new[j]? = some r' → (Opt.run A W dims f (j + 1) s).2.2 = .ok r') ∧
    (hist ++ new).getLast? = some r ∧ Interrupts cbs (hist ++ new) r o

omit [LinearOrder F] in
theorem evalCallbacks_error {hist : List (Result F M)} {r : Result F M} {cbs : List (Callback F M)} {i : Nat} {b : Bool}
    {t : List (Event F M)} {e : PyErr} (h : evalCallbacks hist r cbs i b = (t, .error e)) :
    ∃ c ∈ cbs, c hist = .error e := by
  induction cbs generalizing i b t with
  | nil => simp [evalCallbacks] at h
  | cons c cs ih =>
    simp only [evalCallbacks] at h
    cases hc : c hist with
    | error e' =>
      simp only [hc, Prod.mk.injEq, Except.error.injEq] at h
      exact ⟨c, by simp, by rw [hc, h.2]⟩
    | ok d =>
      simp only [hc] at h
      rcases hr : evalCallbacks hist r cs (i + 1) (b || d.getD false) with ⟨t', o⟩
      simp only [hr, Prod.mk.injEq] at h
      obtain ⟨c', h1, h2⟩ := ih (hr.trans (by rw [h.2]))
      exact ⟨c', by simp [h1], h2⟩

/-- A `tell` that returns, returns the result of the state it leaves. -/
theorem tell_getResult {A : Arith F} {W : World F M R G} {dims : List (Dim F)} {s t : Opt F M R} {x : XArg F}
    {y : YArg F} {fit : Bool} {r : Result F M} (h : tell A W dims s x y fit = (t, .ok r)) : getResult t = .ok r := by
  rcases tell_cases A W dims s x y fit with ⟨e, he⟩ | ⟨y', -, -, -, he⟩
  · rw [he] at h; cases h
  · rw [he] at h
    have := (tellCore_ok (h := by rw [h])).1
    rwa [h] at this

theorem minimizeLoop_run (A : Arith F) (W : World F M R G) (dims : List (Dim F)) (func : Objective F)
    (cbs : List (Callback F M)) (n : Nat) (done : List (Val F)) (hist : List (Result F M)) (s : Opt F M R)
    (last : Option (Result F M)) (hlast : n = 0 → ∃ r, last = some r ∧ getResult s = .ok r) :
    RunsLike A W dims (fun d x => func (done ++ d.map Val.seq) (.seq x)) cbs n s [] hist
      (evalsOf (minimizeLoop A W dims func cbs n done hist s last).1)
      (minimizeLoop A W dims func cbs n done hist s last).2 := by
  induction n generalizing done hist s last with
  | zero =>
    obtain ⟨r, rfl, hr⟩ := hlast rfl
    left
    simp only [minimizeLoop, Opt.run, hr]
    exact ⟨rfl, rfl⟩
  | succ n ih =>
    unfold minimizeLoop
    rcases ha : askOne A W dims s with ⟨s1, e | x⟩
    · left
      simp only [Opt.run, ha]
      exact ⟨rfl, rfl⟩
    simp only
    cases hf : func done (.seq x) with
    | error e =>
      left
      simp only [Opt.run, ha, List.map_nil, List.append_nil, hf]
      exact ⟨rfl, rfl⟩
    | ok y =>
      simp only
      rcases ht : tell A W dims s1 (.lst x) y true with ⟨s2, e | r⟩
      · left
        simp only [Opt.run, ha, List.map_nil, List.append_nil, hf, ht]
        exact ⟨rfl, rfl⟩
      have hg := tell_getResult ht
      have hrun : ∀ m, Opt.run A W dims (fun d x => func (done ++ d.map Val.seq) (.seq x)) (m + 1) s =
          (x :: (Opt.run A W dims (fun d z => func ((done ++ [.seq x]) ++ d.map Val.seq) (.seq z)) m s2).1,
            (Opt.run A W dims (fun d z => func ((done ++ [.seq x]) ++ d.map Val.seq) (.seq z)) m s2).2) := by
        intro m
        simp only [Opt.run, ha, List.map_nil, List.append_nil, hf, ht, List.map_cons, List.append_assoc,
          List.cons_append, List.nil_append]
      have hone : ∀ o, Interrupts cbs (hist ++ [r]) r o → ∀ t : List (Event F M), evalsOf t = [] →
          RunsLike A W dims (fun d x => func (done ++ d.map Val.seq) (.seq x)) cbs (n + 1) s [] hist
            (evalsOf (.eval (.seq x) :: t)) o := by
        intro o ho t ht'
        right
        refine ⟨1, by omega, [x], s2, r, [r], ?_, ?_, rfl, ?_, by simp, ho⟩
        · rw [hrun 0]
          simp only [Opt.run, hg]
        · rw [evalsOf_eval_cons, ht']
          rfl
        · intro j r' hj
          cases j with
          | zero =>
            simp only [List.getElem?_cons_zero, Option.some.injEq] at hj
            subst hj
            rw [hrun 0]
            exact hg
          | succ j => simp at hj
      obtain ⟨c1, -, c3⟩ := evalCallbacks_spec (hist ++ [r]) r cbs 0 false
      rcases hcb : evalCallbacks (hist ++ [r]) r cbs 0 false with ⟨t, e | b⟩
      · rw [hcb] at c3
        obtain ⟨c, h1, h2⟩ := evalCallbacks_error hcb
        simp only [hcb]
        exact hone _ ⟨c, h1, Or.inr ⟨e, h2, rfl⟩⟩ t c3
      · rw [hcb] at c1 c3
        cases b with
        | true =>
          simp only [hcb]
          obtain ⟨c, h1, h2⟩ := ((c1 true rfl).2.1.1 rfl).resolve_left (by simp)
          exact hone _ ⟨c, h1, Or.inl ⟨h2, rfl⟩⟩ t c3
        | false =>
          simp only [hcb]
          have hev : ∀ t', evalsOf (.eval (.seq x) :: (t ++ t') : List (Event F M)) = .seq x :: evalsOf t' := by
            intro t'
            rw [evalsOf_eval_cons, evalsOf_append]
            simp only at c3
            rw [c3]
            rfl
          rw [hev]
          rcases ih (done ++ [.seq x]) (hist ++ [r]) s2 (some r) (fun _ => ⟨r, rfl, hg⟩) with
            ⟨h1, h2⟩ | ⟨k, hk, xs, s', r', new, h1, h2, h3, h4, h5, h6⟩
          · left
            rw [hrun n, h1]
            exact ⟨rfl, h2⟩
          · right
            refine ⟨k + 1, by omega, x :: xs, s', r', r :: new, ?_, ?_, by simp [h3], ?_, ?_, ?_⟩
            · rw [hrun k, h1]
            · rw [h2]; rfl
            · intro j q hj
              cases j with
              | zero =>
                simp only [List.getElem?_cons_zero, Option.some.injEq] at hj
                subst hj
                rw [hrun 0]
                exact hg
              | succ j =>
                rw [hrun (j + 1)]
                exact h4 j q (by simpa using hj)
            · simpa using h5
            · simpa using h6

omit [LinearOrder F] in
theorem evalAll_answers {func : Objective F} : ∀ {done xs : List (Val F)} {ys : List (YArg F)},
    Answers func done xs ys → evalAll (M := M) func done xs = (xs.map Event.eval, .ok ys)
  | _, [], [], _ => rfl
  | _, x :: xs, y :: ys, h => by
    simp only [Answers] at h
    simp only [evalAll, h.1, evalAll_answers h.2]
    rfl
  | _, [], _ :: _, h => by cases h
  | _, _ :: _, [], h => by cases h

/-- The constructor `Optimizer(…)`: the settings are checked, then the state is built. -/
def construct (A : Arith F) (W : World F M R G) (sh : Shared F G) (a : Args) (rng : R) :
    Shared F G × Except PyErr (Opt F M R) :=
  match mkConfig a with
  | .error e => (sh, .error e)
  | .ok cfg => Opt.init A W sh cfg rng

omit [LinearOrder F] in
theorem interrupts_verbose {cbs : List (Callback F M)} {v : Bool} {hist : List (Result F M)} {r : Result F M}
    {o : Except PyErr (Option (Result F M))}
    (h : Interrupts (if v then cbs ++ [verboseCallback] else cbs) hist r o) : Interrupts cbs hist r o := by
  obtain ⟨c, hc, h⟩ := h
  cases v with
  | false => exact ⟨c, hc, h⟩
  | true =>
    simp only [if_true, List.mem_append, List.mem_singleton] at hc
    rcases hc with hc | rfl
    · exact ⟨c, hc, h⟩
    · rcases h with ⟨h, -⟩ | ⟨e, h, -⟩ <;> cases h

theorem runsLike_verbose {A : Arith F} {W : World F M R G} {dims : List (Dim F)}
    {f : List (Point F) → Point F → Except PyErr (YArg F)}
    {cbs : List (Callback F M)} {v : Bool} {n : Nat} {s : Opt F M R} {pre : List (Val F)} {hist : List (Result F M)}
    {evals : List (Val F)} {o : Except PyErr (Option (Result F M))}
    (h : RunsLike A W dims f (if v then cbs ++ [verboseCallback] else cbs) n s pre hist evals o) :
    RunsLike A W dims f cbs n s pre hist evals o := by
  rcases h with h | ⟨k, hk, xs, s', r, new, h1, h2, h3, h4, h5, h6⟩
  · exact Or.inl h
  · exact Or.inr ⟨k, hk, xs, s', r, new, h1, h2, h3, h4, h5, interrupts_verbose h6⟩

/-- **C96, no starting points.** With a positive number of initial points that fits into `n_calls` and a proper
`callback` argument, a call of a minimize function without starting points is `Optimizer(…)` – with the same settings and
that number of initial points – followed by `run(func, n_calls)`: if the constructor raises, so does the call, without any
evaluation; otherwise the objective is evaluated at the same points in the same order, and the call returns or raises
what `run` does.  The callbacks cannot change any of this, only end the call early: then it is `run(func, k)` for some
`k ≤ n_calls`, and the callback had been shown the results of `run(func, 1)`, …, `run(func, k)`. -/
theorem C96_minimize_is_run (A : Arith F) (W : World F M R G) (sh : Shared F G) (func : Objective F) (m : MinArgs F M)
    (rng : R) (hx : m.x0 = .none) (n : ℤ) (hn : n = m.nRandomStarts.getD m.nInitialPoints) (hpos : 0 < n)
    (hle : n ≤ m.nCalls) (cbs : List (Callback F M)) (hcb : checkCallback m.callback = .ok cbs) :
    let out := baseMinimize A W sh func m rng
    let c := construct A W sh { m.opt with nInitialPoints := n, nRandomStarts := none } rng
    out.shared = c.1 ∧
    (∀ e, c.2 = .error e → out.trace = [] ∧ out.result = .error e) ∧
    ∀ s : Opt F M R, c.2 = .ok s →
      RunsLike A W c.1.dims (fun d x => func (d.map Val.seq) (.seq x)) cbs m.nCalls.toNat s [] []
        (evalsOf out.trace) out.result := by
  have hp : m.prepare = .ok ([], n) := by
    unfold MinArgs.prepare
    rw [hx]
    simp only [X0.points, ok_bind, ← hn]
    rw [if_neg (by simp; omega), if_neg (by simp; omega)]
    simp
  simp only
  unfold baseMinimize construct
  simp only [hp, MinArgs.optArgs]
  cases hc : mkConfig { m.opt with nInitialPoints := n, nRandomStarts := none } with
  | error e =>
    refine ⟨rfl, fun e' h => ?_, fun s h => by cases h⟩
    cases h
    exact ⟨rfl, rfl⟩
  | ok cfg =>
    simp only
    rcases hi : (Opt.init A W sh cfg rng : Shared F G × Except PyErr (Opt F M R)) with ⟨sh', e | s⟩
    · refine ⟨rfl, fun e' h => ?_, fun s h => by cases h⟩
      cases h
      exact ⟨rfl, rfl⟩
    · have hs : checkStarts sh'.dims.length ([] : List (Val F)) = .ok () := rfl
      simp only [hs, hcb]
      refine ⟨trivial, fun e' h => (by cases h), fun s0 h => ?_⟩
      cases h
      simp only [minimizeBody, List.isEmpty_nil, if_true]
      have := minimizeLoop_run A W sh'.dims func (if m.verbose then cbs ++ [verboseCallback] else cbs) m.nCalls.toNat
        [] [] s none (fun h => by omega)
      exact runsLike_verbose this

/-- **C96, with starting points.** The same with starting points: the call is `Optimizer(…)` – with as many more initial
points as there are starting points –, `tell(x0, y0)` of the starting points and their values, and `run` for the calls
that are left.  The values are those given, or those of the objective at the starting points, evaluated first and in
order; only then do they count. -/
theorem C96_minimize_with_starts (A : Arith F) (W : World F M R G) (sh : Shared F G) (func : Objective F)
    (m : MinArgs F M) (rng : R) (st : Starts F) (hx : m.x0 = st.toX0) (hst : st.Proper) (hne : st.all ≠ []) (n : ℤ)
    (hn : n = m.nRandomStarts.getD m.nInitialPoints) (cbs : List (Callback F M))
    (hcb : checkCallback m.callback = .ok cbs) (ys : List (YArg F)) (pre : List (Point F))
    (hy : m.y0 = .none ∧ Answers func [] (st.all.map Val.seq) ys ∧ pre = st.all ∧ n + st.all.length ≤ m.nCalls ∨
      m.y0 = .iter ys ∧ ys.length = st.all.length ∧ pre = [] ∧ n ≤ m.nCalls) :
    let out := baseMinimize A W sh func m rng
    let c := construct A W sh { m.opt with nInitialPoints := n + st.all.length, nRandomStarts := none } rng
    out.shared = c.1 ∧
    (∀ e, c.2 = .error e → out.trace = [] ∧ out.result = .error e) ∧
    ∀ s : Opt F M R, c.2 = .ok s → (∀ p ∈ st.all, p.length = c.1.dims.length) →
      let t := tell A W c.1.dims s (.lst (st.all.map Val.seq)) (.seq ys) true
      (∀ e, t.2 = .error e → evalsOf out.trace = pre.map Val.seq ∧ out.result = .error e) ∧
      ∀ r, t.2 = .ok r →
        RunsLike A W c.1.dims (fun d x => func (pre.map Val.seq ++ d.map Val.seq) (.seq x)) cbs
          (m.nCalls - pre.length).toNat t.1 (pre.map Val.seq) [r] (evalsOf out.trace) out.result := by
  have hp : m.prepare = .ok (st.all.map Val.seq, n + st.all.length) := by
    unfold MinArgs.prepare
    rw [hx, Starts.points_eq hst]
    simp only [ok_bind, ← hn]
    have h1 : (st.all.map Val.seq).isEmpty = false := by
      cases h : st.all with
      | nil => exact absurd h hne
      | cons p ps => rfl
    rw [if_neg (by simp [h1]), if_neg]
    · simp
    · rcases hy with ⟨hy, -, -, hle⟩ | ⟨hy, hl, -, hle⟩
      · simp only [hy, Y0.falsy, Y0.values, if_true, List.length_map]
        omega
      · have : ys.isEmpty = false := by
          cases ys with
          | nil =>
            exact absurd (List.length_eq_zero_iff.1 hl.symm) hne
          | cons y ys => rfl
        simp only [hy, Y0.falsy, Y0.values, this]
        simp only [Bool.false_eq_true, if_false]
        omega
  simp only
  unfold baseMinimize construct
  simp only [hp, MinArgs.optArgs]
  cases hc : mkConfig { m.opt with nInitialPoints := n + st.all.length, nRandomStarts := none } with
  | error e =>
    refine ⟨rfl, fun e' h => ?_, fun s h => by cases h⟩
    cases h
    exact ⟨rfl, rfl⟩
  | ok cfg =>
    simp only
    rcases hi : (Opt.init A W sh cfg rng : Shared F G × Except PyErr (Opt F M R)) with ⟨sh', e | s⟩
    · refine ⟨rfl, fun e' h => ?_, fun s h => by cases h⟩
      cases h
      exact ⟨rfl, rfl⟩
    · simp only
      refine ⟨?_, fun e' h => (by cases h), fun s0 h hdim => ?_⟩
      · split
        · rfl
        · rw [hcb]
      cases h
      have hs : checkStarts sh'.dims.length (st.all.map Val.seq) = .ok () := by
        unfold checkStarts
        rw [if_neg (by simp [Val.len?]), if_neg]
        simp only [List.all_map, List.all_eq_true, Function.comp_apply, Val.len?, Option.some.injEq, decide_eq_true_eq,
          not_not]
        exact hdim
      have hemp : (st.all.map Val.seq).isEmpty = false := by
        cases h : st.all with
        | nil => exact absurd h hne
        | cons p ps => rfl
      obtain ⟨t0, hsv, hev, hfirst⟩ : ∃ t0 : List (Event F M), startValues func (st.all.map Val.seq) m.y0 = (t0, .ok ys) ∧
          evalsOf t0 = pre.map Val.seq ∧ evaluatedFirst (st.all.map Val.seq) m.y0 = pre.map Val.seq := by
        rcases hy with ⟨hy, ha, rfl, -⟩ | ⟨hy, hl, rfl, -⟩
        · rw [hy]
          refine ⟨(st.all.map Val.seq).map Event.eval, ?_, evalsOf_evals _, rfl⟩
          simp only [startValues, Y0.values]
          exact evalAll_answers ha
        · rw [hy]
          refine ⟨[], ?_, rfl, rfl⟩
          simp only [startValues, Y0.values]
          rw [if_neg (by simpa using hl.symm)]
      simp only [hs, hcb, minimizeBody, hemp, hsv, hfirst, Bool.false_eq_true, if_false]
      rcases ht : tell A W sh'.dims s (.lst (st.all.map Val.seq)) (.seq ys) true with ⟨s1, e | r⟩
      · refine ⟨fun e' h => ?_, fun r h => (by cases h)⟩
        cases h
        exact ⟨hev, rfl⟩
      · refine ⟨fun e' h => (by cases h), fun r0 h => ?_⟩
        cases h
        have hg := tell_getResult ht
        simp only
        apply runsLike_verbose (v := m.verbose)
        generalize hcbs : (if m.verbose = true then cbs ++ [verboseCallback] else cbs) = cbs'
        obtain ⟨c1, -, c3⟩ := evalCallbacks_spec [r] r cbs' 0 false
        have hone : ∀ o, Interrupts cbs' [r] r o → ∀ t : List (Event F M), evalsOf t = [] →
            RunsLike A W sh'.dims (fun d x => func (pre.map Val.seq ++ d.map Val.seq) (.seq x)) cbs'
              (m.nCalls - pre.length).toNat s1 (pre.map Val.seq) [r] (evalsOf (t0 ++ t)) o := by
          intro o ho t ht'
          right
          refine ⟨0, by omega, [], s1, r, [], ?_, ?_, rfl, by simp, rfl, ho⟩
          · simp only [Opt.run, hg]
          · rw [evalsOf_append, ht', hev]
            rfl
        rcases hcb' : evalCallbacks [r] r cbs' 0 false with ⟨t, e | b⟩
        · rw [hcb'] at c3
          obtain ⟨c, h1, h2⟩ := evalCallbacks_error hcb'
          exact hone _ ⟨c, h1, Or.inr ⟨e, h2, rfl⟩⟩ t c3
        · rw [hcb'] at c1 c3
          cases b with
          | true =>
            obtain ⟨c, h1, h2⟩ := ((c1 true rfl).2.1.1 rfl).resolve_left (by simp)
            exact hone _ ⟨c, h1, Or.inl ⟨h2, rfl⟩⟩ t c3
          | false =>
            simp only [List.length_map]
            have := minimizeLoop_run A W sh'.dims func cbs' (m.nCalls - pre.length).toNat (pre.map Val.seq) [r] s1
              (some r) (fun _ => ⟨r, rfl, hg⟩)
            simp only at c3
            rw [evalsOf_append, evalsOf_append, c3, hev]
            rcases this with ⟨h1, h2⟩ | ⟨k, hk, xs, s', r', new, h1, h2, h3⟩
            · left
              rw [h1]
              exact ⟨rfl, h2⟩
            · right
              exact ⟨k, hk, xs, s', r', new, h1, by rw [h2]; rfl, h3⟩

/-- **C96, silent callbacks.** If no callback ever raises or asks to stop (in particular if there is none), the first
alternative holds: the evaluations and the outcome are exactly those of `run`. -/
theorem C96_silent_callbacks (A : Arith F) (W : World F M R G) (sh : Shared F G) (func : Objective F) (m : MinArgs F M)
    (rng : R) (hx : m.x0 = .none) (n : ℤ) (hn : n = m.nRandomStarts.getD m.nInitialPoints) (hpos : 0 < n)
    (hle : n ≤ m.nCalls) (cbs : List (Callback F M)) (hcb : checkCallback m.callback = .ok cbs)
    (hq : ∀ c ∈ cbs, ∀ hist, c hist = .ok none ∨ c hist = .ok (some false)) (sh' : Shared F G) (s : Opt F M R)
    (hs : construct A W sh { m.opt with nInitialPoints := n, nRandomStarts := none } rng = (sh', .ok s)) :
    let out := baseMinimize A W sh func m rng
    let u := Opt.run A W sh'.dims (fun d x => func (d.map Val.seq) (.seq x)) m.nCalls.toNat s
    out.shared = sh' ∧ evalsOf out.trace = u.1.map Val.seq ∧ out.result = u.2.2.map some := by
  obtain ⟨h1, -, h3⟩ := C96_minimize_is_run A W sh func m rng hx n hn hpos hle cbs hcb
  rw [hs] at h1 h3
  rcases h3 s rfl with ⟨h4, h5⟩ | ⟨k, -, xs, s', r, new, -, -, -, -, -, c, hc, h6⟩
  · exact ⟨h1, h4, h5⟩
  · exfalso
    rcases hq c hc ([] ++ new) with h | h <;> rcases h6 with ⟨h6, -⟩ | ⟨e, h6, -⟩ <;> rw [h] at h6 <;> cases h6

/-- Without callbacks: five evaluations by `base_minimize` and five rounds of `run` on the optimizer it builds.
Meets the hypotheses of `C96_minimize_is_run`. -/
example :
    let m : MinArgs ℚ Nat := { toyMin .none with x0 := .none, nCalls := 5 }
    let out := baseMinimize ratArith okWorld toyShared countingObjective m 0
    m.x0 = .none ∧ (0 : ℤ) < 2 ∧ (2 : ℤ) ≤ m.nCalls ∧ (checkCallback m.callback).toOption.map List.length = some 0 ∧
    ∃ sh' s, construct ratArith okWorld toyShared { m.opt with nInitialPoints := 2, nRandomStarts := none } 0 =
        (sh', .ok s) ∧
      evalsOf out.trace = (Opt.run ratArith okWorld sh'.dims (fun d _ => .ok (.num (.fin (d.length + 1)))) 5 s).1.map
        Val.seq ∧
      (evalsOf out.trace).length = 5 ∧
      (out.result.toOption.bind fun r => r.map fun r => r.funcVals) = some [.fin 1, .fin 2, .fin 3, .fin 4, .fin 5] := by
  refine ⟨rfl, by norm_num, by decide, rfl, _, _, rfl, ?_⟩
  decide +kernel

/-- With a starting point and a callback that stops at its second invocation, after one round of `run`.
Meets the hypotheses of `C96_minimize_with_starts`. -/
example :
    let m := toyMin (.one stopAtTwo)
    let out := baseMinimize ratArith okWorld toyShared countingObjective m 0
    m.x0 = (Starts.points [[Val.num 3]]).toX0 ∧ (Starts.points [[Val.num (3 : ℚ)]]).Proper ∧
    Answers countingObjective [] [.seq [.num 3]] [.num (.fin 1)] ∧ (2 : ℤ) + 1 ≤ m.nCalls ∧
    evalsOf out.trace = [.seq [.num 3], .seq [.num 5]] ∧
    (∃ sh' s, construct ratArith okWorld toyShared { m.opt with nInitialPoints := 3, nRandomStarts := none } 0 =
        (sh', .ok s) ∧
      (tell ratArith okWorld sh'.dims s (.lst [.seq [.num 3]]) (.seq [.num (.fin 1)]) true).2.toOption.isSome = true ∧
      sh'.dims.length = 1) := by
  refine ⟨rfl, by simp [Starts.Proper], ⟨?_, trivial⟩, by decide, by decide +kernel, _, _, rfl, by decide +kernel,
    by decide +kernel⟩
  simp [countingObjective]

end Skopt

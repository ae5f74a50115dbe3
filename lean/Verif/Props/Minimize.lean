import Verif.Lemmas.Minimize
import Verif.Props.OptimizerInSpace

/-!
# C42–C46: the minimize functions
-/

namespace Skopt

variable {F M R G : Type} [LinearOrder F]

/-! ## Shape of a run -/

omit [LinearOrder F] in
theorem Starts.points_eq {st : Starts F} (h : st.Proper) : st.toX0.points = .ok (st.all.map Val.seq) := by
  cases st with
  | absent => rfl
  | point p =>
    obtain ⟨v, l, rfl, hv⟩ := h
    simp [Starts.toX0, X0.points, hv, Starts.all]
  | points ps =>
    cases ps with
    | nil => exact absurd rfl h
    | cons p ps => simp [Starts.toX0, X0.points, Starts.all, Val.isSeq]

omit [LinearOrder F] in
theorem prepare_ok {m : MinArgs F M} {x0 : List (Val F)} {n : ℤ} (h : m.prepare = .ok (x0, n)) :
    n = m.nRandomStarts.getD m.nInitialPoints + x0.length ∧ m.x0.points = .ok x0 ∧
      (x0 = [] → 0 < m.nRandomStarts.getD m.nInitialPoints) ∧
      m.nRandomStarts.getD m.nInitialPoints + (if m.y0.falsy then (x0.length : ℤ) else 0) ≤
        m.nCalls := by
  simp only [MinArgs.prepare, bind_eq_ok] at h
  obtain ⟨x0', h1, h2⟩ := h
  by_cases ha : m.nRandomStarts.getD m.nInitialPoints ≤ 0 ∧ x0'.isEmpty = true
  · rw [if_pos ha] at h2; cases h2
  · rw [if_neg ha] at h2
    by_cases hb : m.nCalls < m.nRandomStarts.getD m.nInitialPoints +
        (if m.y0.falsy = true then (x0'.length : ℤ) else 0)
    · rw [if_pos hb] at h2; cases h2
    · rw [if_neg hb] at h2
      simp only [Except.ok.injEq, Prod.mk.injEq] at h2
      obtain ⟨rfl, rfl⟩ := h2
      refine ⟨rfl, h1, ?_, by omega⟩
      intro hx
      subst hx
      simp at ha
      exact ha

/-- A call that returns went through all the stages. -/
theorem baseMinimize_ok {A : Arith F} {W : World F M R G} {sh : Shared F G} {func : Objective F}
    {m : MinArgs F M} {rng : R} {res : Option (Result F M)}
    (h : (baseMinimize A W sh func m rng).result = .ok res) :
    ∃ x0 cfg sh₁ s cbs,
      m.prepare = .ok (x0, m.nRandomStarts.getD m.nInitialPoints + x0.length) ∧
      mkConfig (m.optArgs (m.nRandomStarts.getD m.nInitialPoints + x0.length)) = .ok cfg ∧
      Opt.init A W sh cfg rng = (sh₁, .ok s) ∧ checkStarts sh₁.dims.length x0 = .ok () ∧
      m.callback.callables ++ (if m.verbose then [verboseCallback] else []) = cbs ∧
      ((baseMinimize A W sh func m rng).trace, (baseMinimize A W sh func m rng).result) =
        minimizeBody A W sh₁.dims func cbs m.nCalls x0 m.y0 s := by
  cases hp : m.prepare with
  | error e => simp [baseMinimize, hp] at h
  | ok q =>
    obtain ⟨x0, n⟩ := q
    obtain ⟨hn, -⟩ := prepare_ok hp
    subst hn
    cases hc : mkConfig (m.optArgs (m.nRandomStarts.getD m.nInitialPoints + x0.length)) with
    | error e => simp [baseMinimize, hp, hc] at h
    | ok cfg =>
      cases hi : (Opt.init A W sh cfg rng : Shared F G × Except PyErr (Opt F M R)) with
      | mk sh₁ so =>
      cases so with
      | error e => simp [baseMinimize, hp, hc, hi] at h
      | ok s =>
        cases hs : checkStarts sh₁.dims.length x0 with
        | error e => simp [baseMinimize, hp, hc, hi, hs] at h
        | ok _ =>
          cases hcb : checkCallback m.callback with
          | error e => simp [baseMinimize, hp, hc, hi, hs, hcb] at h
          | ok cbs =>
            have hcs : m.callback.callables = cbs := by
              unfold checkCallback at hcb
              unfold CbArg.callables
              cases hm : m.callback with
              | none => rw [hm] at hcb; simpa using hcb
              | one c => rw [hm] at hcb; simpa using hcb
              | list cs => rw [hm] at hcb; simpa using hcb
              | invalid => rw [hm] at hcb; cases hcb
            refine ⟨x0, cfg, sh₁, s, _, rfl, hc, hi, hs, rfl, ?_⟩
            simp only [baseMinimize, hp, hc, hi, hs, hcb, hcs]
            cases m.verbose <;> simp

/-- The steps of a run that returns. -/
theorem minimizeBody_ok {A : Arith F} {W : World F M R G} {dims : List (Dim F)} {func : Objective F}
    {cbs : List (Callback F M)} {nCalls : ℤ} {x0 : List (Val F)} {y0 : Y0 F} {s : Opt F M R}
    {t : List (Event F M)} {o : Option (Result F M)}
    (h : minimizeBody A W dims func cbs nCalls x0 y0 s = (t, .ok o)) :
    ∃ (first : List (List (Val F) × Result F M)) (rest : List (Point F × Result F M)),
      ((x0 = [] ∧ first = []) ∨ (x0 ≠ [] ∧ ∃ r, first = [(evaluatedFirst x0 y0, r)])) ∧
      t = traceOf cbs [] (first ++ rest.map fun st => ([Val.seq st.1], st.2)) ∧
      (∀ j, j + 1 < first.length + rest.length →
        ¬ Stops cbs (((first ++ rest.map fun st => ([Val.seq st.1], st.2)).take (j + 1)).map Prod.snd)) ∧
      o = ((first ++ rest.map fun st => ([Val.seq st.1], st.2)).getLast?.map Prod.snd) ∧
      (rest.length ≤ (nCalls - (evaluatedFirst x0 y0).length).toNat) ∧
      (rest.length = (nCalls - (evaluatedFirst x0 y0).length).toNat ∨
        (first.length + rest.length ≠ 0 ∧
          Stops cbs ((first ++ rest.map fun st => ([Val.seq st.1], st.2)).map Prod.snd))) := by
  unfold minimizeBody at h
  split at h
  · next hx =>
    rw [List.isEmpty_iff] at hx
    subst hx
    obtain ⟨steps, h1, h2, h3, h4, h5⟩ := minimizeLoop_ok h
    have he : evaluatedFirst ([] : List (Val F)) y0 = [] := by
      unfold evaluatedFirst; split <;> rfl
    refine ⟨[], steps, Or.inl ⟨rfl, rfl⟩, h1, ?_, ?_, ?_, ?_⟩
    · intro j hj
      have := h3 j (by simpa using hj)
      rw [List.nil_append, ← List.map_take, List.map_map]
      simpa [Function.comp_def] using this
    · rw [h4, List.nil_append, List.getLast?_map]
      cases steps.getLast? <;> rfl
    · rw [he]; simpa using h2
    · rw [he]
      rcases h5 with h5 | ⟨h5, h6⟩
      · exact Or.inl (by simpa using h5)
      · refine Or.inr ⟨by simpa using h5, ?_⟩
        rw [List.nil_append, List.map_map]
        simpa [Function.comp_def] using h6
  · next hx =>
    have hx' : x0 ≠ [] := by simpa using hx
    split at h
    · cases h
    · next t₀ ys hsv =>
      have ht₀ : t₀ = (evaluatedFirst x0 y0).map Event.eval := by
        unfold startValues at hsv
        unfold evaluatedFirst
        split at hsv
        · next hy =>
          have := (evalAll_spec (M := M) func [] x0).1 ys (by rw [hsv])
          rw [hsv] at this
          rw [hy]
          exact this.1
        · cases hsv
        · next ys' hy =>
          simp only [Prod.mk.injEq] at hsv
          rw [hy, ← hsv.1]
          rfl
      split at h
      · cases h
      · next s₂ r htell =>
        obtain ⟨c1, _, _⟩ := evalCallbacks_spec [r] r cbs 0 false
        split at h
        · cases h
        · next t' hcb =>
          rw [hcb] at c1
          obtain ⟨g1, g2, _⟩ := c1 true rfl
          simp only [Prod.mk.injEq, Except.ok.injEq] at h
          obtain ⟨rfl, rfl⟩ := h
          simp only at g1
          refine ⟨[(evaluatedFirst x0 y0, r)], [], Or.inr ⟨hx', r, rfl⟩, ?_, by simp, by simp,
            by simp, Or.inr ⟨by simp, ?_⟩⟩
          · simp [traceOf, g1, ht₀]
          · simpa [Stops] using g2
        · next t' hcb =>
          rw [hcb] at c1
          obtain ⟨g1, g2, _⟩ := c1 false rfl
          have hq : ¬ Stops cbs [r] := by
            intro hs
            exact absurd (g2.2 (Or.inr hs)) (by simp)
          simp only at g1
          generalize hl : minimizeLoop A W dims func cbs
            (nCalls - (evaluatedFirst x0 y0).length).toNat (evaluatedFirst x0 y0) [r] s₂
            (some r) = q at h
          obtain ⟨t'', o'⟩ := q
          simp only [Prod.mk.injEq] at h
          obtain ⟨rfl, rfl⟩ := h
          obtain ⟨steps, i1, i2, i3, i4, i5⟩ := minimizeLoop_ok hl
          refine ⟨[(evaluatedFirst x0 y0, r)], steps, Or.inr ⟨hx', r, rfl⟩, ?_, ?_, ?_, i2, ?_⟩
          · simp [traceOf, g1, ht₀, i1]
          · intro j hj
            cases j with
            | zero => simpa using hq
            | succ j =>
              have := i3 j (by simp at hj; omega)
              simpa [← List.map_take, Function.comp_def] using this
          · rw [i4, List.getLast?_append, List.getLast?_map]
            cases steps.getLast? <;> rfl
          · rcases i5 with i5 | ⟨_, i5⟩
            · exact Or.inl i5
            · refine Or.inr ⟨by simp, ?_⟩
              simpa [Function.comp_def] using i5

/-! ## C43 -/

/-- **C43.** A call that returns proceeds in steps.  The first step evaluates the starting points (or
none, if their values were given), every other step evaluates one point.  In each step, after the
evaluations, every callback is invoked once, in order, with the result of that step.  Only in the last
step may a callback have asked to stop, and the result of the last step is returned. -/
theorem C43_callbacks_observe_and_stop (A : Arith F) (W : World F M R G) (sh : Shared F G)
    (func : Objective F) (m : MinArgs F M) (rng : R) (res : Option (Result F M))
    (h : (baseMinimize A W sh func m rng).result = .ok res) :
    ∃ steps : List (List (Val F) × Result F M),
      let cbs := m.callback.callables ++ (if m.verbose then [verboseCallback] else [])
      (baseMinimize A W sh func m rng).trace = traceOf cbs [] steps ∧
      (∀ j, j + 1 < steps.length → ¬ Stops cbs ((steps.take (j + 1)).map Prod.snd)) ∧
      res = steps.getLast?.map Prod.snd ∧
      (∀ st ∈ steps.tail, ∃ p, st.1 = [.seq p]) := by
  obtain ⟨x0, cfg, sh₁, s, cbs, h1, h2, h3, h4, h5, h6⟩ := baseMinimize_ok h
  rw [h] at h6
  obtain ⟨first, rest, g1, g2, g3, g4, g5, g6⟩ := minimizeBody_ok h6.symm
  refine ⟨first ++ rest.map fun st => ([Val.seq st.1], st.2), ?_⟩
  simp only [h5]
  refine ⟨g2, ?_, g4, ?_⟩
  · intro j hj
    exact g3 j (by simpa using hj)
  · intro st hst
    have : ∀ st ∈ rest.map (fun st => ([Val.seq st.1], st.2)), ∃ p, st.1 = [.seq p] := by
      intro st hst
      obtain ⟨q, _, rfl⟩ := List.mem_map.1 hst
      exact ⟨q.1, rfl⟩
    rcases g1 with ⟨_, rfl⟩ | ⟨_, r, rfl⟩
    · exact this st (List.mem_of_mem_tail hst)
    · simp only [List.cons_append, List.nil_append, List.tail_cons] at hst
      exact this st hst

/-- A trace in which a request to stop is followed by no evaluation. -/
def StopsHold (t : List (Event F M)) : Prop :=
  ∀ a i r b, t = a ++ .call i r (.ok (some true)) :: b → evalsOf b = []

omit [LinearOrder F] in
theorem stopsHold_of_no_evals {t : List (Event F M)} (h : evalsOf t = []) : StopsHold t := by
  intro a i r b hb
  rw [hb, evalsOf_append, evalsOf_call_cons] at h
  exact (List.append_eq_nil_iff.1 h).2

omit [LinearOrder F] in
theorem stopsHold_append {t t' : List (Event F M)}
    (h : ∀ i r, Event.call i r (.ok (some true)) ∉ t) (h' : StopsHold t') : StopsHold (t ++ t') := by
  intro a i r b hb
  rcases List.append_eq_append_iff.1 hb with ⟨c, hc1, hc2⟩ | ⟨c, hc1, hc2⟩
  · exact h' c i r b hc2
  · cases c with
    | nil =>
      simp only [List.nil_append] at hc2
      exact h' [] i r b (by simpa using hc2.symm)
    | cons e c =>
      simp only [List.cons_append, List.cons.injEq] at hc2
      exact absurd (by rw [hc1, ← hc2.1]; simp) (h i r)

omit [LinearOrder F] in
theorem evalCallbacks_quiet {hist : List (Result F M)} {r : Result F M} {cbs : List (Callback F M)}
    {t : List (Event F M)} (h : evalCallbacks hist r cbs 0 false = (t, .ok false)) :
    ∀ i r', Event.call i r' (.ok (some true)) ∉ t := by
  intro i r' hm
  obtain ⟨c1, _, _⟩ := evalCallbacks_spec hist r cbs 0 false
  rw [h] at c1
  obtain ⟨g1, g2, _⟩ := c1 false rfl
  simp only at g1
  rw [g1] at hm
  obtain ⟨j, hj, e⟩ := List.mem_mapIdx.1 hm
  injection e with _ _ e
  have := g2.2 (Or.inr ⟨cbs[j], List.getElem_mem hj, e⟩)
  cases this

theorem minimizeLoop_stopsHold (A : Arith F) (W : World F M R G) (dims : List (Dim F))
    (func : Objective F) (cbs : List (Callback F M)) (n : Nat) (done : List (Val F))
    (hist : List (Result F M)) (s : Opt F M R) (last : Option (Result F M)) :
    StopsHold (minimizeLoop A W dims func cbs n done hist s last).1 := by
  induction n generalizing done hist s last with
  | zero => exact stopsHold_of_no_evals rfl
  | succ n ih =>
    simp only [minimizeLoop]
    have one : ∀ (x : Val F) (t : List (Event F M)), StopsHold t → StopsHold (.eval x :: t) :=
      fun x t ht => stopsHold_append (t := [.eval x]) (by simp) ht
    split
    · exact stopsHold_of_no_evals rfl
    · split
      · exact one _ _ (stopsHold_of_no_evals rfl)
      · split
        · exact one _ _ (stopsHold_of_no_evals rfl)
        · next s₂ r _ =>
          have hn := (evalCallbacks_spec (hist ++ [r]) r cbs 0 false).2.2
          split
          · next hcb => rw [hcb] at hn; exact one _ _ (stopsHold_of_no_evals hn)
          · next hcb => rw [hcb] at hn; exact one _ _ (stopsHold_of_no_evals hn)
          · next hcb => exact one _ _ (stopsHold_append (evalCallbacks_quiet hcb) (ih _ _ _ _))

/-- **C43.** However a call ends – also when something raises later – after a callback returned a true
value the objective is not evaluated again. -/
theorem C43_no_evaluation_after_stop (A : Arith F) (W : World F M R G) (sh : Shared F G)
    (func : Objective F) (m : MinArgs F M) (rng : R) (a b : List (Event F M)) (i : Nat)
    (r : Result F M)
    (h : (baseMinimize A W sh func m rng).trace = a ++ .call i r (.ok (some true)) :: b) :
    evalsOf b = [] := by
  have key : StopsHold (baseMinimize A W sh func m rng).trace := by
    unfold baseMinimize
    split
    · exact stopsHold_of_no_evals rfl
    · next x0 n _ =>
      split
      · exact stopsHold_of_no_evals rfl
      · split
        · exact stopsHold_of_no_evals rfl
        · next sh₁ s _ =>
          split
          · exact stopsHold_of_no_evals rfl
          · split
            · exact stopsHold_of_no_evals rfl
            · next cbs _ =>
              simp only
              generalize (if m.verbose then cbs ++ [verboseCallback] else cbs) = cbs'
              unfold minimizeBody
              have hsv : ∀ i r, Event.call i r (.ok (some true)) ∉
                  (startValues (M := M) func x0 m.y0).1 := by
                intro i r hm
                unfold startValues at hm
                split at hm
                · obtain ⟨x, hx⟩ := (evalAll_spec (M := M) func [] x0).2 _ hm
                  cases hx
                · cases hm
                · cases hm
              split
              · exact minimizeLoop_stopsHold _ _ _ _ _ _ _ _ _ _
              · split
                · next t e he =>
                  rw [he] at hsv
                  rw [← List.append_nil t]
                  exact stopsHold_append hsv (stopsHold_of_no_evals rfl)
                · next t ys he =>
                  rw [he] at hsv
                  split
                  · rw [← List.append_nil t]
                    exact stopsHold_append hsv (stopsHold_of_no_evals rfl)
                  · next s₂ r _ =>
                    have hn := (evalCallbacks_spec [r] r cbs' 0 false).2.2
                    split
                    · next hcb => rw [hcb] at hn; exact stopsHold_append hsv (stopsHold_of_no_evals hn)
                    · next hcb => rw [hcb] at hn; exact stopsHold_append hsv (stopsHold_of_no_evals hn)
                    · next hcb =>
                      exact stopsHold_append hsv (stopsHold_append (evalCallbacks_quiet hcb)
                        (minimizeLoop_stopsHold _ _ _ _ _ _ _ _ _ _))
  exact key a i r b h

/-! ## C42 -/

/-- The number of evaluations of a call that returns without being stopped. -/
theorem C42_number_of_evaluations (A : Arith F) (W : World F M R G) (sh : Shared F G)
    (func : Objective F) (m : MinArgs F M) (rng : R) (st : Starts F) (res : Option (Result F M))
    (hx0 : m.x0 = st.toX0) (hst : st.Proper)
    (h : (baseMinimize A W sh func m rng).result = .ok res)
    (hgo : ∀ i r, Event.call i r (.ok (some true)) ∉ (baseMinimize A W sh func m rng).trace) :
    (m.y0 = .none → ((evalsOf (baseMinimize A W sh func m rng).trace).length : ℤ) =
        max m.nCalls st.all.length ∧
      ∃ rest, evalsOf (baseMinimize A W sh func m rng).trace = st.all.map Val.seq ++ rest) ∧
    (m.y0 ≠ .none → ((evalsOf (baseMinimize A W sh func m rng).trace).length : ℤ) =
        max m.nCalls 0) := by
  obtain ⟨x0, cfg, sh₁, s, cbs, h1, h2, h3, h4, h5, h6⟩ := baseMinimize_ok h
  obtain ⟨-, hpts, hpos, hbud⟩ := prepare_ok h1
  rw [hx0, Starts.points_eq hst] at hpts
  injection hpts with hpts
  rw [h] at h6
  obtain ⟨first, rest, g1, g2, g3, g4, g5, g6⟩ := minimizeBody_ok h6.symm
  have hlen : rest.length = (m.nCalls - (evaluatedFirst x0 m.y0).length).toNat := by
    rcases g6 with g6 | ⟨hne, c, hc, hstop⟩
    · exact g6
    · exfalso
      -- the last step's invocation of `c` is in the trace
      generalize hall : first ++ rest.map (fun st => ([Val.seq st.1], st.2)) = steps at g2 hstop
      have hne' : steps ≠ [] := by
        rw [← hall]
        intro hn
        apply hne
        have := congrArg List.length hn
        simpa using this
      have key : ∀ (steps : List (List (Val F) × Result F M)) (hist : List (Result F M)),
          steps ≠ [] → c (hist ++ steps.map Prod.snd) = .ok (some true) →
          ∃ i r, Event.call i r (.ok (some true)) ∈ traceOf cbs hist steps := by
        intro steps
        induction steps with
        | nil => intro _ hn; exact absurd rfl hn
        | cons q steps ih =>
          intro hist _ hc'
          obtain ⟨vs, r⟩ := q
          cases steps with
          | nil =>
            obtain ⟨i, hi, hci⟩ := List.getElem_of_mem hc
            refine ⟨i, r, ?_⟩
            simp only [traceOf, List.append_nil, List.mem_append]
            right
            refine List.mem_mapIdx.2 ⟨i, hi, ?_⟩
            rw [hci]
            simpa using hc'
          | cons q' steps =>
            obtain ⟨i, r', hm⟩ := ih (hist ++ [r]) (by simp) (by simpa using hc')
            refine ⟨i, r', ?_⟩
            simp only [traceOf, List.mem_append]
            right; right
            simpa only [traceOf, List.mem_append] using hm
      obtain ⟨i, r, hm⟩ := key steps [] hne' (by simpa using hstop)
      rw [← g2] at hm
      exact hgo i r hm
  have hev : evalsOf (baseMinimize A W sh func m rng).trace =
      evaluatedFirst x0 m.y0 ++ rest.map fun st => Val.seq st.1 := by
    have hr : List.flatMap Prod.fst (rest.map fun st => ([Val.seq st.1], st.2)) =
        rest.map fun st => Val.seq st.1 := by
      clear * -
      induction rest with
      | nil => rfl
      | cons q qs ih => simp [ih]
    rw [g2, evalsOf_traceOf, List.flatMap_append, hr]
    congr 1
    rcases g1 with ⟨rfl, rfl⟩ | ⟨_, r, rfl⟩
    · unfold evaluatedFirst; split <;> rfl
    · simp
  constructor
  · intro hy
    have he : evaluatedFirst x0 m.y0 = x0 := by rw [hy]; rfl
    rw [he] at hev hlen
    refine ⟨?_, rest.map fun st => Val.seq st.1, by rw [hev, hpts]⟩
    rw [hev, List.length_append, List.length_map, hlen]
    have : x0.length = st.all.length := by rw [← hpts]; simp
    omega
  · intro hy
    have he : evaluatedFirst x0 m.y0 = [] := by
      unfold evaluatedFirst
      cases hy0 : m.y0 with
      | none => exact absurd hy0 hy
      | iter _ => rfl
      | num _ => rfl
      | other => rfl
    rw [he] at hev hlen
    rw [hev]
    simp only [List.nil_append, List.length_map, hlen, List.length_nil]
    omega

/-- **C42 (budget).** A call that returns without being stopped by a callback has evaluated the objective
exactly `n_calls` times, the starting points (if their values were not given) first and in order.

Missing: a negative number of initial points, which the code accepts together with enough starting points;
then the budget may be exceeded (`C42_refuted_negative_initial_points`). -/
theorem C42_exact_budget_partial (A : Arith F) (W : World F M R G) (sh : Shared F G)
    (func : Objective F) (m : MinArgs F M) (rng : R) (st : Starts F) (res : Option (Result F M))
    (hx0 : m.x0 = st.toX0) (hst : st.Proper)
    (hn : 0 ≤ m.nRandomStarts.getD m.nInitialPoints)
    (h : (baseMinimize A W sh func m rng).result = .ok res)
    (hgo : ∀ i r, Event.call i r (.ok (some true)) ∉ (baseMinimize A W sh func m rng).trace) :
    ((evalsOf (baseMinimize A W sh func m rng).trace).length : ℤ) = m.nCalls ∧
    (m.y0 = .none → ∃ rest,
      evalsOf (baseMinimize A W sh func m rng).trace = st.all.map Val.seq ++ rest) := by
  obtain ⟨g1, g2⟩ := C42_number_of_evaluations A W sh func m rng st res hx0 hst h hgo
  obtain ⟨x0, cfg, sh₁, s, cbs, h1, -⟩ := baseMinimize_ok h
  obtain ⟨-, hpts, hpos, hbud⟩ := prepare_ok h1
  rw [hx0, Starts.points_eq hst] at hpts
  injection hpts with hpts
  have hl : x0.length = st.all.length := by rw [← hpts]; simp
  by_cases hy : m.y0 = .none
  · obtain ⟨e1, e2⟩ := g1 hy
    refine ⟨?_, fun _ => e2⟩
    rw [hy] at hbud
    simp only [Y0.falsy, Y0.values, if_true] at hbud
    rw [e1]; omega
  · refine ⟨?_, fun hc => absurd hc hy⟩
    rw [g2 hy]
    split at hbud <;> omega

/-- The values given for the starting points. -/
def Y0.given : Y0 F → List (YArg F)
  | .iter ys => ys
  | .num y => [.num y]
  | _ => []

omit [LinearOrder F] in
theorem asColumns_values {yi : List (YArg F)} {c : List (Flt F) ⊕ List (Flt F × Flt F)}
    (h : asColumns yi = .ok c) :
    List.Forall₂ (fun y f => valueOf y = some f) yi (match c with
      | .inl ys => ys
      | .inr ps => ps.map Prod.fst) := by
  unfold asColumns at h
  split at h
  · simp only [bind_eq_ok, Except.ok.injEq] at h
    obtain ⟨ps, h1, rfl⟩ := h
    simp only
    rw [List.forall₂_map_right_iff]
    refine (mapE_forall₂ h1).imp ?_
    intro y p hp
    unfold YArg.toPair at hp
    split at hp
    · next a b =>
      simp only [bind_eq_ok, Except.ok.injEq] at hp
      obtain ⟨x, hx, y', _, rfl⟩ := hp
      cases a with
      | num f => simp only [YArg.toFlt, Except.ok.injEq] at hx; rw [← hx]; rfl
      | seq _ => cases hx
      | other => cases hx
    · cases hp
  · simp only [bind_eq_ok, Except.ok.injEq] at h
    obtain ⟨ys, h1, rfl⟩ := h
    simp only
    refine (mapE_forall₂ h1).imp ?_
    intro a f hf
    cases a with
    | num f => simp only [YArg.toFlt, Except.ok.injEq] at hf; rw [← hf]; rfl
    | seq _ => cases hf
    | other => cases hf

theorem createResult_parts {Xi : List (Val F)} {yi : List (YArg F)} {ms : List M} {r : Result F M}
    (h : createResult Xi yi ms = .ok r) :
    r.xIters = Xi ∧ List.Forall₂ (fun y f => valueOf y = some f) yi r.funcVals ∧ Xi ≠ [] := by
  simp only [createResult, bind_eq_ok, Except.ok.injEq] at h
  obtain ⟨c, hc, b, hb, x, hx, f, hf, rfl⟩ := h
  refine ⟨rfl, ?_, ?_⟩
  · have := asColumns_values hc
    cases c <;> exact this
  · rintro rfl
    simp [pyGet] at hx

omit [LinearOrder F] in
theorem onRecord_value {W : World F M R G} {acq : AcqFunc} {y y' : YArg F} (h : OnRecord W acq y y') :
    valueOf y = valueOf y' := by
  unfold OnRecord at h
  split at h
  · obtain ⟨v, t, l, rfl, _, rfl⟩ := h
    cases v <;> rfl
  · rw [h]

/-- **C42 (record).** The result of a call that returns contains exactly the given and the evaluated
observations, in order: its points are the starting points whose values were given followed by all
evaluated points, its values are the given values followed by what the objective returned.  (Values
given without starting points are ignored.)

Missing: evaluated points all of whose entries are lists or tuples, which `tell` takes for a batch of
points. -/
theorem C42_result_records_partial (A : Arith F) (W : World F M R G) (sh : Shared F G)
    (func : Objective F) (m : MinArgs F M) (rng : R) (st : Starts F) (r : Result F M)
    (hx0 : m.x0 = st.toX0) (hst : st.Proper)
    (h : (baseMinimize A W sh func m rng).result = .ok (some r))
    (hflat : ∀ p, Val.seq p ∈ evalsOf (baseMinimize A W sh func m rng).trace → Flat p) :
    ∃ ys, Answers func [] (evalsOf (baseMinimize A W sh func m rng).trace) ys ∧
      (m.y0 = .none → r.xIters = evalsOf (baseMinimize A W sh func m rng).trace ∧
        List.Forall₂ (fun y f => valueOf y = some f) ys r.funcVals) ∧
      (m.y0 ≠ .none → r.xIters = st.all.map Val.seq ++
          evalsOf (baseMinimize A W sh func m rng).trace ∧
        (st.all ≠ [] → List.Forall₂ (fun y f => valueOf y = some f) (m.y0.given ++ ys) r.funcVals) ∧
        (st.all = [] → List.Forall₂ (fun y f => valueOf y = some f) ys r.funcVals)) := by
  obtain ⟨x0, cfg, sh₁, s, cbs, h1, h2, h3, h4, h5, h6⟩ := baseMinimize_ok h
  obtain ⟨-, hpts, hpos, hbud⟩ := prepare_ok h1
  rw [hx0, Starts.points_eq hst] at hpts
  injection hpts with hpts
  rw [h] at h6
  generalize (baseMinimize A W sh func m rng).trace = t at h6 hflat ⊢
  obtain ⟨rg, pts, rfl, -⟩ := init_ok h3
  have hvals : ∀ {ys ys' : List (YArg F)} {acq : AcqFunc} {fs : List (Flt F)},
      List.Forall₂ (OnRecord W acq) ys ys' →
      List.Forall₂ (fun y f => valueOf y = some f) ys' fs →
      List.Forall₂ (fun y f => valueOf y = some f) ys fs := by
    intro ys ys' acq fs ha hb
    induction ha generalizing fs with
    | nil => exact hb
    | cons h _ ih =>
      cases hb with
      | cons hb1 hb2 => exact .cons (by rw [onRecord_value h]; exact hb1) (ih hb2)
  unfold minimizeBody at h6
  by_cases hx : x0.isEmpty = true
  · rw [if_pos hx] at h6
    rw [List.isEmpty_iff] at hx
    subst hx
    have hall : st.all = [] := by simpa using hpts
    obtain ⟨ys, ys', ms, i1, i2, i3⟩ := minimizeLoop_record h6.symm (by simp) hflat
    obtain ⟨j1, j2, -⟩ := createResult_parts i3
    simp only [Opt.fresh, List.nil_append] at j1 j2
    refine ⟨ys, i1, fun _ => ⟨j1, hvals i2 j2⟩, fun _ => ⟨?_, fun hn => absurd hall hn,
      fun _ => hvals i2 j2⟩⟩
    rw [hall]; simpa using j1
  · rw [if_neg hx] at h6
    have hxe : x0 ≠ [] := by simpa using hx
    have hall : st.all ≠ [] := by
      intro hn; rw [hn] at hpts; exact hxe hpts.symm
    split at h6
    · cases h6
    · next t₀ ys₀ hsv =>
      have hsv' : evalsOf t₀ = evaluatedFirst x0 m.y0 ∧
          ys₀.length = x0.length ∧
          (m.y0 = .none → Answers func [] x0 ys₀) ∧ (m.y0 ≠ .none → ys₀ = m.y0.given) := by
        unfold startValues at hsv
        unfold evaluatedFirst
        split at hsv
        · next hy =>
          have := (evalAll_spec (M := M) func [] x0).1 ys₀ (by rw [hsv])
          rw [hsv] at this
          have hn : m.y0 = .none := by cases hm : m.y0 <;> rw [hm] at hy <;> simp [Y0.values] at hy ⊢
          rw [hy]
          refine ⟨?_, answers_length this.2, fun _ => this.2,
            fun hc => absurd hn hc⟩
          have e := this.1
          simp only at e
          rw [e, evalsOf_evals]
        · cases hsv
        · next ys' hy =>
          simp only [Prod.mk.injEq] at hsv
          rw [hy, ← hsv.1]
          obtain ⟨_, hsv⟩ := hsv
          split at hsv
          · cases hsv
          · next hl =>
            injection hsv with hsv
            subst hsv
            refine ⟨rfl, by omega, ?_, ?_⟩
            · intro hn; rw [hn] at hy; simp [Y0.values] at hy
            · intro _
              cases hm : m.y0 <;> rw [hm] at hy <;> simp_all [Y0.values, Y0.given]
      obtain ⟨k1, k2, k3, k4⟩ := hsv'
      split at h6
      · cases h6
      · next s₂ r₁ htell =>
        -- what the first tell records
        have hobs : ∃ obs : List (Point F × YArg F), x0 = obs.map (fun o => Val.seq o.1) ∧
            ys₀ = obs.map Prod.snd := by
          refine ⟨st.all.zip ys₀, ?_, ?_⟩
          · rw [← hpts]
            have := List.map_fst_zip (l₁ := st.all) (l₂ := ys₀) (by rw [k2, ← hpts]; simp)
            conv_lhs => rw [← this]
            rw [List.map_map]; rfl
          · rw [List.map_snd_zip]
            rw [k2, ← hpts]; simp
        obtain ⟨obs, ho1, ho2⟩ := hobs
        have hrec : ∃ ys', List.Forall₂ (OnRecord W cfg.acq) ys₀ ys' ∧ s₂.Xi = x0 ∧ s₂.yi = ys' ∧
            s₂.cfg = cfg ∧ createResult s₂.Xi s₂.yi s₂.models = .ok r₁ := by
          have hb := tell_batch A W sh₁.dims (Opt.fresh A cfg rg pts : Opt F M R) obs true
          rw [← ho1, ← ho2] at hb
          rcases hb with ⟨e, he⟩ | ⟨ys', b1, _, b3, b4⟩
          · rw [he] at htell; cases htell
          · rw [b3] at htell
            have hf := tellCore_frame A W sh₁.dims (Opt.fresh A cfg rg pts : Opt F M R) (.lst x0)
              (.seq ys') true b4
            have hg := (tellCore_ok (congrArg Prod.snd htell)).1
            rw [htell] at hf hg
            exact ⟨ys', b1, by rw [hf.4]; rfl, by rw [hf.5]; rfl, hf.1, hg⟩
        obtain ⟨ys', q1, q2, q3, q4, q5⟩ := hrec
        have hn := (evalCallbacks_spec [r₁] r₁ cbs 0 false).2.2
        -- it remains to split on the callbacks
        have fin : ∀ (more : List (Val F)) (zs zs' : List (YArg F)) (ms : List M),
            evalsOf t = evaluatedFirst x0 m.y0 ++ more →
            Answers func (evaluatedFirst x0 m.y0) more zs → List.Forall₂ (OnRecord W cfg.acq) zs zs' →
            createResult (x0 ++ more) (ys' ++ zs') ms = .ok r →
            ∃ ys, Answers func [] (evalsOf t) ys ∧
              (m.y0 = .none → r.xIters = evalsOf t ∧
                List.Forall₂ (fun y f => valueOf y = some f) ys r.funcVals) ∧
              (m.y0 ≠ .none → r.xIters = st.all.map Val.seq ++ evalsOf t ∧
                (st.all ≠ [] →
                  List.Forall₂ (fun y f => valueOf y = some f) (m.y0.given ++ ys) r.funcVals) ∧
                (st.all = [] → List.Forall₂ (fun y f => valueOf y = some f) ys r.funcVals)) := by
          intro more zs zs' ms f1 f2 f3 f4
          obtain ⟨j1, j2, -⟩ := createResult_parts f4
          have j3 := hvals (List.rel_append q1 f3) j2
          by_cases hy : m.y0 = .none
          · have he : evaluatedFirst x0 m.y0 = x0 := by rw [hy]; rfl
            rw [he] at f1 f2
            refine ⟨ys₀ ++ zs, ?_, fun _ => ⟨by rw [j1, f1], j3⟩, fun hc => absurd hy hc⟩
            rw [f1]
            exact answers_append (k3 hy) (by simpa using f2)
          · have he : evaluatedFirst x0 m.y0 = [] := by
              unfold evaluatedFirst
              cases hy0 : m.y0 with
              | none => exact absurd hy0 hy
              | iter _ => rfl
              | num _ => rfl
              | other => rfl
            rw [he] at f1 f2
            refine ⟨zs, by rw [f1]; exact f2, fun hc => absurd hc hy, fun _ => ⟨?_, fun _ => ?_,
              fun hc => absurd hc hall⟩⟩
            · rw [j1, f1, hpts]; simp
            · rw [← k4 hy]; exact j3
        split at h6
        · cases h6
        · next t' hcb =>
          rw [hcb] at hn
          simp only [Prod.mk.injEq, Except.ok.injEq, Option.some.injEq] at h6
          obtain ⟨rfl, rfl⟩ := h6
          refine fin [] [] [] s₂.models ?_ trivial .nil ?_
          · rw [evalsOf_append, k1, hn]
          · rw [List.append_nil, List.append_nil, ← q2, ← q3]; exact q5
        · next t' hcb =>
          rw [hcb] at hn
          generalize hl : minimizeLoop A W sh₁.dims func cbs
            (m.nCalls - (evaluatedFirst x0 m.y0).length).toNat (evaluatedFirst x0 m.y0) [r₁] s₂
            (some r₁) = q at h6
          obtain ⟨t'', o'⟩ := q
          simp only [Prod.mk.injEq] at h6
          obtain ⟨rfl, rfl⟩ := h6
          simp only at hn
          have hte : evalsOf (t₀ ++ (t' ++ t'')) = evaluatedFirst x0 m.y0 ++ evalsOf t'' := by
            rw [evalsOf_append, evalsOf_append, k1, hn, List.nil_append]
          obtain ⟨zs, zs', ms, i1, i2, i3⟩ := minimizeLoop_record hl
            (by intro r' hr'; injection hr' with hr'; exact ⟨s₂.models, by rw [← hr']; exact q5⟩)
            (fun p hp => hflat p (by rw [hte]; simp [hp]))
          rw [q4] at i2
          rw [q2, q3] at i3
          exact fin (evalsOf t'') zs zs' ms hte i1 i2 i3

/-! ## Examples -/

/-- An objective that counts its evaluations. -/
def countingObjective : Objective ℚ := fun done _ => .ok (.num (.fin (done.length + 1)))

/-- A callback that says nothing. -/
def silent : Callback ℚ Nat := fun _ => .ok none

/-- A callback that asks to stop at its second invocation. -/
def stopAtTwo : Callback ℚ Nat := fun hist => .ok (some (decide (2 ≤ hist.length)))

/-- Four evaluations, one starting point, two initial points. -/
def toyMin (cb : CbArg ℚ Nat) : MinArgs ℚ Nat :=
  { opt := { est := { isGP := true, hasGradients := true }, acq := some .EI, acqOptimizer := .sampling
             nPoints := 3 }
    nCalls := 4, nInitialPoints := 2, x0 := .list [.seq [.num 3]], callback := cb }

/-- Runs without and with early stop: the evaluated points and how many times a callback was called.
Meets the hypotheses of `C43_callbacks_observe_and_stop`, `C43_no_evaluation_after_stop`,
`C42_number_of_evaluations`. -/
example :
    let out := baseMinimize ratArith okWorld toyShared countingObjective (toyMin (.one silent)) 0
    let out' := baseMinimize ratArith okWorld toyShared countingObjective
      (toyMin (.list [silent, stopAtTwo])) 0
    (toyMin (.one silent)).x0 = (Starts.points [[Val.num 3]]).toX0 ∧
    evalsOf out.trace = [.seq [.num 3], .seq [.num 5], .seq [.num 5], .seq [.num 5]] ∧
    (out.result.toOption.bind fun r => r.map fun r => r.funcVals) =
      some [.fin 1, .fin 2, .fin 3, .fin 4] ∧
    evalsOf out'.trace = [.seq [.num 3], .seq [.num 5]] ∧ out'.trace.length = 6 := by
  refine ⟨rfl, ?_, ?_, ?_, ?_⟩ <;> decide +kernel

/-- The hypotheses of the C42 theorems are satisfied by that run.
Meets the hypotheses of `C42_exact_budget_partial`, `C42_result_records_partial`. -/
example :
    let out := baseMinimize ratArith okWorld toyShared countingObjective (toyMin (.one silent)) 0
    (∀ i r, Event.call i r (.ok (some true)) ∉ out.trace) ∧
    (∀ p, Val.seq p ∈ evalsOf out.trace → Flat p) := by
  constructor
  · intro i r hm
    have : ∀ e ∈ (baseMinimize ratArith okWorld toyShared countingObjective
        (toyMin (.one silent)) 0).trace, (match e with
          | .call _ _ (.ok (some true)) => true
          | _ => false) = false := by decide +kernel
    have := this _ hm
    simp at this
  · intro p hp
    have : ∀ e ∈ evalsOf (baseMinimize ratArith okWorld toyShared countingObjective
        (toyMin (.one silent)) 0).trace, e.items.any (fun v => !v.isSeq) = true := by decide +kernel
    have := this _ hp
    simp only [Val.items, List.any_eq_true] at this
    obtain ⟨v, h1, h2⟩ := this
    exact ⟨v, h1, by simpa using h2⟩

/-- **C42 is false for a negative number of initial points**: `n_calls = 0` with two starting points and
`n_initial_points = -2` is accepted, and the objective is evaluated twice. -/
theorem C42_refuted_negative_initial_points :
    let m : MinArgs ℚ Nat := { toyMin .none with
      nCalls := 0, nInitialPoints := -2, x0 := .list [.seq [.num 3], .seq [.num 4]] }
    let out := baseMinimize ratArith okWorld toyShared countingObjective m 0
    evalsOf out.trace = [.seq [.num 3], .seq [.num 4]] ∧ out.result.toOption.isSome = true := by
  refine ⟨?_, ?_⟩ <;> decide +kernel

end Skopt

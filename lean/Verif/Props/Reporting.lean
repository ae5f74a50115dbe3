import Verif.Props.Checkpoint
import Verif.Props.Callbacks

/-!
# C82: what the reporting callbacks say about a run
-/

namespace Skopt

variable {F M R G : Type}

/-! ## Specification -/

/-- How iteration `i` is to be described when there are no starting points: the first `n` at random points. -/
def rightLabel (n : ℤ) (i : ℤ) : PointKind := if i ≤ n then .random else .search

/-- The time at which iteration number `k` (counted from 0) starts being measured. -/
def measuredFrom (t₀ : F) (clock : Nat → F × F) : Nat → F
  | 0 => t₀
  | k + 1 => (clock k).2

/-- What is printed when iteration number `k` (counted from 0) ends with the result `r`: that it ended, the time, the
value, the minimum so far, and that the next one starts. -/
def iterationLines (A : Arith F) (t₀ : F) (clock : Nat → F × F) (n nCalls : ℤ) (k : Nat) (r : Result F M) :
    List (Line F) :=
  [.progress true (k + 1) (rightLabel n (k + 1)), .took (A.sub (clock k).1 (measuredFrom t₀ clock k)),
    .value (r.funcVals.getLast?.getD .nan), .minimum r.fun_] ++
  if ((k : ℤ) + 2) ≤ nCalls then [.progress false (k + 2) (rightLabel n (k + 2))] else []

/-- The console output of a run without starting points. -/
def transcript (A : Arith F) (t₀ : F) (clock : Nat → F × F) (n nCalls : ℤ) (rs : List (Result F M)) : List (Line F) :=
  .progress false 1 (rightLabel n 1) :: (rs.mapIdx (iterationLines A t₀ clock n nCalls)).flatten

/-! ## Helpers -/

theorem shownTo_append (i : Nat) (a b : List (Event F M)) : shownTo i (a ++ b) = shownTo i a ++ shownTo i b := by
  unfold shownTo; rw [List.filterMap_append]

theorem shownTo_evals (i : Nat) (vs : List (Val F)) : shownTo (M := M) i (vs.map Event.eval) = [] := by
  induction vs with
  | nil => rfl
  | cons v vs ih => exact ih

theorem shownTo_calls (i : Nat) (cbs : List (Callback F M)) (r : Result F M) (f : Nat → Callback F M → Except PyErr (Option Bool))
    (hi : i < cbs.length) : shownTo i (cbs.mapIdx fun j c => Event.call j r (f j c)) = [r] := by
  have key : ∀ (cbs : List (Callback F M)) (k : Nat) (f : Nat → Callback F M → Except PyErr (Option Bool)),
      shownTo i (cbs.mapIdx fun j c => Event.call (k + j) r (f j c)) =
        if k ≤ i ∧ i < k + cbs.length then [r] else [] := by
    intro cbs
    induction cbs with
    | nil => intro k f; rw [if_neg (by simp)]; rfl
    | cons c cs ih =>
      intro k f
      rw [List.mapIdx_cons]
      have := ih (k + 1) (fun j c => f (j + 1) c)
      have e : (fun j (c : Callback F M) => Event.call (k + (j + 1)) r (f (j + 1) c)) =
          fun j c => Event.call (k + 1 + j) r (f (j + 1) c) := by
        funext j c
        rw [show k + (j + 1) = k + 1 + j by omega]
      rw [e]
      unfold shownTo at this ⊢
      rw [List.filterMap_cons]
      simp only [Nat.add_zero]
      rw [this]
      by_cases hk : k = i
      · rw [if_pos hk, if_neg (by omega), if_pos (by simp; omega)]
      · rw [if_neg hk]
        simp only [List.length_cons]
        split <;> split <;> first | rfl | omega
  have := key cbs 0 f
  simp only [Nat.zero_add] at this
  rw [this, if_pos ⟨Nat.zero_le _, hi⟩]

theorem shownTo_traceOf {i : Nat} {cbs : List (Callback F M)} (hi : i < cbs.length) (hist : List (Result F M))
    (steps : List (List (Val F) × Result F M)) : shownTo i (traceOf cbs hist steps) = steps.map Prod.snd := by
  induction steps generalizing hist with
  | nil => rfl
  | cons st steps ih =>
    obtain ⟨vs, r⟩ := st
    simp only [traceOf, shownTo_append, shownTo_evals, ih]
    rw [shownTo_calls i cbs r (fun _ c => c (hist ++ [r])) hi]
    rfl

/-- The result after the first steps of a trace. -/
theorem traceOf_split {i : Nat} {cbs : List (Callback F M)} (hi : i < cbs.length) (hist : List (Result F M))
    (steps : List (List (Val F) × Result F M)) (k : Nat) (st : List (Val F) × Result F M) (hk : steps[k]? = some st) :
    ∃ a b d, traceOf cbs hist steps = a ++ .call i st.2 d :: b ∧ evalsOf a = (steps.take (k + 1)).flatMap Prod.fst := by
  induction steps generalizing hist k with
  | nil => cases hk
  | cons q steps ih =>
    obtain ⟨vs, r⟩ := q
    cases k with
    | zero =>
      simp only [List.getElem?_cons_zero, Option.some.injEq] at hk
      subst hk
      have hc : cbs.mapIdx (fun j c => Event.call j r (c (hist ++ [r]))) =
          (cbs.mapIdx (fun j c => Event.call j r (c (hist ++ [r])))).take i ++
            Event.call i r (cbs[i] (hist ++ [r])) ::
              (cbs.mapIdx (fun j c => Event.call j r (c (hist ++ [r])))).drop (i + 1) := by
        conv_lhs => rw [← List.take_append_drop i (cbs.mapIdx _)]
        congr 1
        rw [List.drop_eq_getElem_cons (by simpa using hi)]
        simp
      refine ⟨vs.map Event.eval ++ (cbs.mapIdx (fun j c => Event.call j r (c (hist ++ [r])))).take i,
        (cbs.mapIdx (fun j c => Event.call j r (c (hist ++ [r])))).drop (i + 1) ++ traceOf cbs (hist ++ [r]) steps,
        cbs[i] (hist ++ [r]), ?_, ?_⟩
      · simp only [traceOf]
        conv_lhs => rw [hc]
        simp
      · rw [evalsOf_append, evalsOf_evals]
        have h0 : evalsOf (cbs.mapIdx (fun j c => Event.call j r (c (hist ++ [r])))) = [] :=
          evalsOf_calls _ _ fun i c => ⟨i, r, _, rfl⟩
        rw [hc, evalsOf_append] at h0
        rw [(List.append_eq_nil_iff.1 h0).1]
        simp
    | succ k =>
      obtain ⟨a, b, d, h1, h2⟩ := ih (hist ++ [r]) k (by simpa using hk)
      refine ⟨vs.map Event.eval ++ (cbs.mapIdx (fun j c => Event.call j r (c (hist ++ [r]))) ++ a), b, d, ?_, ?_⟩
      · simp only [traceOf, h1]
        simp
      · rw [evalsOf_append, evalsOf_append, evalsOf_evals, evalsOf_calls _ _ fun i c => ⟨i, r, _, rfl⟩, h2]
        simp

theorem verbose_calls (A : Arith F) (t₀ : F) (clock : Nat → F × F) (n nCalls : ℤ) (rs : List (Result F M)) (k : Nat)
    (hlen : ((k + rs.length : ℕ) : ℤ) ≤ nCalls) (hne : ∀ r ∈ rs, r.funcVals ≠ []) :
    Verbose.calls A clock k ⟨nCalls, 0, n, (k : ℤ) + 1, measuredFrom t₀ clock k⟩ rs =
      .ok (rs.mapIdx fun j r => iterationLines A t₀ clock n nCalls (k + j) r).flatten := by
  induction rs generalizing k with
  | nil => rfl
  | cons r rs ih =>
    have hlab : ∀ (s : F) (i : ℤ) (b : Bool), 0 < i →
        Verbose.printInfo ⟨nCalls, 0, n, i, s⟩ b = Line.progress (!b) i (rightLabel n i) := by
      intro s i b hi
      unfold Verbose.printInfo rightLabel
      simp only [add_zero]
      rw [if_neg (by omega)]
      by_cases h : i ≤ n
      · rw [if_pos ⟨hi, h⟩, if_pos h]
      · rw [if_neg (fun hh => h hh.2), if_neg h]
    have hy : pyGetI r.funcVals (-1) = .ok (r.funcVals.getLast?.getD .nan) := by
      rw [pyGetI_last]
      cases hl : r.funcVals.getLast? with
      | none => exact absurd (List.getLast?_eq_none_iff.1 hl) (hne r List.mem_cons_self)
      | some y => rfl
    rw [List.mapIdx_cons, List.flatten_cons]
    simp only [Verbose.calls, Verbose.call, hy, ok_bind]
    rw [hlab _ _ _ (by omega)]
    by_cases h2 : ((k : ℤ) + 1) + 1 ≤ nCalls
    · rw [if_pos h2]
      simp only [ok_bind]
      have := ih (k + 1) (by simp only [List.length_cons] at hlen; push_cast at hlen ⊢; omega)
        fun r hr => hne r (List.mem_cons_of_mem _ hr)
      have hst : (⟨nCalls, 0, n, ((k : ℤ) + 1) + 1, (clock k).2⟩ : Verbose F) =
          ⟨nCalls, 0, n, ((k + 1 : ℕ) : ℤ) + 1, measuredFrom t₀ clock (k + 1)⟩ := by
        push_cast; rfl
      rw [hst, this]
      simp only [ok_bind]
      rw [hlab _ _ _ (by omega)]
      have e : (fun j (r : Result F M) => iterationLines A t₀ clock n nCalls (k + (j + 1)) r) =
          fun j r => iterationLines A t₀ clock n nCalls (k + 1 + j) r := by
        funext j r
        rw [show k + (j + 1) = k + 1 + j by omega]
      rw [e, iterationLines, if_pos (by push_cast; omega)]
      simp only [show ((k : ℤ) + 1) + 1 = (k : ℤ) + 2 by omega]
      rfl
    · have hrs : rs = [] := by
        cases rs with
        | nil => rfl
        | cons _ _ =>
          exfalso
          simp only [List.length_cons] at hlen
          push_cast at hlen
          omega
      subst hrs
      rw [if_neg h2]
      rw [iterationLines, if_neg (by push_cast; omega)]
      simp [Verbose.calls]

section
variable [LinearOrder F]

omit [LinearOrder F] in
theorem flatMap_singletons {rest : List (Point F × Result F M)} :
    List.flatMap Prod.fst (rest.map fun st => ([Val.seq st.1], st.2)) = rest.map fun st => Val.seq st.1 := by
  induction rest with
  | nil => rfl
  | cons q qs ih => simp [ih]

/-! ## C82 -/

/-- **C82 (invocations).** In a call that returns, every callback is invoked once for all starting points
together and once for every other evaluation; so it is invoked as often as the objective was evaluated, minus the
evaluated starting points, plus one if there are starting points.  The last result shown is the returned one. -/
theorem C82_invocations (A : Arith F) (W : World F M R G) (sh : Shared F G) (func : Objective F) (m : MinArgs F M)
    (rng : R) (st : Starts F) (hx0 : m.x0 = st.toX0) (hst : st.Proper) (i : Nat)
    (hi : i < m.callback.callables.length + (if m.verbose then 1 else 0)) (res : Option (Result F M))
    (h : (baseMinimize A W sh func m rng).result = .ok res) :
    let out := baseMinimize A W sh func m rng
    ((shownTo i out.trace).length : ℤ) = (evalsOf out.trace).length
      - (match m.y0 with | .none => (st.all.length : ℤ) | _ => 0) + (if st.all = [] then 0 else 1) ∧
    (shownTo i out.trace).getLast? = res := by
  intro out
  obtain ⟨x0, cfg, sh₁, s, cbs, h1, h2, h3, h4, h5, h6⟩ := baseMinimize_ok h
  obtain ⟨-, hpts, -, -⟩ := prepare_ok h1
  rw [hx0, Starts.points_eq hst] at hpts
  injection hpts with hpts
  subst hpts
  rw [h] at h6
  obtain ⟨first, rest, g1, g2, g3, g4, g5, g6⟩ := minimizeBody_ok h6.symm
  have hil : i < cbs.length := by
    rw [← h5, List.length_append]
    split at hi <;> simp_all
  have hshown : shownTo i out.trace = (first ++ rest.map fun st => ([Val.seq st.1], st.2)).map Prod.snd := by
    show shownTo i (baseMinimize A W sh func m rng).trace = _
    rw [g2, shownTo_traceOf hil]
  have hev : evalsOf out.trace = first.flatMap Prod.fst ++ rest.map fun st => Val.seq st.1 := by
    show evalsOf (baseMinimize A W sh func m rng).trace = _
    rw [g2, evalsOf_traceOf, List.flatMap_append, flatMap_singletons]
  constructor
  · rw [hshown, hev]
    have hef : ((evaluatedFirst (st.all.map (Val.seq (F := F))) m.y0).length : ℤ) =
        (match m.y0 with | .none => (st.all.length : ℤ) | _ => 0) := by
      unfold evaluatedFirst
      cases m.y0 <;> simp [Y0.values]
    rcases g1 with ⟨g0, rfl⟩ | ⟨g0, r, rfl⟩
    · have hall : st.all = [] := by simpa using g0
      rw [← hef, hall]
      unfold evaluatedFirst
      split <;> simp
    · have hall : st.all ≠ [] := by simpa using g0
      rw [← hef, if_neg hall]
      simp only [List.flatMap_cons, List.flatMap_nil, List.append_nil, List.length_append, List.length_map,
        List.length_singleton]
      push_cast
      omega
  · rw [hshown, g4, List.getLast?_map]

/-- **C82 (console).** With `verbose=True` and without starting points, the console output of a call that returns
reports every evaluation in turn: the number of the iteration, the value just obtained and the minimum so far; the
first `n_initial_points` are called random, and those are exactly the ones chosen while there was no surrogate.

Missing: starting points, with which numbers and descriptions are wrong (`C82_refuted_starting_points`,
`C82_refuted_random_label`); points made of lists only. -/
theorem C82_verbose_partial (A : Arith F) (W : World F M R G) (sh : Shared F G) (func : Objective F)
    (m : MinArgs F M) (rng : R) (hx0 : m.x0 = .none) (hv : m.verbose = true)
    (hflat : ∀ p, Val.seq p ∈ evalsOf (baseMinimize A W sh func m rng).trace → Flat p)
    (res : Option (Result F M)) (h : (baseMinimize A W sh func m rng).result = .ok res)
    (t₀ : F) (clock : Nat → F × F) :
    let out := baseMinimize A W sh func m rng
    let n := m.nRandomStarts.getD m.nInitialPoints
    ∃ rs : List (Result F M), rs.length = (evalsOf out.trace).length ∧
      console A t₀ clock m 0 out.trace = .ok (transcript A t₀ clock n m.nCalls rs) ∧
      ∀ k r, rs[k]? = some r →
        IsRecord func .none .absent ((evalsOf out.trace).take (k + 1)) r ∧
        (∀ vs, r.funcVals = vs.map Flt.fin → ∃ b v, FirstLeast vs b ∧ r.xIters[b]? = some r.x ∧ vs[b]? = some v ∧
          r.fun_ = .fin v) ∧
        (m.opt.est.isNone = false → (rightLabel n (k + 2) = .random ↔ r.models = [])) := by
  intro out n
  have hst : (Starts.absent : Starts F).Proper := trivial
  have hx0' : m.x0 = (Starts.absent : Starts F).toX0 := hx0
  obtain ⟨x0, cfg, sh₁, s, cbs, h1, h2, h3, h4, h5, h6⟩ := baseMinimize_ok h
  obtain ⟨-, hpts, hpos, hbud⟩ := prepare_ok h1
  rw [hx0] at hpts
  injection hpts with hpts
  subst hpts
  rw [h] at h6
  obtain ⟨first, rest, g1, g2, g3, g4, g5, g6⟩ := minimizeBody_ok h6.symm
  have hfirst : first = [] := by
    rcases g1 with ⟨_, h⟩ | ⟨h, _⟩
    · exact h
    · exact absurd rfl h
  subst hfirst
  have hil : m.callback.callables.length < cbs.length := by
    rw [← h5, hv]; simp
  have hshown : shownTo m.callback.callables.length out.trace = rest.map Prod.snd := by
    show shownTo _ (baseMinimize A W sh func m rng).trace = _
    rw [g2, shownTo_traceOf hil, List.nil_append, List.map_map]
    rfl
  have hev : evalsOf out.trace = rest.map fun st => Val.seq st.1 := by
    show evalsOf (baseMinimize A W sh func m rng).trace = _
    rw [g2, evalsOf_traceOf, List.nil_append, flatMap_singletons]
  have hrest : ∀ k r, (rest.map Prod.snd)[k]? = some r → ∃ a b d, out.trace = a ++ .call m.callback.callables.length r d :: b ∧
      evalsOf a = (evalsOf out.trace).take (k + 1) := by
    intro k r hk
    rw [List.getElem?_map] at hk
    cases hq : rest[k]? with
    | none => rw [hq] at hk; cases hk
    | some q =>
      rw [hq] at hk
      have hk' : q.2 = r := by simpa using hk
      obtain ⟨a, b, d, e1, e2⟩ := traceOf_split hil [] (rest.map fun st => ([Val.seq st.1], st.2)) k
        ([Val.seq q.1], q.2) (by rw [List.getElem?_map, hq]; rfl)
      refine ⟨a, b, d, ?_, ?_⟩
      · show (baseMinimize A W sh func m rng).trace = _
        rw [g2, List.nil_append, e1, hk']
      · rw [e2, hev, ← List.map_take, flatMap_singletons, List.map_take]
  have hrec : ∀ k r, (rest.map Prod.snd)[k]? = some r →
        IsRecord func m.y0 .absent ((evalsOf out.trace).take (k + 1)) r ∧
        (∀ vs, r.funcVals = vs.map Flt.fin → ∃ b v, FirstLeast vs b ∧ r.xIters[b]? = some r.x ∧ vs[b]? = some v ∧
          r.fun_ = .fin v) ∧
        (m.opt.est.isNone = false → (rightLabel n (k + 2) = .random ↔ r.models = [])) := by
    intro k r hk
    obtain ⟨a, b, d, e1, e2⟩ := hrest k r hk
    obtain ⟨r1, r2, -, r4, -⟩ := shown_results A W sh func m rng .absent hx0' hst hflat e1
    rw [e2] at r1 r2
    refine ⟨r1, r4, fun he => ?_⟩
    have hk' : k < rest.length := by
      have := (List.getElem?_eq_some_iff.1 hk).1
      simpa using this
    have hlen : ((evalsOf out.trace).take (k + 1)).length = k + 1 := by
      rw [List.length_take, hev, List.length_map]
      omega
    have r2' : r.models = [] ↔ ((k + 1 : ℕ) : ℤ) < m.nRandomStarts.getD m.nInitialPoints := by
      have := r2 he
      rw [hlen] at this
      revert this
      cases m.y0 <;> intro this <;> simpa only [Starts.all, List.length_nil, Nat.cast_zero, add_zero] using this
    rw [r2']
    unfold rightLabel
    have hn : m.nRandomStarts.getD m.nInitialPoints = n := rfl
    rw [hn]
    constructor
    · intro hl
      split at hl
      · push_cast; omega
      · cases hl
    · intro hl
      rw [if_pos (by push_cast at hl; omega)]
  refine ⟨rest.map Prod.snd, by rw [hev]; simp, ?_, ?_⟩
  · have hcs : checkCallback m.callback = .ok m.callback.callables := by
      cases hc : m.callback with
      | none => rfl
      | one c => rfl
      | list cs => rfl
      | invalid =>
        exfalso
        simp only [baseMinimize, h1, h2, h3, h4, hc, checkCallback] at h
        cases h
    have hva : m.verboseArgs 0 = (m.nCalls, 0, n) := by
      unfold MinArgs.verboseArgs
      simp [n]
    unfold console
    rw [hva, hcs]
    simp only [ok_bind, hshown, Verbose.init]
    have hp := hpos rfl
    have hnn : n ≤ m.nCalls := by
      have := hbud
      simp only [List.length_nil, Nat.cast_zero, ite_self, add_zero] at this
      exact this
    have hef : evaluatedFirst ([] : List (Val F)) m.y0 = [] := by
      unfold evaluatedFirst; split <;> rfl
    have key := verbose_calls A t₀ clock n m.nCalls (rest.map Prod.snd) 0
      (by
        rw [hef] at g5
        simp only [List.length_nil, Nat.cast_zero, sub_zero] at g5
        rw [List.length_map, Nat.zero_add]
        have : 0 < n := hp
        omega)
      (by
        intro r hr
        obtain ⟨k, hk, hkr⟩ := List.getElem_of_mem hr
        obtain ⟨⟨ys, q1, q2, q3⟩, -⟩ := hrec k r (by rw [List.getElem?_eq_getElem hk, hkr])
        intro hnil
        rw [hnil] at q3
        have hl := List.Forall₂.length_eq q3
        have hl2 := answers_length q1
        rw [List.length_take, hev, List.length_map] at hl2
        rw [List.length_append, List.length_nil] at hl
        rw [List.length_map] at hk
        omega)
    simp only [Nat.cast_zero, zero_add] at key
    have hm : measuredFrom t₀ clock 0 = t₀ := rfl
    rw [hm] at key
    rw [key]
    simp only [ok_bind, transcript]
    have hp1 : Verbose.printInfo (⟨m.nCalls, 0, n, 1, t₀⟩ : Verbose F) true = .progress false 1 (rightLabel n 1) := by
      unfold Verbose.printInfo rightLabel
      have : (1 : ℤ) ≤ n := by have : 0 < n := hp; omega
      simp [this]
    rw [hp1]
    rfl
  · intro k r hk
    obtain ⟨⟨ys, q1, q2, q3⟩, q4, q5⟩ := hrec k r hk
    refine ⟨⟨ys, q1, ?_, ?_⟩, q4, q5⟩
    · rw [q2]
      unfold givenPoints
      split <;> rfl
    · unfold givenValues at q3 ⊢
      exact q3

end

/-- **C82 (timer).** However often it was invoked, `iter_time` has one entry per invocation, the time from the end of
the previous invocation (at first: from the construction) to this one.  If the clock never goes back the entries are
not negative, and they add up to no more than the time passed since the construction. -/
theorem C82_timer (t₀ : ℝ) (ts : List (ℝ × ℝ)) (hmono : (t₀ :: ts.flatMap fun t => [t.1, t.2]).Pairwise (· ≤ ·)) :
    let times := ((Timer.init t₀).calls exact ts).iterTime
    times.length = ts.length ∧
    (∀ (k : Nat) (t : ℝ × ℝ), ts[k]? = some t → ∃ from_ : ℝ, (t₀ :: ts.map Prod.snd)[k]? = some from_ ∧ times[k]? = some (t.1 - from_) ∧
      0 ≤ t.1 - from_) ∧
    times.sum ≤ (ts.map Prod.snd).getLastD t₀ - t₀ := by
  have key : ∀ (ts : List (ℝ × ℝ)) (c : Timer ℝ),
      (c.calls exact ts).iterTime =
        c.iterTime ++ List.zipWith (fun (t : ℝ × ℝ) s => t.1 - s) ts (c.time :: ts.map Prod.snd) := by
    intro ts
    induction ts with
    | nil => intro c; simp [Timer.calls]
    | cons t ts ih =>
      intro c
      obtain ⟨now, later⟩ := t
      simp only [Timer.calls]
      rw [ih]
      simp [Timer.call, exact]
  intro times
  have ht : times = List.zipWith (fun (t : ℝ × ℝ) s => t.1 - s) ts (t₀ :: ts.map Prod.snd) := by
    show ((Timer.init t₀).calls exact ts).iterTime = _
    rw [key]; rfl
  refine ⟨by rw [ht]; simp, ?_, ?_⟩
  · intro k t hk
    have hkl := (List.getElem?_eq_some_iff.1 hk).1
    have hk2 : k < (t₀ :: ts.map Prod.snd).length := by simp; omega
    refine ⟨_, List.getElem?_eq_getElem hk2, ?_, ?_⟩
    · rw [ht, List.getElem?_zipWith, hk, List.getElem?_eq_getElem hk2]
    · have aux : ∀ (ts : List (ℝ × ℝ)) (t₀ : ℝ) (k : Nat) (t : ℝ × ℝ) (s : ℝ),
          (t₀ :: ts.flatMap fun t => [t.1, t.2]).Pairwise (· ≤ ·) → ts[k]? = some t →
          (t₀ :: ts.map Prod.snd)[k]? = some s → 0 ≤ t.1 - s := by
        intro ts
        induction ts with
        | nil => intro t₀ k t s _ h; cases h
        | cons u ts ih =>
          intro t₀ k t s hp h1 h2
          simp only [List.flatMap_cons, List.cons_append, List.nil_append, List.pairwise_cons] at hp
          obtain ⟨p1, p2, p3, p4⟩ := hp
          cases k with
          | zero =>
            simp only [List.getElem?_cons_zero, Option.some.injEq] at h1 h2
            subst h1 h2
            have := p1 u.1 (by simp)
            linarith
          | succ k =>
            exact ih u.2 k t s (List.pairwise_cons.2 ⟨p3, p4⟩) (by simpa using h1) (by simpa using h2)
      exact aux ts t₀ k t _ hmono hk (List.getElem?_eq_getElem hk2)
  · rw [ht]
    clear ht times key
    have aux : ∀ (ts : List (ℝ × ℝ)) (t₀ : ℝ), (t₀ :: ts.flatMap fun t => [t.1, t.2]).Pairwise (· ≤ ·) →
        (List.zipWith (fun (t : ℝ × ℝ) s => t.1 - s) ts (t₀ :: ts.map Prod.snd)).sum ≤
          (ts.map Prod.snd).getLastD t₀ - t₀ := by
      intro ts
      induction ts with
      | nil => intro t₀ _; simp
      | cons u ts ih =>
        intro t₀ hp
        simp only [List.flatMap_cons, List.cons_append, List.nil_append, List.pairwise_cons] at hp
        obtain ⟨p1, p2, p3, p4⟩ := hp
        have := ih u.2 (List.pairwise_cons.2 ⟨p3, p4⟩)
        have h1 := p2 u.2 (by simp)
        have e : (List.map Prod.snd (u :: ts)).getLastD t₀ = (ts.map Prod.snd).getLastD u.2 := by
          rw [List.map_cons, List.getLastD_cons]
        rw [e, List.map_cons, List.zipWith_cons_cons, List.sum_cons]
        linarith
    exact aux ts t₀ hmono

/-! ## Examples and negations -/

/-- A verbose call without starting points: four evaluations, the first two of them random. -/
def verboseMin : MinArgs ℚ Nat := { toyMin .none with x0 := .none, verbose := true }

/-- The clock of the examples. -/
def ticks (k : Nat) : ℚ × ℚ := (2 * k + 1, 2 * k + 2)

/-- The hypotheses of `C82_invocations` and `C82_verbose_partial` are met by a call that returns. -/
example :
    let out := baseMinimize ratArith okWorld toyShared countingObjective verboseMin 0
    verboseMin.x0 = (Starts.absent : Starts ℚ).toX0 ∧ verboseMin.verbose = true ∧
    (∀ p, Val.seq p ∈ evalsOf out.trace → Flat p) ∧ (out.result.toOption.bind id).isSome = true ∧
    (evalsOf out.trace).length = 4 ∧
    (console ratArith 0 ticks verboseMin 0 out.trace).toOption.map (fun t => t.take 8) = some [
      .progress false 1 .random, .progress true 1 .random, .took 1, .value (.fin 1), .minimum (.fin 1),
      .progress false 2 .random, .progress true 2 .random, .took 1] := by
  refine ⟨rfl, rfl, ?_, ?_, ?_, ?_⟩
  · intro p hp
    have : ∀ e ∈ evalsOf (baseMinimize ratArith okWorld toyShared countingObjective verboseMin 0).trace,
        e.items.any (fun v => !v.isSeq) = true := by decide +kernel
    have := this _ hp
    simp only [Val.items, List.any_eq_true] at this
    obtain ⟨v, h1, h2⟩ := this
    exact ⟨v, h1, by simpa using h2⟩
  all_goals decide +kernel

/-- The hypothesis of `C82_timer` is met by a clock that is read four times. -/
example : ((0 : ℝ) :: ([((1 : ℝ), (2 : ℝ)), (3, 3)]).flatMap fun t => [t.1, t.2]).Pairwise (· ≤ ·) := by
  norm_num [List.pairwise_cons]

/-- **C82 is false with starting points, the descriptions**: `n_random` passed to `VerboseCallback` already includes
the starting points, which are then added again.  In a call with one starting point and two random points, iteration 4
is announced as an "Evaluating function at random point" although the result of iteration 3 lists a surrogate and the
point was chosen with it. -/
theorem C82_refuted_random_label :
    let m := { toyMin .none with verbose := true }
    let out := baseMinimize ratArith okWorld toyShared countingObjective m 0
    (shownTo 0 out.trace).map (fun r => r.models.length) = [0, 0, 1, 2] ∧
    (console ratArith 0 ticks m 1 out.trace).toOption.map
      (fun t => t.filter fun l => match l with | .progress .. => true | _ => false) = some [
      .progress false 1 .provided, .progress true 1 .provided, .progress false 2 .random, .progress true 2 .random,
      .progress false 3 .random, .progress true 3 .random, .progress false 4 .random, .progress true 4 .random] := by
  refine ⟨?_, ?_⟩ <;> decide +kernel

/-- **C82 is false with several starting points, the numbers**: they are evaluated before the callbacks run for the
first time.  In a call with two starting points and four evaluations only three iterations are reported, the value of
the first evaluation is never shown, the first value shown is that of the second evaluation as "Iteration No: 1", the
third evaluation is reported as iteration 2 "at provided point", and at the end a fourth iteration is announced that
never takes place.  Likewise `iter_time` of a `TimerCallback` has three entries instead of four. -/
theorem C82_refuted_starting_points :
    let m := { toyMin .none with verbose := true, nInitialPoints := 1, x0 := .list [.seq [.num 3], .seq [.num 4]] }
    let out := baseMinimize ratArith okWorld toyShared countingObjective m 0
    (out.result.toOption.bind id).isSome = true ∧ (evalsOf out.trace).length = 4 ∧
    (console ratArith 0 ticks m 2 out.trace).toOption = some [
      .progress false 1 .provided,
      .progress true 1 .provided, .took 1, .value (.fin 2), .minimum (.fin 1), .progress false 2 .provided,
      .progress true 2 .provided, .took 1, .value (.fin 3), .minimum (.fin 1), .progress false 3 .random,
      .progress true 3 .random, .took 1, .value (.fin 4), .minimum (.fin 1), .progress false 4 .random] ∧
    (((Timer.init 0).calls ratArith ((shownTo 0 out.trace).mapIdx fun k _ => ticks k)).iterTime).length = 3 := by
  refine ⟨?_, ?_, ?_, ?_⟩ <;> decide +kernel

/-- **C82 is false when values are given**: with `x0` and `y0` the callbacks run once before the first evaluation, and
that is reported as iteration 1 at a random point.  The four evaluations of the call are reported as iterations 2 to 5
– of `n_calls = 4`. -/
theorem C82_refuted_given_values :
    let m := { toyMin .none with verbose := true, y0 := .num (.fin 7) }
    let out := baseMinimize ratArith okWorld toyShared countingObjective m 0
    (out.result.toOption.bind id).isSome = true ∧ (evalsOf out.trace).length = 4 ∧
    (console ratArith 0 ticks m 1 out.trace).toOption.map
      (fun t => t.filter fun l => match l with | .progress e _ _ => e | .value _ => true | _ => false) = some [
      .progress true 1 .random, .value (.fin 7), .progress true 2 .random, .value (.fin 1),
      .progress true 3 .random, .value (.fin 2), .progress true 4 .search, .value (.fin 3),
      .progress true 5 .search, .value (.fin 4)] := by
  refine ⟨?_, ?_, ?_⟩ <;> decide +kernel

end Skopt

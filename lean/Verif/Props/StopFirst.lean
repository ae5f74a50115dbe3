import Verif.Props.Callbacks
import Verif.Props.MinimizeRuns
import Verif.Props.Reporting
import Verif.Props.EvaluatedInSpace

/-!
# C132: a minimisation with stoppers ends with the first step that meets a criterion, or uses its whole budget
-/

namespace Skopt

variable {F M R G : Type}

/-! ## Statement -/

/-- A criterion on the recorded points and values, as an `EarlyStopper`.  (callbacks.py:144-156) -/
def recordStopper (c : List (Val F) → List (Flt F) → Except PyErr (Option Bool)) : Callback F M :=
  stopperCallback fun r => c r.xIters r.funcVals

/-- The stoppers whose decision depends on the result only. -/
inductive Stopper where
  /-- `ThresholdStopper(thr)` -/
  | threshold (thr : ℝ)
  /-- `DeltaYStopper(delta, n_best)` -/
  | deltaY (delta : ℝ) (n : Nat)
  /-- `HollowIterationsStopper(n, thr)` -/
  | hollow (n : Nat) (thr : ℝ)
  /-- `DeltaXStopper(delta)` -/
  | deltaX (delta : ℝ)

/-- Its criterion, as in the code; `dims` is the space of the result. -/
noncomputable def Stopper.criterion (dims : List (Dim ℝ)) :
    Stopper → List (Val ℝ) → List (Flt ℝ) → Except PyErr (Option Bool)
  | .threshold thr, _, ys => Skopt.threshold thr ys
  | .deltaY delta n, _, ys => Skopt.deltaY exact delta n ys
  | .hollow n thr, _, ys => Skopt.hollow exact n thr ys
  | .deltaX delta, xs, _ => Skopt.deltaX exact dims delta xs

/-- The documented meaning: a value has reached the threshold; the `n_best` smallest values are within `delta` of each
other; the best value improved by at most `thr` during the last `n` evaluations; the last two points are closer than
`delta`. -/
def Stopper.Met (dims : List (Dim ℝ)) : Stopper → List (Point ℝ) → List ℝ → Prop
  | .threshold thr, _, ys => ∃ y ∈ ys, y ≤ thr
  | .deltaY delta n, _, ys => SmallestWithin exact n delta ys
  | .hollow n thr, _, ys => n < ys.length ∧ ImprovedAtMost exact n |thr| ys
  | .deltaX delta, ps, _ => ∃ rest a b d, ps = rest ++ [a, b] ∧ PointDist dims a b d ∧ d < delta

/-! ## Lemmas -/

theorem numbers_fin (ys : List ℝ) : numbers (ys.map Flt.fin) = ys := by
  induction ys with
  | nil => rfl
  | cons y ys ih => exact congrArg (y :: ·) ih

theorem stopper_met {dims : List (Dim ℝ)} (s : Stopper) (hs : ∀ delta n, s = .deltaY delta n → 1 ≤ n) {ps : List (Point ℝ)}
    (hps : ∀ p ∈ ps, List.Forall₂ Within dims p) (ys : List ℝ) :
    s.criterion dims (ps.map Val.seq) (ys.map Flt.fin) = .ok (some true) ↔ s.Met dims ps ys := by
  cases s with
  | threshold thr =>
    have := (C49_threshold thr (ys.map Flt.fin) []).2.1
    rw [numbers_fin] at this
    exact this
  | deltaY delta n =>
    have := (C47_deltaY exact exact_monoSub delta n (hs _ _ rfl) (ys.map Flt.fin)).2.2
    rw [numbers_fin] at this
    exact this
  | hollow n thr =>
    have := (C48_hollow_partial exact n thr ys).2
    rw [pyAbs_exact] at this
    exact this
  | deltaX delta =>
    obtain ⟨h1, h2⟩ := C49_deltaX dims delta ps hps
    simp only [Stopper.criterion, Stopper.Met]
    constructor
    · intro h
      have hlen : 2 ≤ ps.length := by
        by_contra hc
        rw [h1 (by omega)] at h
        cases h
      obtain ⟨rest, a, b, rfl⟩ : ∃ rest a b, ps = rest ++ [a, b] := by
        refine ⟨ps.take (ps.length - 2), ps[ps.length - 2], ps[ps.length - 1], ?_⟩
        conv_lhs => rw [← List.take_append_drop (ps.length - 2) ps]
        congr 1
        rw [List.drop_eq_getElem_cons (by omega), List.drop_eq_getElem_cons (by omega), List.drop_of_length_le (by omega)]
        simp only [List.cons.injEq, and_true, true_and]
        congr 1
        omega
      obtain ⟨d, k1, k2⟩ := h2 rest a b rfl
      rw [k2] at h
      exact ⟨rest, a, b, d, rfl, k1, by simpa using h⟩
    · rintro ⟨rest, a, b, d, e, k1, k2⟩
      obtain ⟨d', k3, k4⟩ := h2 rest a b e
      rw [k4, k3.unique k1]
      simpa using k2

theorem answers_prefix (func : Objective F) (done u v : List (Val F)) (ys zs : List (YArg F))
    (h : Answers func done (u ++ v) ys) (h' : Answers func done u zs) : zs = ys.take u.length := by
  induction u generalizing done ys zs with
  | nil =>
    cases zs with
    | nil => rfl
    | cons z zs => exact h'.elim
  | cons x u ih =>
    cases ys with
    | nil => exact h.elim
    | cons y ys =>
      cases zs with
      | nil => exact h'.elim
      | cons z zs =>
        have e := h.1.symm.trans h'.1
        injection e with e
        rw [e, List.length_cons, List.take_succ_cons, ← ih _ _ _ h.2 h'.2]

theorem values_unique {ys : List (YArg F)} {a b : List (Flt F)}
    (h : List.Forall₂ (fun y f => valueOf y = some f) ys a) (h' : List.Forall₂ (fun y f => valueOf y = some f) ys b) :
    a = b := by
  induction h generalizing b with
  | nil => cases h'; rfl
  | cons e _ ih =>
    cases h' with
    | cons e' t =>
      rw [e] at e'
      injection e' with e'
      rw [e', ih t]

theorem values_take {ys : List (YArg F)} {a : List (Flt F)}
    (h : List.Forall₂ (fun y f => valueOf y = some f) ys a) (k : Nat) :
    List.Forall₂ (fun y f => valueOf y = some f) (ys.take k) (a.take k) := List.forall₂_take k h

theorem single_steps (rest : List (Point F × Result F M)) (j : Nat) (hj : j ≤ rest.length) :
    (((rest.map fun st => ([Val.seq st.1], st.2)).take j).flatMap Prod.fst).length = j := by
  induction rest generalizing j with
  | nil => simp at hj; subst hj; rfl
  | cons x rest ih =>
    cases j with
    | zero => rfl
    | succ j =>
      have := ih j (by simpa using hj)
      simp only [List.map_cons, List.take_succ_cons, List.flatMap_cons, List.length_append, this, List.length_singleton]
      omega

section
variable [LinearOrder F]

/-- **C132 (any criteria, any arithmetic).** A call with criteria on the recorded points and values as its only callbacks
returns `r`.  After no earlier step – the record then was the beginning of the final one, from the starting points or
the first evaluation on – did one of the criteria hold, and either one of them holds now, or the objective has been
evaluated exactly `n_calls` times.

Missing: evaluated points all of whose entries are lists or tuples, which `tell` takes for a batch of points. -/
theorem C132_first_stop_partial (A : Arith F) (W : World F M R G) (sh : Shared F G) (func : Objective F) (m : MinArgs F M)
    (rng : R) (st : Starts F) (hx0 : m.x0 = st.toX0) (hst : st.Proper)
    (hy : m.y0 = .none ∨ m.y0.given.length = st.all.length) (hn : 0 ≤ m.nRandomStarts.getD m.nInitialPoints)
    (hflat : ∀ p, Val.seq p ∈ evalsOf (baseMinimize A W sh func m rng).trace → Flat p)
    (crits : List (List (Val F) → List (Flt F) → Except PyErr (Option Bool)))
    (hcb : m.callback.callables = crits.map recordStopper) (r : Result F M)
    (h : (baseMinimize A W sh func m rng).result = .ok (some r)) :
    (∀ j, max 1 st.all.length ≤ j → j < r.funcVals.length → ∀ c ∈ crits,
      c (r.xIters.take j) (r.funcVals.take j) ≠ .ok (some true)) ∧
    (((evalsOf (baseMinimize A W sh func m rng).trace).length : ℤ) = m.nCalls ∨
      ∃ c ∈ crits, c r.xIters r.funcVals = .ok (some true)) := by
  obtain ⟨x0, cfg, sh₁, s, cbs, h1, h2, h3, h4, h5, h6⟩ := baseMinimize_ok h
  obtain ⟨-, hpts, hpos, hbud⟩ := prepare_ok h1
  rw [hx0, Starts.points_eq hst] at hpts
  injection hpts with hpts
  rw [h] at h6
  obtain ⟨first, rest, g1, g2, g3, g4, g5, g6⟩ := minimizeBody_ok h6.symm
  obtain ⟨steps, hsteps⟩ : ∃ steps, steps = first ++ rest.map fun st => ([Val.seq st.1], st.2) := ⟨_, rfl⟩
  rw [← hsteps] at g2 g3 g4 g6
  have hlen : steps.length = first.length + rest.length := by rw [hsteps]; simp
  rw [← hlen] at g3 g6
  have hgv : (givenValues m.y0 st).length = (givenPoints m.y0 st).length := by
    rcases hy with e | e
    · rw [e]; simp [givenValues, givenPoints, Y0.given]
    · clear * - e
      unfold givenValues givenPoints
      generalize m.y0 = y at e
      generalize st.all = l at e ⊢
      cases y <;> cases l <;> simp_all [Y0.given]
  -- the evaluations up to each step
  have hx : x0.length = st.all.length := by rw [← hpts]; simp
  have hcount : ∀ k, k < steps.length → (givenValues m.y0 st).length + ((steps.take (k + 1)).flatMap Prod.fst).length =
      max 1 st.all.length + k := by
    intro k hk
    rcases g1 with ⟨e1, e2⟩ | ⟨e1, r₁, e2⟩
    · rw [e2, List.nil_append] at hsteps
      rw [hsteps, single_steps _ _ (by rw [hsteps] at hk; simpa using hk)]
      have : st.all = [] := List.length_eq_zero_iff.1 (by rw [← hx, e1]; rfl)
      simp [givenValues, this, Nat.add_comm]
    · rw [e2] at hsteps hlen
      have hs : st.all ≠ [] := fun e => e1 (List.length_eq_zero_iff.1 (by rw [hx, e]; rfl))
      have h1 : 1 ≤ st.all.length := List.length_pos_iff.2 hs
      rw [hsteps, List.cons_append, List.nil_append, List.take_succ_cons, List.flatMap_cons, List.length_append,
        single_steps _ _ (by simp at hlen; omega)]
      have : (givenValues m.y0 st).length + (evaluatedFirst x0 m.y0).length = st.all.length := by
        unfold givenValues evaluatedFirst
        rw [if_neg (by simpa using hs)]
        rcases hy with e | e
        · rw [e]; simpa [Y0.given, Y0.values] using hx
        · cases hm : m.y0 with
          | none => simpa [Y0.given, Y0.values] using hx
          | iter ys => rw [hm] at e; simpa [Y0.given, Y0.values] using e
          | num y => rw [hm] at e; simpa [Y0.given, Y0.values] using e
          | other => rw [hm] at e; simpa [Y0.given, Y0.values] using e
      have hmax : max 1 st.all.length = st.all.length := by omega
      rw [hmax]
      simp only
      omega
  -- the values after each step
  have hvals : ∀ c₀ ∈ crits, ∀ k q, steps[k]? = some q → q.2.funcVals =
      r.funcVals.take (max 1 st.all.length + k) ∧ q.2.xIters = r.xIters.take (max 1 st.all.length + k) ∧
      r.funcVals.length + 1 = max 1 st.all.length + steps.length := by
    intro c₀ hc₀ k q hq
    have hi : 0 < cbs.length := by
      rw [← h5, hcb, List.length_append, List.length_map]
      have := List.length_pos_of_mem hc₀
      omega
    have hk := (List.getElem?_eq_some_iff.1 hq).1
    have hlast : steps[steps.length - 1]?.map Prod.snd = some r := by
      rw [← List.getLast?_eq_getElem?]; exact g4.symm
    obtain ⟨ql, hql, hqr⟩ := Option.map_eq_some_iff.1 hlast
    have hrec : ∀ k q, steps[k]? = some q → ∃ ys, Answers func [] ((steps.take (k + 1)).flatMap Prod.fst) ys ∧
        List.Forall₂ (fun y f => valueOf y = some f) (givenValues m.y0 st ++ ys) q.2.funcVals ∧
        q.2.xIters = givenPoints m.y0 st ++ (steps.take (k + 1)).flatMap Prod.fst := by
      intro k q hq
      obtain ⟨a, b, d, e1, e2⟩ := traceOf_split hi [] steps k q hq
      obtain ⟨⟨ys, f1, f2, f3⟩, -⟩ := C83_callbacks_see_everything_partial A W sh func m rng st hx0 hst hflat a b 0 q.2 d
        (g2.trans e1)
      exact ⟨ys, by rw [← e2]; exact f1, f3, by rw [← e2]; exact f2⟩
    obtain ⟨ys, u1, u2, u3⟩ := hrec _ _ hql
    obtain ⟨zs, v1, v2, v3⟩ := hrec _ _ hq
    rw [hqr] at u2 u3
    have hall : steps.length - 1 + 1 = steps.length := by omega
    rw [hall, List.take_length] at u1 u3
    have hz : zs = ys.take ((steps.take (k + 1)).flatMap Prod.fst).length := by
      refine answers_prefix func [] _ ((steps.drop (k + 1)).flatMap Prod.fst) ys zs ?_ v1
      rw [← List.flatMap_append, List.take_append_drop]
      exact u1
    have hc1 := hcount k hk
    have hc2 := hcount (steps.length - 1) (by omega)
    rw [hall, List.take_length] at hc2
    refine ⟨?_, ?_, ?_⟩
    · refine values_unique v2 ?_
      have := values_take u2 (max 1 st.all.length + k)
      rw [← hc1, List.take_length_add_append, ← hz, hc1] at this
      exact this
    · rw [u3, v3, ← hc1, hgv, List.take_length_add_append]
      have e : steps.flatMap Prod.fst = (steps.take (k + 1)).flatMap Prod.fst ++ (steps.drop (k + 1)).flatMap Prod.fst := by
        rw [← List.flatMap_append, List.take_append_drop]
      rw [e, List.take_left]
    · have e1 := u2.length_eq
      have e2 := answers_length u1
      rw [List.length_append] at e1
      omega
  constructor
  · intro j hj hjl c hc hstop
    obtain ⟨k, rfl⟩ : ∃ k, j = max 1 st.all.length + k := ⟨j - max 1 st.all.length, by omega⟩
    obtain ⟨q, hq⟩ : ∃ q, steps[0]? = some q := by
      cases steps with
      | nil => cases g4
      | cons q _ => exact ⟨q, rfl⟩
    have hl := (hvals c hc 0 q hq).2.2
    have hk : k + 1 < steps.length := by omega
    obtain ⟨q, hq⟩ : ∃ q, steps[k]? = some q := ⟨_, List.getElem?_eq_getElem (by omega)⟩
    refine g3 k hk ⟨recordStopper c, ?_, ?_⟩
    · rw [← h5, hcb]
      exact List.mem_append_left _ (List.mem_map_of_mem hc)
    · have hlast : ((steps.take (k + 1)).map Prod.snd).getLast? = some q.2 := by
        rw [List.take_add_one, hq, List.map_append]
        simp
      simp only [recordStopper, stopperCallback, hlast]
      rw [(hvals c hc k q hq).1, (hvals c hc k q hq).2.1]
      exact hstop
  · rcases g6 with g6 | ⟨-, g6⟩
    · left
      have he : evalsOf (baseMinimize A W sh func m rng).trace = steps.flatMap Prod.fst := by
        rw [g2, evalsOf_traceOf]
      have hl : ((rest.map fun st => ([Val.seq st.1], st.2)).flatMap Prod.fst).length = rest.length := by
        have := single_steps rest rest.length le_rfl
        rwa [List.take_of_length_le (by simp)] at this
      rw [he, hsteps, List.flatMap_append, List.length_append, hl, g6]
      have hev : (evaluatedFirst x0 m.y0).length ≤ if m.y0.falsy then x0.length else 0 := by
        unfold evaluatedFirst Y0.falsy
        split <;> simp_all
      rcases g1 with ⟨e1, e2⟩ | ⟨e1, r₁, e2⟩
      · rw [e2]
        rw [e1] at hev hbud ⊢
        simp only [List.length_nil, ite_self, Nat.cast_zero, add_zero, nonpos_iff_eq_zero] at hev hbud
        rw [hev]
        simp
        omega
      · rw [e2]
        simp only [List.flatMap_cons, List.flatMap_nil, List.append_nil]
        split at hbud <;> simp_all <;> omega
    · right
      obtain ⟨c, hc, hs⟩ := g6
      rw [← h5, hcb] at hc
      rcases List.mem_append.1 hc with hc | hc
      · obtain ⟨c', hc', rfl⟩ := List.mem_map.1 hc
        refine ⟨c', hc', ?_⟩
        have hl : (steps.map Prod.snd).getLast? = some r := by
          rw [List.getLast?_map]; exact g4.symm
        simpa only [recordStopper, stopperCallback, hl] using hs
      · split at hc
        · rw [List.mem_singleton] at hc
          subst hc
          cases hs
        · cases hc

end

/-- **C132 (the stoppers of the package).** A minimisation over a space of valid dimensions, with starting points in the
space and finite values, is given any list of `ThresholdStopper`, `DeltaYStopper`, `HollowIterationsStopper` and
`DeltaXStopper`.  If it returns, none of them was met by what had been observed after any earlier step, and either one
is met by the final record, or the objective has been evaluated exactly `n_calls` times.

Missing: values that are not numbers, after which `HollowIterationsStopper` never stops (`C48_refuted_nan`). -/
theorem C132_stoppers_partial (W : World ℝ M R G) (sh : Shared ℝ G) (func : Objective ℝ) (m : MinArgs ℝ M) (rng : R)
    (st : Starts ℝ) (hx0 : m.x0 = st.toX0) (hst : st.Proper) (hmem : ∀ p ∈ st.all, InSpace exact sh.dims p)
    (hgiven : m.y0 = .none ∨ m.y0.given.length = st.all.length ∧ ∀ y ∈ m.y0.given, FiniteNum y)
    (hn : 0 ≤ m.nRandomStarts.getD m.nInitialPoints) (hne : sh.dims ≠ []) (hv : ∀ d ∈ sh.dims, ValidDim exact d)
    (hW : WellBehaved exact W)
    (hfunc : ∀ done p y, InSpace exact sh.dims p → func done (.seq p) = .ok y → FiniteNum y) (stoppers : List Stopper)
    (hpos : ∀ delta n, Stopper.deltaY delta n ∈ stoppers → 1 ≤ n)
    (hcb : m.callback.callables = stoppers.map fun s => recordStopper (s.criterion sh.dims)) (r : Result ℝ M)
    (h : (baseMinimize exact W sh func m rng).result = .ok (some r)) :
    ∃ (ps : List (Point ℝ)) (fs : List ℝ), r.xIters = ps.map Val.seq ∧ r.funcVals = fs.map Flt.fin ∧
      (∀ j, max 1 st.all.length ≤ j → j < fs.length → ∀ s ∈ stoppers, ¬ s.Met sh.dims (ps.take j) (fs.take j)) ∧
      (((evalsOf (baseMinimize exact W sh func m rng).trace).length : ℤ) = m.nCalls ∨
        ∃ s ∈ stoppers, s.Met sh.dims ps fs) := by
  have hpts : m.x0.points = .ok (st.all.map Val.seq) := by rw [hx0]; exact Starts.points_eq hst
  have hevals : ∀ v ∈ evalsOf (baseMinimize exact W sh func m rng).trace, ∃ p, v = .seq p ∧ InSpace exact sh.dims p := by
    intro v hv'
    rcases C33_minimize_partial exact exact_orderly W hW sh hv func m rng v hv' with ⟨xs, h1, h2⟩ | h
    · rw [hpts] at h1
      injection h1 with h1
      subst h1
      obtain ⟨p, hp, rfl⟩ := List.mem_map.1 h2
      exact ⟨p, rfl, hmem p hp⟩
    · exact h
  have hflat : ∀ p, Val.seq p ∈ evalsOf (baseMinimize exact W sh func m rng).trace → Flat p := by
    intro p hp
    obtain ⟨q, e, hq⟩ := hevals _ hp
    injection e with e
    subst e
    exact inSpace_flat hne hv hq
  obtain ⟨ys, c1, c2, c3⟩ := C42_result_records_partial exact W sh func m rng st r hx0 hst h hflat
  have hrec : IsRecord func m.y0 st (evalsOf (baseMinimize exact W sh func m rng).trace) r := by
    refine ⟨ys, c1, ?_, ?_⟩
    · unfold givenPoints
      split
      · next e => exact (c2 e).1
      · next e => exact (c3 fun e' => e (e' ▸ rfl)).1
    · unfold givenValues
      by_cases e : m.y0 = .none
      · rw [e]
        simpa [Y0.given] using (c2 e).2
      · obtain ⟨-, d1, d2⟩ := c3 e
        by_cases hs : st.all = []
        · rw [hs]; exact d2 hs
        · rw [if_neg (by simpa using hs)]; exact d1 hs
  obtain ⟨ps, fs, e1, e2, e3, e4⟩ := record_parts hrec hevals hmem hgiven hfunc
  obtain ⟨k1, k2⟩ := C132_first_stop_partial exact W sh func m rng st hx0 hst (hgiven.imp_right And.left) hn hflat
    (stoppers.map fun s => s.criterion sh.dims) (by rw [hcb, List.map_map]; rfl) r h
  have hmet : ∀ s ∈ stoppers, ∀ ps' : List (Point ℝ), (∀ p ∈ ps', p ∈ ps) → ∀ ys,
      (s.criterion sh.dims (ps'.map Val.seq) (ys.map Flt.fin) = .ok (some true) ↔ s.Met sh.dims ps' ys) :=
    fun s hs ps' hp ys => stopper_met s (fun delta n e => hpos delta n (e ▸ hs)) (fun p h => inSpace_within (e3 p (hp p h))) ys
  refine ⟨ps, fs, e1, e2, fun j hj hjl s hs hm => ?_, k2.imp_right ?_⟩
  · refine k1 j hj (by rw [e2, List.length_map]; exact hjl) _ (List.mem_map_of_mem hs) ?_
    rw [e1, e2, ← List.map_take, ← List.map_take]
    exact (hmet s hs _ (fun p hp => List.mem_of_mem_take hp) _).2 hm
  · rintro ⟨c, hc, hs⟩
    obtain ⟨s, hs', rfl⟩ := List.mem_map.1 hc
    rw [e1, e2] at hs
    exact ⟨s, hs', (hmet s hs' _ (fun _ hp => hp) _).1 hs⟩

/-- **C132 (threshold).** A well-posed minimisation with `ThresholdStopper(thr)` returns; it reports a value that is at
most `thr`, or has evaluated the objective exactly `n_calls` times without meeting one. -/
theorem C132_threshold (W : World ℝ M R G) (sh : Shared ℝ G) (func : Objective ℝ) (m : MinArgs ℝ M)
    (st : Starts ℝ) (rng : R) (hset : SaneArgs m.opt) (hps : m.opt.perSecond = false)
    (hd : Workable (searched m.opt.est.isGP sh.dims)) (hne : sh.dims ≠ []) (hv : ∀ d ∈ sh.dims, ValidDim exact d)
    (hW : Reliable W (searched m.opt.est.isGP sh.dims)) (hW' : WellBehaved exact W)
    (hgen : sh.gen = none ∨ m.opt.est.isNone = false ∧ Generates W (searched m.opt.est.isGP sh.dims))
    (hfunc : TotalOn false sh.dims func) (hm : WellPosed sh.dims m st) (thr : ℝ)
    (hcb : m.callback = .one (stopperCallback fun r => threshold thr r.funcVals)) :
    ∃ r f, (baseMinimize exact W sh func m rng).result = .ok (some r) ∧ r.fun_ = .fin f ∧
      (f ≤ thr ∨ ((evalsOf (baseMinimize exact W sh func m rng).trace).length : ℤ) = m.nCalls) := by
  obtain ⟨⟨r, h1, fs, b, p, f, h2, h3, h4, h5, h6, h7, h8⟩, -, -⟩ := C76_minimize_returns_partial W sh func m st rng hset hd
    hW hgen (by rw [hps]; exact hfunc) hm
  refine ⟨r, f, h1, h8, ?_⟩
  obtain ⟨ps, fs', e1, e2, -, e4⟩ := C132_stoppers_partial W sh func m rng st hm.x0 hm.proper hm.members
    (by
      rcases hm.y0 with e | ⟨-, e, e'⟩
      · exact .inl e
      · rw [hps] at e'
        exact .inr ⟨e, e'⟩) hm.initial hne hv hW' (fun done p y hp hy => by
      obtain ⟨z, hz, hf⟩ := hfunc done p hp
      rw [hz] at hy
      injection hy with hy
      rw [← hy]; exact hf) [.threshold thr] (by simp) (by rw [hcb]; rfl) r h1
  rcases e4 with e4 | ⟨s, hs, hmet⟩
  · exact .inr e4
  · left
    rw [List.mem_singleton] at hs
    subst hs
    obtain ⟨y, hy, hle⟩ := hmet
    have : fs' = fs := by
      rw [h2] at e2
      exact (List.map_injective_iff.2 (fun a b e => by injection e) e2).symm
    subst this
    obtain ⟨z, z1, z2, -⟩ := h3
    rw [h7] at z1
    injection z1 with z1
    subst z1
    exact (z2 y hy).trans hle

/-! ## Examples -/

/-- Two criteria: a value of at least three observations, and a value of at most -1. -/
def toyCrits : List (List (Val ℚ) → List (Flt ℚ) → Except PyErr (Option Bool)) :=
  [fun xs _ => .ok (some (decide (3 ≤ xs.length))), fun _ ys => threshold (-1) ys]

/-- A run with a starting point that is stopped after three of its four evaluations.
Meets the hypotheses of `C132_first_stop_partial`. -/
example :
    let m := toyMin (.list (toyCrits.map recordStopper))
    let out := baseMinimize ratArith okWorld toyShared countingObjective m 0
    m.x0 = (Starts.points [[Val.num 3]]).toX0 ∧ m.callback.callables = toyCrits.map recordStopper ∧
    (out.result.toOption.bind fun r => r.map fun r => r.funcVals) = some [.fin 1, .fin 2, .fin 3] ∧
    evalsOf out.trace = [.seq [.num 3], .seq [.num 5], .seq [.num 5]] := by
  refine ⟨rfl, rfl, ?_, ?_⟩ <;> decide +kernel

/-- An objective that fails to give a number once, and gives 1 ever after. -/
def nanOnce : Objective ℚ := fun done _ => .ok (.num (if done.length = 0 then .nan else .fin 1))

/-- **C132 is false if a value is NaN**: `HollowIterationsStopper(1, 0)` does not stop a run although the best number
observed has not improved for three evaluations. -/
theorem C132_refuted_nan :
    let m : MinArgs ℚ Nat := { toyMin (.one (stopperCallback fun r => hollow ratArith 1 0 r.funcVals)) with
      opt := { est := { isNone := true } }, nCalls := 6, nInitialPoints := 5 }
    let out := baseMinimize ratArith okWorld toyShared nanOnce m 0
    (out.result.toOption.bind fun r => r.map fun r => numbers r.funcVals) = some [1, 1, 1, 1, 1] ∧
      (evalsOf out.trace).length = 6 ∧ ImprovedAtMost ratArith 1 0 [(1 : ℚ), 1, 1] := by
  refine ⟨by decide +kernel, by decide +kernel, 1, 1, ⟨by simp, by simp [lowerBounds]⟩, ⟨by simp, by simp [lowerBounds]⟩,
    by decide +kernel⟩

/-- The call of C83 with all four kinds of stoppers that look at results. -/
noncomputable def stopperCall (ss : List Stopper) : MinArgs ℝ Unit :=
  { checkpointed with callback := .list (ss.map fun s => recordStopper (s.criterion liveDims)) }

theorem stopperCall_wellPosed (ss : List Stopper)
    (hc : ∀ s ∈ ss, ∀ hist : List (Result ℝ Unit), ∃ d, recordStopper (s.criterion liveDims) hist = .ok d) :
    WellPosed liveDims (stopperCall ss) (.point [.num 3, .num (2 : ℤ), .str "b"]) := by
  have h := checkpointed_wellPosed
  refine ⟨h.x0, h.proper, h.members, Or.inl rfl, h.initial, h.some, h.budget, h.budget', by rintro ⟨⟩, ?_⟩
  intro c hc' hist
  obtain ⟨s, hs, rfl⟩ := List.mem_map.1 hc'
  exact hc s hs hist

theorem criterion_answers (s : Stopper) (hs : (∃ thr, s = .threshold thr) ∨ ∃ delta n, s = .deltaY delta n ∧ 1 ≤ n)
    (hist : List (Result ℝ Unit)) : ∃ d, recordStopper (s.criterion liveDims) hist = .ok d := by
  unfold recordStopper stopperCallback
  cases hist.getLast? with
  | none => exact ⟨_, rfl⟩
  | some r =>
    rcases hs with ⟨thr, rfl⟩ | ⟨delta, n, rfl, hn⟩
    · obtain ⟨b, hb⟩ := (C49_threshold thr r.funcVals []).1
      exact ⟨_, hb⟩
    · exact (C47_deltaY exact exact_monoSub delta n hn r.funcVals).1

/-- A run on a mixed space with a threshold and a `DeltaYStopper`.
Meets the hypotheses of `C132_stoppers_partial`. -/
example : ∃ (r : Result ℝ Unit) (ps : List (Point ℝ)) (fs : List ℝ), (baseMinimize exact realWorld ⟨liveDims, none⟩ sumObjective
      (stopperCall [.threshold 1, .deltaY (1/2) 3]) ()).result = .ok (some r) ∧
    r.xIters = ps.map Val.seq ∧ r.funcVals = fs.map Flt.fin ∧
    ∀ j, 1 ≤ j → j < fs.length → (∀ y ∈ fs.take j, 1 < y) ∧ ¬ SmallestWithin exact 3 (1/2) (fs.take j) := by
  have hm := stopperCall_wellPosed [.threshold 1, .deltaY (1/2) 3] (by
    intro s hs hist
    refine criterion_answers s ?_ hist
    simp only [List.mem_cons, List.not_mem_nil, or_false] at hs
    rcases hs with rfl | rfl
    · exact .inl ⟨_, rfl⟩
    · exact .inr ⟨_, _, rfl, by norm_num⟩)
  obtain ⟨⟨r, h1, -⟩, -, -⟩ := C76_minimize_returns_partial realWorld ⟨liveDims, none⟩ sumObjective
    (stopperCall [.threshold 1, .deltaY (1/2) 3]) _ () checkpointed_sane liveDims_workable liveWorld_reliable (.inl rfl)
    sumObjective_total hm
  obtain ⟨ps, fs, e1, e2, e3, -⟩ := C132_stoppers_partial realWorld ⟨liveDims, none⟩ sumObjective
    (stopperCall [.threshold 1, .deltaY (1/2) 3]) () _ hm.x0 hm.proper hm.members (.inl rfl) hm.initial
    liveDims_workable.nonempty liveDims_workable.valid realWorld_wellBehaved (fun done p y hp hy => by
      obtain ⟨z, hz, hf⟩ := sumObjective_total done p hp
      rw [hz] at hy
      injection hy with hy
      rw [← hy]; exact hf) [.threshold 1, .deltaY (1/2) 3] (by
      intro delta n h
      simp only [List.mem_cons, List.not_mem_nil, or_false, reduceCtorEq, false_or, Stopper.deltaY.injEq] at h
      omega) rfl r h1
  refine ⟨r, ps, fs, h1, e1, e2, fun j hj hl => ⟨fun y hy => ?_, e3 j hj hl (.deltaY (1/2) 3) (by simp)⟩⟩
  by_contra hc
  exact e3 j hj hl (.threshold 1) (by simp) ⟨y, hy, not_lt.1 hc⟩

/-- A run on a mixed space with `ThresholdStopper(1)`.
Meets the hypotheses of `C132_threshold`. -/
example : ∃ r f, (baseMinimize exact realWorld ⟨liveDims, none⟩ sumObjective
      { checkpointed with callback := .one (stopperCallback fun r => threshold 1 r.funcVals) } ()).result = .ok (some r) ∧
    r.fun_ = .fin f ∧ (f ≤ 1 ∨ ((evalsOf (baseMinimize exact realWorld ⟨liveDims, none⟩ sumObjective
      { checkpointed with callback := .one (stopperCallback fun r => threshold 1 r.funcVals) } ()).trace).length : ℤ) = 8) := by
  have h := checkpointed_wellPosed
  refine C132_threshold realWorld ⟨liveDims, none⟩ sumObjective
    { checkpointed with callback := .one (stopperCallback fun r => threshold 1 r.funcVals) } _ () checkpointed_sane rfl
    liveDims_workable liveDims_workable.nonempty liveDims_workable.valid liveWorld_reliable realWorld_wellBehaved (.inl rfl)
    sumObjective_total ⟨h.x0, h.proper, h.members, Or.inl rfl, h.initial, h.some, h.budget, h.budget', by rintro ⟨⟩, ?_⟩ 1 rfl
  intro c hc hist
  rw [List.mem_singleton.1 hc]
  unfold stopperCallback
  cases hist.getLast? with
  | none => exact ⟨_, rfl⟩
  | some r =>
    obtain ⟨b, hb⟩ := (C49_threshold 1 r.funcVals []).1
    exact ⟨_, hb⟩

end Skopt

import Verif.Props.Minimize
import Verif.Lemmas.Relabel
import Verif.Lemmas.OptimizerSound
import Verif.Lemmas.Generator
import Verif.Model.Lhs
import Verif.Model.ExampleWorld

/-!
# C124: which points of a generated initial design a minimisation evaluates
-/

namespace Skopt

variable {F M R G : Type}

section
variable [LinearOrder F]

omit [LinearOrder F] in
theorem mkConfig_nInitial {a : Args} {cfg : Config} (h : mkConfig a = .ok cfg) :
    cfg.nInitial = a.nRandomStarts.getD a.nInitialPoints := by
  unfold mkConfig at h
  split at h
  · cases h
  · simp only at h
    repeat' split at h
    all_goals cases h
    rfl

/-- Where in its design a running search is: `k` observations are on record. -/
structure Designing (P : List (Point F)) (k : Nat) (s : Opt F M R) : Prop where
  samples : s.initialSamples = some P
  left : s.nInit = (P.length : ℤ) - k

theorem askOne_designing {A : Arith F} {W : World F M R G} {dims : List (Dim F)} {P : List (Point F)} {k : Nat}
    {s : Opt F M R} (h : Designing P k s) (hk : k < P.length) :
    askOne A W dims s = (s, .ok P[k]) := by
  unfold askOne
  have hleft := h.left
  rw [if_pos (Or.inl (by omega)), h.samples]
  have he : (P.length : ℤ) - s.nInit = ((k : Nat) : ℤ) := by omega
  simp only [he, pyGetI]
  rw [if_pos (by omega), Int.toNat_natCast, pyGet_lt hk]

theorem tell_designing {A : Arith F} {W : World F M R G} {dims : List (Dim F)} {P : List (Point F)} {k : Nat}
    {s t : Opt F M R} {r : Result F M} {p : Point F} {y : YArg F} (h : Designing P k s) (hp : Flat p)
    (ht : tell A W dims s (.lst p) y true = (t, .ok r)) : Designing P (k + 1) t := by
  rcases tell_one A W dims s hp y true with ⟨e, he⟩ | ⟨y', -, -, h1, h2⟩
  · rw [he] at ht; cases ht
  · have hf := tellCore_frame A W dims s (.lst p) y' true h2
    rw [h1] at ht
    rw [ht] at hf
    refine ⟨hf.initialSamples.trans h.samples, hf.nInit.trans ?_⟩
    simp only [record.single, h.left]
    push_cast
    ring

theorem tell_batch_designing {A : Arith F} {W : World F M R G} {dims : List (Dim F)} {P : List (Point F)} {k : Nat}
    {s t : Opt F M R} {r : Result F M} {ps : List (Point F)} {ys : List (YArg F)} (h : Designing P k s)
    (hl : ys.length = ps.length)
    (ht : tell A W dims s (.lst (ps.map Val.seq)) (.seq ys) true = (t, .ok r)) : Designing P (k + ps.length) t := by
  have hx : (ps.zip ys).map (fun o => (.seq o.1 : Val F)) = ps.map Val.seq := by
    rw [show (fun o : Point F × YArg F => (.seq o.1 : Val F)) = Val.seq ∘ Prod.fst from rfl, ← List.map_map,
      List.map_fst_zip (by omega)]
  have hy : (ps.zip ys).map Prod.snd = ys := List.map_snd_zip (by omega)
  have hc := tell_batch A W dims s (ps.zip ys) true
  rw [hx, hy] at hc
  rcases hc with ⟨e, he⟩ | ⟨zs, h0, -, h1, h2⟩
  · rw [he] at ht; cases ht
  · have hf := tellCore_frame A W dims s (.lst (ps.map Val.seq)) (.seq zs) true h2
    rw [h1] at ht
    rw [ht] at hf
    refine ⟨hf.initialSamples.trans h.samples, hf.nInit.trans ?_⟩
    have := h0.length_eq
    simp only [record.batch, h.left]
    push_cast
    omega

/-- The loop follows the design from where it is. -/
theorem minimizeLoop_designing {A : Arith F} {W : World F M R G} {dims : List (Dim F)} {func : Objective F}
    {cbs : List (Callback F M)} {P : List (Point F)} (hflat : ∀ p ∈ P, Flat p) :
    ∀ (n k : Nat) (done : List (Val F)) (hist : List (Result F M)) (s : Opt F M R) (last : Option (Result F M)),
    Designing P k s → ∀ i, i < (evalsOf (minimizeLoop A W dims func cbs n done hist s last).1).length →
      k + i < P.length →
      (evalsOf (minimizeLoop A W dims func cbs n done hist s last).1)[i]? = (P[k + i]?).map Val.seq := by
  intro n
  induction n with
  | zero => intro k done hist s last _ i hi; simp [minimizeLoop, evalsOf] at hi
  | succ n ih =>
    intro k done hist s last hs i hi hk
    have hask := askOne_designing (A := A) (W := W) (dims := dims) hs (by omega)
    simp only [minimizeLoop, hask] at hi ⊢
    -- whatever follows, the first evaluation is the design point, and the rest is the rest of the loop
    have first : ∀ t : List (Event F M), (i < (evalsOf (.eval (.seq P[k]) :: t)).length) →
        (∀ j, i = j + 1 → (evalsOf t)[j]? = (P[k + i]?).map Val.seq) →
        (evalsOf (.eval (.seq P[k]) :: t))[i]? = (P[k + i]?).map Val.seq := by
      intro t hlt hrest
      rw [evalsOf_eval_cons]
      cases i with
      | zero => simp [List.getElem?_eq_getElem (show k < P.length by omega)]
      | succ j => rw [List.getElem?_cons_succ]; exact hrest j rfl
    have only : ∀ t : List (Event F M), evalsOf t = [] → (i < (evalsOf (.eval (.seq P[k]) :: t)).length) →
        (evalsOf (.eval (.seq P[k]) :: t))[i]? = (P[k + i]?).map Val.seq := by
      intro t ht hlt
      refine first t hlt fun j hj => ?_
      rw [evalsOf_eval_cons, ht] at hlt
      simp at hlt
      omega
    cases hf : func done (.seq P[k]) with
    | error e => simp only [hf] at hi ⊢; exact only [] rfl hi
    | ok y =>
      simp only [hf] at hi ⊢
      rcases ht : tell A W dims s (.lst P[k]) y true with ⟨s', e | r⟩
      · simp only [ht] at hi ⊢; exact only [] rfl hi
      · simp only [ht] at hi ⊢
        have hev := (evalCallbacks_spec (hist ++ [r]) r cbs 0 false).2.2
        rcases hc : evalCallbacks (hist ++ [r]) r cbs 0 false with ⟨t, e | b⟩
        · rw [hc] at hev
          simp only [hc] at hi ⊢; exact only t hev hi
        · rw [hc] at hev
          cases b with
          | true => simp only [hc] at hi ⊢; exact only t hev hi
          | false =>
            simp only [hc] at hi ⊢
            refine first _ hi fun j hj => ?_
            have hs' := tell_designing hs (hflat _ (List.getElem_mem _)) ht
            have := ih (k + 1) (done ++ [.seq P[k]]) (hist ++ [r]) s' (some r) hs' j (by
              rw [evalsOf_eval_cons, evalsOf_append, hev] at hi
              simp only [List.length_cons, List.nil_append] at hi
              omega) (by omega)
            rw [evalsOf_append, hev, List.nil_append, this]
            congr 2
            omega

omit [LinearOrder F] in
theorem evalAll_evals_le (func : Objective F) (done xs : List (Val F)) :
    (evalsOf (evalAll (M := M) func done xs).1).length ≤ xs.length := by
  induction xs generalizing done with
  | nil => simp [evalAll, evalsOf]
  | cons x xs ih =>
    simp only [evalAll]
    cases hf : func done x with
    | error e => simp [evalsOf]
    | ok y =>
      have := ih (done ++ [x])
      simp only [evalsOf_eval_cons, List.length_cons]
      omega

theorem minimizeBody_designing {A : Arith F} {W : World F M R G} {dims : List (Dim F)} {func : Objective F}
    {cbs : List (Callback F M)} {nCalls : ℤ} {ps : List (Point F)} {y0 : Y0 F} {P : List (Point F)}
    (hflat : ∀ p ∈ P, Flat p) {s : Opt F M R} (hs : Designing P 0 s) (i : Nat)
    (hi : (evaluatedFirst (ps.map Val.seq) y0).length + i <
      (evalsOf (minimizeBody A W dims func cbs nCalls (ps.map Val.seq) y0 s).1).length)
    (hk : ps.length + i < P.length) :
    (evalsOf (minimizeBody A W dims func cbs nCalls (ps.map Val.seq) y0 s).1)[
      (evaluatedFirst (ps.map Val.seq) y0).length + i]? = (P[ps.length + i]?).map Val.seq := by
  unfold minimizeBody at hi ⊢
  by_cases hx : ps = []
  · subst hx
    have h0 : (evaluatedFirst ([].map Val.seq) y0 : List (Val F)).length = 0 := by
      unfold evaluatedFirst; split <;> rfl
    simp only [List.map_nil, List.isEmpty_nil, if_true, List.length_nil] at hi hk h0 ⊢
    rw [h0] at hi ⊢
    have := minimizeLoop_designing (A := A) (W := W) (dims := dims) (func := func) (cbs := cbs) hflat nCalls.toNat 0 [] []
      s none hs i (by omega) (by omega)
    simpa using this
  · have hxe : (ps.map (Val.seq (F := F))).isEmpty = false := by
      cases ps with
      | nil => exact absurd rfl hx
      | cons _ _ => rfl
    simp only [hxe, Bool.false_eq_true, if_false] at hi ⊢
    have hsv : ∀ t o, startValues (M := M) func (ps.map Val.seq) y0 = (t, o) →
        (evalsOf t).length ≤ (evaluatedFirst (ps.map Val.seq) y0).length ∧
        ∀ ys, o = .ok ys → evalsOf t = evaluatedFirst (ps.map Val.seq) y0 ∧ ys.length = ps.length := by
      intro t o h
      unfold startValues at h
      unfold evaluatedFirst
      split at h
      · next hv =>
        rw [hv]
        have h1 := evalAll_evals_le (M := M) func [] (ps.map Val.seq)
        have h2 := (evalAll_spec (M := M) func [] (ps.map Val.seq)).1
        rw [h] at h1 h2
        refine ⟨h1, fun ys ho => ?_⟩
        obtain ⟨g1, g2⟩ := h2 ys ho
        have g1' : t = (ps.map Val.seq).map Event.eval := g1
        refine ⟨by rw [g1', evalsOf_evals], ?_⟩
        rw [answers_length g2, List.length_map]
      · next hv =>
        rw [hv]
        cases h
        exact ⟨by simp [evalsOf], fun ys ho => by cases ho⟩
      · next zs hv =>
        rw [hv]
        simp only [Prod.mk.injEq] at h
        obtain ⟨rfl, rfl⟩ := h
        refine ⟨by simp [evalsOf], fun ys ho => ⟨rfl, ?_⟩⟩
        split at ho
        · cases ho
        · next hl =>
          cases ho
          rw [ne_eq, not_not, List.length_map] at hl
          exact hl.symm
    rcases hv : startValues (M := M) func (ps.map Val.seq) y0 with ⟨t, e | ys⟩
    · obtain ⟨v1, -⟩ := hsv _ _ hv
      simp only [hv] at hi
      omega
    · obtain ⟨-, v2⟩ := hsv _ _ hv
      obtain ⟨v2, v3⟩ := v2 ys rfl
      simp only [hv] at hi ⊢
      rcases ht : tell A W dims s (.lst (ps.map Val.seq)) (.seq ys) true with ⟨s', e | r⟩
      · simp only [ht, v2] at hi
        omega
      · simp only [ht] at hi ⊢
        have hev := (evalCallbacks_spec [r] r cbs 0 false).2.2
        rcases hc : evalCallbacks [r] r cbs 0 false with ⟨t', e | b⟩
        · rw [hc] at hev
          simp only [hc, evalsOf_append, v2, hev, List.append_nil] at hi
          omega
        · rw [hc] at hev
          cases b with
          | true =>
            simp only [hc, evalsOf_append, v2, hev, List.append_nil] at hi
            omega
          | false =>
            simp only [hc, evalsOf_append, v2, hev, List.nil_append, List.length_append] at hi ⊢
            have hs' := tell_batch_designing hs v3 ht
            rw [Nat.zero_add] at hs'
            rw [List.getElem?_append_right (by omega), Nat.add_sub_cancel_left]
            exact minimizeLoop_designing hflat _ _ _ _ s' _ hs' i (by omega) hk

/-- What the generator of initial points answers when the minimisation asks it for `N` points: it is asked for points of
the dimensions the search works on, with a seed drawn from the random state of the search. -/
def Designs (W : World F M R G) (sh : Shared F G) (gp : Bool) (N : ℤ) (rng : R) (P : List (Point F)) : Prop :=
  ∃ g, sh.gen = some g ∧
    (W.generate g (if gp then sh.dims.map Dim.normalized else sh.dims) N (W.seed rng).2).2.2 = .ok P

/-- **C124 (which points).** A minimisation with `k` starting points, `n` initial points and a generator asks the
generator for a design of `n + k` points and evaluates, after the starting points, its points number `k + 1`, …, `n + k`
in this order, as far as it gets; the first `k` are never evaluated (as part of the design).

The full statement – the points evaluated are a design for `n` points – is this for `k = 0`; it is false for `k > 0`,
see `C124_refuted_starts`.  Missing besides: generators that deliver another number of points than requested (C27), and
points made of lists only, which `tell` takes for a batch. -/
theorem C124_design_points_partial (A : Arith F) (W : World F M R G) (sh : Shared F G) (func : Objective F)
    (m : MinArgs F M) (rng : R) (st : Starts F) (hx : m.x0 = st.toX0) (hst : st.Proper) (n : ℤ)
    (hn : n = m.nRandomStarts.getD m.nInitialPoints) (P : List (Point F))
    (hP : Designs W sh m.opt.est.isGP (n + st.all.length) rng P) (hlen : (P.length : ℤ) = n + st.all.length)
    (hflat : ∀ p ∈ P, Flat p) :
    let evals := evalsOf (baseMinimize A W sh func m rng).trace
    ∀ i : Nat, (i : ℤ) < n →
      (m.y0 = .none → st.all.length + i < evals.length →
        evals[st.all.length + i]? = (P[st.all.length + i]?).map Val.seq) ∧
      (m.y0 ≠ .none → i < evals.length → evals[i]? = (P[st.all.length + i]?).map Val.seq) := by
  intro evals i hin
  have key : (evaluatedFirst (st.all.map Val.seq) m.y0).length + i < evals.length →
      evals[(evaluatedFirst (st.all.map Val.seq) m.y0).length + i]? = (P[st.all.length + i]?).map Val.seq := by
    intro hi
    unfold evals at hi ⊢
    unfold baseMinimize at hi ⊢
    have hprep : ∀ x0 N, m.prepare = .ok (x0, N) → x0 = st.all.map Val.seq ∧ N = n + st.all.length := by
      intro x0 N h
      unfold MinArgs.prepare at h
      rw [hx, Starts.points_eq hst] at h
      simp only [ok_bind, ← hn] at h
      by_cases c1 : n ≤ 0 ∧ (st.all.map (Val.seq (F := F))).isEmpty = true
      · rw [if_pos c1] at h; cases h
      · rw [if_neg c1] at h
        by_cases c2 : m.nCalls < n + (if m.y0.falsy = true then ((st.all.map (Val.seq (F := F))).length : ℤ) else 0)
        · rw [if_pos c2] at h; cases h
        · rw [if_neg c2] at h
          simp only [Except.ok.injEq, Prod.mk.injEq] at h
          exact ⟨h.1.symm, by rw [← h.2, List.length_map]⟩
    cases hp : m.prepare with
    | error e => simp [hp, evalsOf] at hi
    | ok q =>
      obtain ⟨x0, N⟩ := q
      obtain ⟨rfl, rfl⟩ := hprep _ _ hp
      simp only [hp] at hi ⊢
      cases hc : mkConfig (m.optArgs (n + st.all.length)) with
      | error e => simp [hc, evalsOf] at hi
      | ok cfg =>
        simp only [hc] at hi ⊢
        have hgp : cfg.isGP = m.opt.est.isGP := by
          have := mkConfig_isGP hc
          simpa [MinArgs.optArgs] using this
        have hni : cfg.nInitial = n + st.all.length := by
          have := mkConfig_nInitial hc
          simpa [MinArgs.optArgs] using this
        rcases hi' : (Opt.init A W sh cfg rng : Shared F G × Except PyErr (Opt F M R)) with ⟨sh', e | s⟩
        · simp [hi', evalsOf] at hi
        · simp only [hi'] at hi ⊢
          have hs : Designing P 0 s := by
            obtain ⟨g, hg, hgen⟩ := hP
            unfold Opt.init at hi'
            rw [hgp] at hi'
            have hd : (if m.opt.est.isGP then Space.setTransformer sh.dims .normalize else .ok sh.dims) =
                (.ok (if m.opt.est.isGP then sh.dims.map Dim.normalized else sh.dims) : Except PyErr _) := by
              split
              · exact setTransformer_normalize _
              · rfl
            rw [hd] at hi'
            simp only [hg, hni] at hi'
            rcases hq : W.generate g (if m.opt.est.isGP then sh.dims.map Dim.normalized else sh.dims)
              (n + st.all.length) (W.seed rng).2 with ⟨g', dims', e | pts⟩
            · rw [hq] at hgen; cases hgen
            · rw [hq] at hgen
              cases hgen
              rw [hq] at hi'
              simp only at hi'
              split at hi'
              · cases hi'
              · cases hi'
                refine ⟨rfl, ?_⟩
                simp only [Opt.fresh, hni]
                push_cast
                omega
          cases hcs : checkStarts sh'.dims.length (st.all.map Val.seq) with
          | error e => simp [hcs, evalsOf] at hi
          | ok _ =>
            simp only [hcs] at hi ⊢
            cases hcb : checkCallback m.callback with
            | error e => simp [hcb, evalsOf] at hi
            | ok cbs =>
              simp only [hcb] at hi ⊢
              exact minimizeBody_designing hflat hs i hi (by omega)
  constructor
  · intro hy h
    simp only [hy, evaluatedFirst, Y0.values, List.length_map] at key
    exact key h
  · intro hy h
    have : (evaluatedFirst (st.all.map Val.seq) m.y0).length = 0 := by
      unfold evaluatedFirst
      split
      · next hv =>
        exfalso
        apply hy
        cases h : m.y0 with
        | none => rfl
        | _ => simp [h, Y0.values] at hv
      · rfl
    rw [this, Nat.zero_add] at key
    exact key h

/-- **C124 (complete runs).** A minimisation that is not stopped and returns has evaluated, directly after the starting
points it had to evaluate, all of the points number `k + 1`, …, `n + k` of the design for `n + k` points; without starting
points these are all points of the design for `n` points.

Missing: see `C124_design_points_partial`. -/
theorem C124_complete_partial (A : Arith F) (W : World F M R G) (sh : Shared F G) (func : Objective F)
    (m : MinArgs F M) (rng : R) (st : Starts F) (hx : m.x0 = st.toX0) (hst : st.Proper) (n : ℤ)
    (hn : n = m.nRandomStarts.getD m.nInitialPoints) (h0 : 0 ≤ n) (P : List (Point F))
    (hP : Designs W sh m.opt.est.isGP (n + st.all.length) rng P) (hlen : (P.length : ℤ) = n + st.all.length)
    (hflat : ∀ p ∈ P, Flat p) (res : Option (Result F M))
    (hret : (baseMinimize A W sh func m rng).result = .ok res)
    (hgo : ∀ i r, Event.call i r (.ok (some true)) ∉ (baseMinimize A W sh func m rng).trace) :
    let evals := evalsOf (baseMinimize A W sh func m rng).trace
    (m.y0 = .none → ∃ rest, evals = st.all.map Val.seq ++ ((P.drop st.all.length).map Val.seq ++ rest)) ∧
    (m.y0 ≠ .none → ∃ rest, evals = (P.drop st.all.length).map Val.seq ++ rest) ∧
    (st.all = [] → ∃ rest, evals = P.map Val.seq ++ rest) := by
  intro evals
  have hpt := C124_design_points_partial A W sh func m rng st hx hst n hn P hP hlen hflat
  obtain ⟨hbud, hfirst⟩ := C42_exact_budget_partial A W sh func m rng st res hx hst (hn ▸ h0) hret hgo
  have hcalls : n + (if m.y0.falsy then (st.all.length : ℤ) else 0) ≤ m.nCalls := by
    by_contra hc
    have hp : ∃ e, m.prepare = .error e := by
      unfold MinArgs.prepare
      rw [hx, Starts.points_eq hst]
      simp only [ok_bind, ← hn]
      by_cases c1 : n ≤ 0 ∧ (st.all.map (Val.seq (F := F))).isEmpty = true
      · exact ⟨_, if_pos c1⟩
      · rw [if_neg c1, if_pos (by rw [List.length_map]; omega)]
        exact ⟨_, rfl⟩
    obtain ⟨e, hp⟩ := hp
    unfold baseMinimize at hret
    rw [hp] at hret
    cases hret
  change (evals.length : ℤ) = m.nCalls at hbud
  -- from pointwise equality to an initial segment
  have seg : ∀ l : List (Val F), (∀ i : Nat, (i : ℤ) < n → i < l.length → l[i]? = (P[st.all.length + i]?).map Val.seq) →
      n ≤ l.length → ∃ rest, l = (P.drop st.all.length).map Val.seq ++ rest := by
    intro l hl hnl
    refine ⟨l.drop n.toNat, ?_⟩
    have : l.take n.toNat = (P.drop st.all.length).map Val.seq := by
      apply List.ext_getElem?
      intro i
      rw [List.getElem?_take, List.getElem?_map, List.getElem?_drop]
      split
      · next hi => exact hl i (by omega) (by omega)
      · next hi => rw [List.getElem?_eq_none (by omega)]; rfl
    rw [← this, List.take_append_drop]
  have first : m.y0 = .none → ∃ rest, evals = st.all.map Val.seq ++ ((P.drop st.all.length).map Val.seq ++ rest) := by
    intro hy
    obtain ⟨l, hl⟩ := hfirst hy
    change evals = _ at hl
    have hf : m.y0.falsy = true := by rw [hy]; rfl
    rw [hf, if_pos rfl] at hcalls
    have hll : evals.length = st.all.length + l.length := by rw [hl]; simp
    obtain ⟨rest, hrest⟩ := seg l (fun i hi hil => by
      have := (hpt i hi).1 hy (by change _ < evals.length; omega)
      change evals[_]? = _ at this
      rw [hl, List.getElem?_append_right (by simp), List.length_map, Nat.add_sub_cancel_left] at this
      exact this) (by omega)
    exact ⟨rest, by rw [hl, hrest]⟩
  have second : m.y0 ≠ .none → ∃ rest, evals = (P.drop st.all.length).map Val.seq ++ rest := by
    intro hy
    refine seg evals (fun i hi hil => (hpt i hi).2 hy hil) ?_
    split at hcalls <;> omega
  refine ⟨first, second, fun he => ?_⟩
  by_cases hy : m.y0 = .none
  · obtain ⟨rest, h⟩ := first hy
    rw [he] at h
    exact ⟨rest, by simpa using h⟩
  · obtain ⟨rest, h⟩ := second hy
    rw [he] at h
    exact ⟨rest, by simpa using h⟩

end

/-! ## A Latin hypercube with a starting point -/

/-- The toy world with `Lhs(lhs_type='centered', criterion=None)` as generator; the permutations drawn are identities. -/
def lhsWorld : World ℚ Nat Nat Unit :=
  { okWorld with
    generate := fun g dims n _ => (g, ({ lhsType := .centered, criterion := .none } : Lhs).generate ratArith
      ⟨fun _ _ => 0, fun _ => [], 0⟩ dims n.toNat ⟨[], dims.map fun _ => List.range n.toNat⟩ []) }

/-- A search with two initial points, then one suggestion of the surrogate, with these starting points. -/
def lhsRun (x0 : X0 ℚ) : MinArgs ℚ Nat :=
  { opt := { est := { isNone := false, isRegressor := true, isGP := false }, acq := some .EI, acqOptimizer := .sampling,
             nPoints := 3 },
    nCalls := 4, nInitialPoints := 2, x0 := x0 }

/-- `[Real(0, 6)]`. -/
def sixDims : List (Dim ℚ) := [.real ⟨0, 6, .uniform, 10, .identity, none, id⟩]

/-- The objective `x ↦ x`. -/
def plainObjective : Objective ℚ := fun _ x => match x with
  | .seq [.num a] => .ok (.num (.fin a))
  | _ => .error .typeError

/-- The points evaluated by a run over one `Real` dimension. -/
def evaluatedNumbers (m : MinArgs ℚ Nat) : List ℚ :=
  (evalsOf (baseMinimize ratArith lhsWorld ⟨sixDims, some ()⟩ plainObjective m 0).trace).filterMap fun v => match v with
    | .seq [.num a] => some a
    | _ => none

/-- The design for three points, of which a run with one starting point evaluates the last two.
Meets the hypotheses of `C124_design_points_partial`, `C124_complete_partial`. -/
example :
    (lhsRun (.list [.num 0])).x0 = (Starts.point [.num 0]).toX0 ∧ (Starts.point [(.num 0 : Val ℚ)]).Proper ∧
    Designs lhsWorld ⟨sixDims, some ()⟩ false 3 0 [[.num 1], [.num 3], [.num 5]] ∧
    (∀ p ∈ ([[.num 1], [.num 3], [.num 5]] : List (Point ℚ)), Flat p) ∧
    (∃ res, (baseMinimize ratArith lhsWorld ⟨sixDims, some ()⟩ plainObjective (lhsRun (.list [.num 0])) 0).result = .ok res) ∧
    (∀ i r, Event.call i r (.ok (some true)) ∉
      (baseMinimize ratArith lhsWorld ⟨sixDims, some ()⟩ plainObjective (lhsRun (.list [.num 0])) 0).trace) := by
  refine ⟨rfl, ⟨_, _, rfl, rfl⟩, ⟨(), rfl, by decide +kernel⟩, ?_, ?_, ?_⟩
  · intro p hp
    simp only [List.mem_cons, List.not_mem_nil, or_false] at hp
    rcases hp with rfl | rfl | rfl <;> exact ⟨_, List.mem_singleton_self _, rfl⟩
  · have h : (baseMinimize ratArith lhsWorld ⟨sixDims, some ()⟩ plainObjective (lhsRun (.list [.num 0])) 0).result.isOk =
        true := by decide +kernel
    cases hr : (baseMinimize ratArith lhsWorld ⟨sixDims, some ()⟩ plainObjective (lhsRun (.list [.num 0])) 0).result with
    | ok r => exact ⟨r, rfl⟩
    | error e => rw [hr] at h; cases h
  · intro i r hmem
    have h : (baseMinimize ratArith lhsWorld ⟨sixDims, some ()⟩ plainObjective (lhsRun (.list [.num 0])) 0).trace.all
        (fun e => match e with
          | .eval _ => true
          | .call .. => false) = true := by decide +kernel
    rw [List.all_eq_true] at h
    have := h _ hmem
    cases this

/-- **C124 is false with starting points**: the points evaluated are not a design of the requested size.  With
`n_initial_points=2` and the Latin hypercube generator the initial points of a search over `Real(0, 6)` are 3/2 and 9/2,
one in each half, as a Latin hypercube of two points must have.  With the starting point 0 in addition, the two initial
points are 3 and 5, the last two of a hypercube of three points: both are in the upper half. -/
theorem C124_refuted_starts :
    Designs lhsWorld ⟨sixDims, some ()⟩ false 2 0 [[.num (3 / 2)], [.num (9 / 2)]] ∧
    (evaluatedNumbers (lhsRun .none)).take 2 = [3 / 2, 9 / 2] ∧
    (evaluatedNumbers (lhsRun (.list [.num 0]))).take 3 = [0, 3, 5] := by
  refine ⟨⟨(), rfl, by decide +kernel⟩, by decide +kernel, by decide +kernel⟩

end Skopt

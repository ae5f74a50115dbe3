import Verif.Lemmas.SearchCV
import Verif.Props.Naming
import Verif.Model.ExampleWorld

/-!
# C51, C52, C64–C66 – `BayesSearchCV`
-/

namespace Skopt

variable {F M R G : Type} [LinearOrder F]

omit [LinearOrder F] in
theorem init_fresh {A : Arith F} {W : World F M R G} {sh sh' : Shared F G} {cfg : Config} {rng : R}
    {o : Opt F M R} (h : Opt.init A W sh cfg rng = (sh', .ok o)) :
    o.Xi = [] ∧ o.yi = [] ∧ o.cache = none := by
  unfold Opt.init at h
  split at h
  · simp at h
  · split at h
    · simp only [Prod.mk.injEq, Except.ok.injEq] at h
      rw [← h.2]; exact ⟨rfl, rfl, rfl⟩
    · simp only at h
      split at h
      · simp at h
      · split at h
        · simp at h
        · simp only [Prod.mk.injEq, Except.ok.injEq] at h
          rw [← h.2]; exact ⟨rfl, rfl, rfl⟩

theorem orName_sameRange (d : Dim F) (n : String) : SameRange d (d.orName n) := by
  intro v
  unfold Dim.orName
  split
  · exact Iff.rfl
  · cases d <;> exact Iff.rfl

theorem zipWith_orName {ds : List (Dim F)} {ks : List String} (h : ds.length ≤ ks.length) :
    List.Forall₂ SameRange ds (List.zipWith Dim.orName ds ks) := by
  induction ds generalizing ks with
  | nil => exact .nil
  | cons d ds ih =>
    cases ks with
    | nil => simp at h
    | cons k ks => exact .cons (orName_sameRange d k) (ih (by simpa using h))

theorem makeOptimizers_ok {A : Arith F} {W : World F M R G} {cfg : Config} {gen : Option G}
    {es : List (SearchElem F)} {rng rng' : R} {os : List (SearchElem F × Shared F G × Opt F M R)}
    (h : makeOptimizers A W cfg gen es rng = .ok (os, rng')) :
    os.map Prod.fst = es ∧
    (∀ q ∈ os, q.2.2.Xi = [] ∧ q.2.2.yi = [] ∧ q.2.2.cache = none) ∧
    (KeepsRanges W → ∀ q ∈ os, ∃ dims, dimensionsAslist q.1.space = .ok dims ∧
      List.Forall₂ SameRange dims q.2.1.dims) := by
  induction es generalizing rng os rng' with
  | nil =>
    simp only [makeOptimizers, Except.ok.injEq, Prod.mk.injEq] at h
    rw [← h.1]; simp
  | cons e es ih =>
    simp only [makeOptimizers, bind_eq_ok, Except.ok.injEq, Prod.mk.injEq] at h
    obtain ⟨⟨sh, o⟩, h1, ⟨rest, rng₁⟩, h2, rfl, _⟩ := h
    obtain ⟨g1, g2, g3⟩ := ih h2
    simp only [makeOptimizer, bind_eq_ok] at h1
    obtain ⟨dims, h3, h4⟩ := h1
    generalize hi : Opt.init (M := M) A W ⟨dims, gen⟩ cfg rng = q at h4
    obtain ⟨sh₁, out⟩ := q
    cases out with
    | error e => simp at h4
    | ok o₁ =>
      simp only [Except.ok.injEq, Prod.mk.injEq] at h4
      obtain ⟨h5, rfl⟩ := h4
      refine ⟨by simp [g1], ?_, ?_⟩
      · intro q hq
        rcases List.mem_cons.1 hq with rfl | hq
        · exact init_fresh hi
        · exact g2 q hq
      · intro hW q hq
        rcases List.mem_cons.1 hq with rfl | hq
        · refine ⟨dims, h3, ?_⟩
          have hr := init_sameRange hW hi
          simp only at hr
          rw [← h5]
          refine sameRange_trans hr (zipWith_orName ?_)
          have : (sortedKeys e.space).length = dims.length := (mapE_length h3).symm
          rw [this, hr.length_eq]
        · exact g3 hW q hq

theorem bayesSearch_ok {A : Arith F} {W : World F M R G} {ev : Evaluator F} {a : SearchArgs F M G}
    {rng : R} {subs : List (SubSearch F M R G)} (h : bayesSearch A W ev a rng = (subs, .ok ())) :
    ∃ cfg os rng', checkSearchSpaces a.spaces = .ok () ∧
      makeOptimizers A W cfg a.gen a.spaces.elems rng = .ok (os, rng') ∧
      searchAll A W ev a.callback.callables a.nIter a.nPoints os rng' [] [] none = (subs, .ok ()) := by
  unfold bayesSearch at h
  split at h
  · simp at h
  · next cbs os rng' hb =>
    simp only [bind_eq_ok, Except.ok.injEq, Prod.mk.injEq] at hb
    obtain ⟨_, h0, cbs', h1, cfg, h2, ⟨os', r'⟩, h3, rfl, h4⟩ := hb
    obtain ⟨rfl, rfl⟩ := Prod.mk.injEq .. ▸ h4
    refine ⟨cfg, os', r', h0, h3, ?_⟩
    have : cbs' = a.callback.callables := by
      cases hc : a.callback <;> simp [hc, checkCallback] at h1 <;> simp [CbArg.callables, ← h1]
    rw [← this]; exact h

/-! ## C51 -/

/-- **C51.** A search that returns has one entry per subspace; in each subspace: without a request to stop
exactly `n_iter` candidates were evaluated, in batches of `n_points` (the last may be smaller); and the
result of the subspace lists, in order, the points of the candidates and as values the negated scores that
scikit-learn reported for these very candidates. -/
theorem C51_candidates_per_subspace (A : Arith F) (W : World F M R G) (ev : Evaluator F)
    (sc : List (Candidate F) → Candidate F → Flt F) (hev : Faithful ev sc) (a : SearchArgs F M G) (rng : R)
    (subs : List (SubSearch F M R G)) (h : bayesSearch A W ev a rng = (subs, .ok ())) :
    subs.length = a.spaces.elems.length ∧
    ∀ (k : Nat) (e : SearchElem F) (sub : SubSearch F M R G), a.spaces.elems[k]? = some e →
      subs[k]? = some sub → 0 < e.iters a.nIter →
      Batched a.nPoints sub.final.batches ∧
      (sub.evaluated.length : ℤ) ≤ e.iters a.nIter ∧
      (sub.Unstopped a.callback.callables → (sub.evaluated.length : ℤ) = e.iters a.nIter) ∧
      ∃ pts : List (Point F), sub.evaluated = pts.map (pointAsdict e.space) ∧
        sub.result.xIters = pts.map Val.seq ∧
        sub.result.funcVals =
          (scoresFrom sc ((subs.take k).flatMap SubSearch.evaluated) sub.evaluated).map (Flt.neg A) := by
  obtain ⟨cfg, os, rng', -, h1, h2⟩ := bayesSearch_ok h
  obtain ⟨g1, g2, -⟩ := makeOptimizers_ok h1
  obtain ⟨k1, k2⟩ := searchAll_ok hev g2 h2
  refine ⟨by rw [k1, ← g1, List.length_map], ?_⟩
  intro k e sub he hs hpos
  rw [← g1, List.getElem?_map] at he
  obtain ⟨⟨e', sh, o⟩, ho, rfl⟩ := Option.map_eq_some_iff.1 he
  obtain ⟨bs, rs, hist', q1, q2, q3, q4, q5, q6, q7, q8, q9, q10, q11, q12⟩ := k2 k e' sh o sub ho hs
  simp only
  have hev' : sub.evaluated = bs.flatten.map (pointAsdict e'.space) := by
    show sub.final.batches.flatten = _
    rw [q1, List.map_flatten]
  have hl : sub.evaluated.length = bs.flatten.length := by rw [hev', List.length_map]
  simp only at hpos
  refine ⟨q1 ▸ batched_map _ q2, by rw [hl]; omega, ?_, bs.flatten, hev', (q10 hpos).2.1, ?_⟩
  · intro hu
    rcases q4 with q4 | q4
    · rw [hl]; omega
    · exact absurd q4 hu
  · rw [(q10 hpos).2.2, hev']; simp

/-- A two-parameter search space. -/
def toySearch : SearchDict ℚ :=
  [("b", .real ⟨0, 10, .uniform, 10, .normalize, none, id⟩),
   ("a", .int ⟨1, 5, .uniform, 10, .normalize, none, id⟩)]

/-- Scores: the number of candidates evaluated before. -/
def toyScore (before : List (Candidate ℚ)) (_ : Candidate ℚ) : Flt ℚ := .fin before.length

/-- scikit-learn's part with these scores. -/
def toyEval : Evaluator ℚ := fun cs => .ok (scoresFrom toyScore [] cs)

/-- Two subspaces, the second with its own number of iterations; batches of two. -/
def toySearchArgs (cb : CbArg ℚ Nat) : SearchArgs ℚ Nat Unit where
  spaces := .list [.plain toySearch, .withIter toySearch 2]
  opt := { est := { isGP := true, hasGradients := true }, acq := some .EI, acqOptimizer := .sampling
           nPoints := 3, nInitialPoints := 1 }
  gen := none
  nIter := 3
  nPoints := 2
  callback := cb

/-- Non-vacuity of C51: a search over two subspaces, with the evaluated batch sizes, the keys of a
candidate and the recorded values.
Meets the hypotheses of `C51_candidates_per_subspace`, `C52_total_iterations_partial`, `C52_dict_total`,
`C65_stop_ends_subspace_partial`, `C66_results_per_subspace_partial`. -/
example : Faithful toyEval toyScore ∧
    (bayesSearch ratArith okWorld toyEval (toySearchArgs .none) 0).2 = .ok () ∧
    ((bayesSearch ratArith okWorld toyEval (toySearchArgs .none) 0).1.map fun s =>
      (s.final.batches.map List.length, s.result.funcVals)) =
      [([2, 1], [.fin 0, .fin (-1), .fin (-2)]), ([2], [.fin (-3), .fin (-4)])] ∧
    ((bayesSearch ratArith okWorld toyEval (toySearchArgs .none) 0).1.map fun s =>
      s.evaluated.map fun c => c.map Prod.fst) =
      [[["a", "b"], ["a", "b"], ["a", "b"]], [["a", "b"], ["a", "b"]]] := by
  refine ⟨fun cs s h => ?_, ?_, ?_, ?_⟩
  · simp only [toyEval, Except.ok.injEq] at h; exact h.symm
  · decide +kernel
  · decide +kernel
  · decide +kernel

/-! ## C52 -/

theorem foldl_add_sum {α : Type} (f : α → ℤ) (l : List α) (t : ℤ) :
    l.foldl (fun t e => t + f e) t = t + (l.map f).sum := by
  induction l generalizing t with
  | nil => simp
  | cons x l ih => rw [List.foldl_cons, ih, List.map_cons, List.sum_cons]; omega

/-- **C52**, for lists of search spaces.  Missing for the full property: a single dict as search space, for
which `total_iterations` multiplies `n_iter` with the number of parameters
(`C52_refuted_single_dict`).  For a search that returns and was not stopped, with non-negative numbers
of iterations, `total_iterations` is the number of evaluated candidates. -/
theorem C52_total_iterations_partial (A : Arith F) (W : World F M R G) (ev : Evaluator F)
    (sc : List (Candidate F) → Candidate F → Flt F) (hev : Faithful ev sc) (a : SearchArgs F M G) (rng : R)
    (subs : List (SubSearch F M R G)) (h : bayesSearch A W ev a rng = (subs, .ok ()))
    (es : List (SearchElem F)) (hes : a.spaces = .list es) (hn : 0 ≤ a.nIter)
    (hgo : ∀ s ∈ subs, s.Unstopped a.callback.callables) :
    totalIterations a.nIter a.spaces = ((subs.flatMap SubSearch.evaluated).length : ℤ) := by
  obtain ⟨cfg, os, rng', h0, h1, h2⟩ := bayesSearch_ok h
  obtain ⟨g1, g2, -⟩ := makeOptimizers_ok h1
  obtain ⟨k1, k2⟩ := searchAll_ok hev g2 h2
  have hel : a.spaces.elems = es := by rw [hes]; rfl
  rw [hel] at g1
  have hlen : subs.length = es.length := by rw [k1, ← g1, List.length_map]
  have hnn : ∀ e ∈ es, 0 ≤ e.iters a.nIter := by
    intro e he
    rw [hes] at h0
    simp only [checkSearchSpaces] at h0
    split at h0
    · cases h0
    · split at h0
      · next hall =>
        have := List.all_eq_true.1 hall e he
        cases e with
        | plain s => exact hn
        | withIter s n => exact of_decide_eq_true this
      · cases h0
  have hf : List.Forall₂ (fun (e : SearchElem F) (s : SubSearch F M R G) =>
      e.iters a.nIter = (s.evaluated.length : ℤ)) es subs := by
    rw [List.forall₂_iff_get]
    refine ⟨hlen.symm, fun k hk1 hk2 => ?_⟩
    have hk3 : k < os.length := by omega
    have ho : os[k]? = some (os[k].1, os[k].2.1, os[k].2.2) := by rw [List.getElem?_eq_getElem hk3]
    have hs : subs[k]? = some subs[k] := List.getElem?_eq_getElem hk2
    obtain ⟨bs, rs, hist', q1, q2, q3, q4, -⟩ := k2 k _ _ _ _ ho hs
    have hek : es[k] = os[k].1 := by simp [← g1]
    simp only [List.get_eq_getElem]
    have := hnn es[k] (List.getElem_mem _)
    rcases q4 with q4 | q4
    · have hl : subs[k].evaluated.length = bs.flatten.length := by
        show subs[k].final.batches.flatten.length = _
        rw [q1, ← List.map_flatten, List.length_map]
      rw [hl, hek] at *
      omega
    · exact absurd q4 (hgo _ (List.getElem_mem _))
  rw [hes]
  simp only [totalIterations]
  rw [foldl_add_sum]
  clear hgo k1 k2 hlen hnn h2 h g1 hel hes
  induction hf with
  | nil => simp
  | cons hab _ ih =>
    simp only [List.map_cons, List.sum_cons, List.flatMap_cons, List.length_append, Nat.cast_add]
    omega

/-- **C52 is false for a single dict**: one subspace with two parameters and three iterations evaluates
three candidates, but `total_iterations` is six. -/
theorem C52_refuted_single_dict :
    let a : SearchArgs ℚ Nat Unit := { toySearchArgs .none with spaces := .dict toySearch }
    (bayesSearch ratArith okWorld toyEval a 0).2 = .ok () ∧
    ((bayesSearch ratArith okWorld toyEval a 0).1.flatMap SubSearch.evaluated).length = 3 ∧
    totalIterations a.nIter a.spaces = 6 := by
  refine ⟨?_, ?_, ?_⟩ <;> decide +kernel

omit [LinearOrder F] in
/-- For every dict search space `total_iterations` is `n_iter` times the number of parameters. -/
theorem C52_dict_total (nIter : ℤ) (s : SearchDict F) :
    totalIterations nIter (.dict s) = s.length * nIter := by
  simp only [totalIterations]
  rw [foldl_add_sum (fun _ => nIter)]
  simp

/-! ## C64 -/

omit [LinearOrder F] in
theorem mem_zip_get {α β : Type} {ks : List α} {vs : List β} {k : α} {v : β} (h : (k, v) ∈ ks.zip vs) :
    ∃ i : Nat, ks[i]? = some k ∧ vs[i]? = some v := by
  obtain ⟨i, hi, he⟩ := List.mem_iff_getElem.1 h
  have h1 : i < ks.length := by simp at hi; omega
  have h2 : i < vs.length := by simp at hi; omega
  rw [List.getElem_zip, Prod.mk.injEq] at he
  exact ⟨i, by rw [List.getElem?_eq_getElem h1, he.1], by rw [List.getElem?_eq_getElem h2, he.2]⟩

theorem proper_candidate {space : SearchDict F} (hk : (space.map Prod.fst).Nodup) {dims : List (Dim F)}
    (hd : dimensionsAslist space = .ok dims) {p : Point F} (hp : List.Forall₂ Within dims p) :
    ProperCandidate space (pointAsdict space p) := by
  have hlk : (sortedKeys space).length = space.length := by
    rw [(sortedKeys_perm space).length_eq, List.length_map]
  have hld : dims.length = (sortedKeys space).length := mapE_length hd
  have hl : p.length = space.length := by rw [← hp.length_eq]; omega
  obtain ⟨⟨ks, h1, h2, h3, h4⟩, -, -⟩ := C12_point_dict_round_trip space hk p hl
  have hks : ks = sortedKeys space := by
    refine List.Perm.eq_of_pairwise (le := fun a b => a ≤ b) (fun a b _ _ => le_antisymm)
      (h2.imp le_of_lt) ?_ (h1.trans (sortedKeys_perm space).symm)
    exact List.pairwise_insertionSort _ _
  rw [h3]
  constructor
  · rw [List.map_fst_zip (by omega)]; exact h1
  · intro k d v hkd hkv
    obtain ⟨i, hi1, hi2⟩ := mem_zip_get hkv
    rw [hks] at hi1
    have hF := mapE_forall₂ hd
    rw [List.forall₂_iff_get] at hF hp
    obtain ⟨hi1', e1⟩ := List.getElem?_eq_some_iff.1 hi1
    obtain ⟨hi2', e2⟩ := List.getElem?_eq_some_iff.1 hi2
    have a1 := hF.2 i hi1' (by omega)
    have a2 := hp.2 i (by omega) hi2'
    simp only [List.get_eq_getElem] at a1 a2
    rw [e2] at a2
    rw [e1] at a1
    have : dictGet space k = .ok d := dictGet_of_mem hk hkd
    rw [this] at a1
    injection a1 with a1
    rw [a1]
    exact a2

/-- **C64.** If the initial point generator leaves the ranges of the dimensions alone and the keys of the
search spaces are distinct (as in any dict), then every candidate evaluated in a search that returns assigns a
value to exactly the parameters of its subspace, each within the dimension given for this parameter. -/
theorem C64_candidates_belong_to_subspace (A : Arith F) (W : World F M R G) (hW : KeepsRanges W)
    (ev : Evaluator F) (sc : List (Candidate F) → Candidate F → Flt F) (hev : Faithful ev sc)
    (a : SearchArgs F M G) (hkeys : ∀ e ∈ a.spaces.elems, (e.space.map Prod.fst).Nodup) (rng : R)
    (subs : List (SubSearch F M R G)) (h : bayesSearch A W ev a rng = (subs, .ok ()))
    (k : Nat) (e : SearchElem F) (sub : SubSearch F M R G) (he : a.spaces.elems[k]? = some e)
    (hs : subs[k]? = some sub) :
    ∀ c ∈ sub.evaluated, ProperCandidate e.space c := by
  obtain ⟨cfg, os, rng', -, h1, h2⟩ := bayesSearch_ok h
  obtain ⟨g1, g2, g3⟩ := makeOptimizers_ok h1
  obtain ⟨k1, k2⟩ := searchAll_ok hev g2 h2
  have he' := he
  rw [← g1, List.getElem?_map] at he
  obtain ⟨⟨e', sh, o⟩, ho, rfl⟩ := Option.map_eq_some_iff.1 he
  obtain ⟨bs, rs, hist', q1, q2, q3, q4, q5, q6, q7, q8, q9, q10, q11, q12⟩ := k2 k e' sh o sub ho hs
  obtain ⟨dims, hd, hr⟩ := g3 hW _ (List.mem_of_getElem? ho)
  have hev' : sub.evaluated = bs.flatten.map (pointAsdict e'.space) := by
    show sub.final.batches.flatten = _
    rw [q1, List.map_flatten]
  intro c hc
  rw [hev'] at hc
  obtain ⟨p, hp, rfl⟩ := List.mem_map.1 hc
  exact proper_candidate (hkeys _ (List.mem_of_getElem? he')) hd
    ((sameRange_within hr p).2 (q12.1 hW p hp))

/-- Non-vacuity of C64: the example world keeps ranges, and a candidate of the example search. -/
example : KeepsRanges okWorld ∧ (toySearch.map Prod.fst).Nodup ∧
    ((bayesSearch ratArith okWorld toyEval (toySearchArgs .none) 0).1.map fun s =>
      s.evaluated.head?) =
      [some [("a", .num 3), ("b", .num 5)], some [("a", .num 3), ("b", .num 5)]] := by
  refine ⟨fun g dims n r => sameRange_refl _, by decide +kernel, by decide +kernel⟩

/-! ## C65 -/

/-- **C65**, within a subspace.  Missing for the full property: a request to stop ends only the search of the
current subspace (`C65_refuted_two_subspaces`).  In a search that returns, every callback is called
once per batch, in order, with the result after that batch, and no batch of the subspace follows a request to
stop. -/
theorem C65_stop_ends_subspace_partial (A : Arith F) (W : World F M R G) (ev : Evaluator F)
    (sc : List (Candidate F) → Candidate F → Flt F) (hev : Faithful ev sc) (a : SearchArgs F M G) (rng : R)
    (subs : List (SubSearch F M R G)) (h : bayesSearch A W ev a rng = (subs, .ok ()))
    (k : Nat) (sub : SubSearch F M R G) (hs : subs[k]? = some sub) :
    ∃ rs before : List (Result F M), rs.length = sub.final.batches.length ∧
      before = (if k = 0 then [] else ((subs[k - 1]?).map fun s => s.final.hist).getD []) ∧
      sub.final.hist = before ++ rs ∧
      sub.final.calls = traceOf a.callback.callables before (rs.map fun r => ([], r)) ∧
      ∀ j, j + 1 < sub.final.batches.length →
        ¬ Stops a.callback.callables (before ++ rs.take (j + 1)) := by
  obtain ⟨cfg, os, rng', -, h1, h2⟩ := bayesSearch_ok h
  obtain ⟨g1, g2, g3⟩ := makeOptimizers_ok h1
  obtain ⟨k1, k2⟩ := searchAll_ok hev g2 h2
  have hk : k < os.length := by rw [← k1]; exact (List.getElem?_eq_some_iff.1 hs).1
  have ho : os[k]? = some (os[k].1, os[k].2.1, os[k].2.2) := by rw [List.getElem?_eq_getElem hk]
  obtain ⟨bs, rs, hist', q1, q2, q3, q4, q5, q6, q7, q8, q9, -⟩ := k2 k _ _ _ sub ho hs
  have hb : sub.final.batches.length = bs.length := by rw [q1, List.length_map]
  exact ⟨rs, hist', by omega, q9, q6, q8, fun j hj => q7 j (by omega)⟩

/-- A callback that always asks to stop. -/
def stopNow : Callback ℚ Nat := fun _ => .ok (some true)

/-- **C65 is false for several subspaces**: with a callback that asks to stop at once, the second
subspace is searched nevertheless. -/
theorem C65_refuted_two_subspaces :
    (bayesSearch ratArith okWorld toyEval (toySearchArgs (.one stopNow)) 0).2 = .ok () ∧
    ((bayesSearch ratArith okWorld toyEval (toySearchArgs (.one stopNow)) 0).1.map fun s =>
      s.final.batches.map List.length) = [[2], [2]] ∧
    Stops [stopNow] (((bayesSearch ratArith okWorld toyEval (toySearchArgs (.one stopNow)) 0).1.map
      fun s => s.final.hist).headD []) := by
  refine ⟨by decide +kernel, by decide +kernel, stopNow, by simp, rfl⟩

/-! ## C66 -/

/-- **C66**, for positive numbers of iterations.  Missing for the full property: subspaces with no
iterations (`C66_refuted_*`).  The `k`-th entry of `optimizer_results_` is what the `k`-th optimizer's
`get_result` returns at the end. -/
theorem C66_results_per_subspace_partial (A : Arith F) (W : World F M R G) (ev : Evaluator F)
    (sc : List (Candidate F) → Candidate F → Flt F) (hev : Faithful ev sc) (a : SearchArgs F M G) (rng : R)
    (subs : List (SubSearch F M R G)) (h : bayesSearch A W ev a rng = (subs, .ok ()))
    (k : Nat) (e : SearchElem F) (sub : SubSearch F M R G) (he : a.spaces.elems[k]? = some e)
    (hs : subs[k]? = some sub) (hpos : 0 < e.iters a.nIter) :
    (sub.result.xIters.map Val.items).map (pointAsdict e.space) = sub.evaluated ∧
    sub.result.funcVals.length = sub.evaluated.length ∧ sub.evaluated ≠ [] ∧
    getResult sub.final.opt = .ok sub.result := by
  obtain ⟨h1, h2⟩ := C51_candidates_per_subspace A W ev sc hev a rng subs h
  obtain ⟨_, _, _, pts, g1, g2, g3⟩ := h2 k e sub he hs hpos
  refine ⟨?_, ?_, ?_, ?_⟩
  · rw [g1, g2, List.map_map, List.map_map]
    rfl
  · rw [g3, List.length_map, scoresFrom_length]
  · obtain ⟨cfg, os, rng', -, h1, h2⟩ := bayesSearch_ok h
    obtain ⟨w1, w2, w3⟩ := makeOptimizers_ok h1
    obtain ⟨k1, k2⟩ := searchAll_ok hev w2 h2
    rw [← w1, List.getElem?_map] at he
    obtain ⟨⟨e', sh, o⟩, ho, rfl⟩ := Option.map_eq_some_iff.1 he
    obtain ⟨bs, rs, hist', q1, q2, q3, q4, q5, q6, q7, q8, q9, q10, q11, q12⟩ := k2 k e' sh o sub ho hs
    have hrs := (q10 hpos).1
    intro h0
    cases bs with
    | nil => exact hrs (List.length_eq_zero_iff.1 q5)
    | cons b bs =>
      have := (q2 [] b bs rfl).1
      have h0' : sub.final.batches.flatten = [] := h0
      rw [q1] at h0'
      simp at h0'
      rw [h0'.1] at this
      simp at this
  · obtain ⟨cfg, os, rng', -, h1, h2⟩ := bayesSearch_ok h
    obtain ⟨w1, w2, w3⟩ := makeOptimizers_ok h1
    obtain ⟨k1, k2⟩ := searchAll_ok hev w2 h2
    rw [← w1, List.getElem?_map] at he
    obtain ⟨⟨e', sh, o⟩, ho, rfl⟩ := Option.map_eq_some_iff.1 he
    obtain ⟨bs, rs, hist', -, -, -, -, -, -, -, -, -, -, -, -, q13⟩ := k2 k e' sh o sub ho hs
    exact q13 hpos

/-- **C66 is false for a subspace without iterations (stale entry).** In every search that returns, the entry of
such a subspace repeats the entry of the subspace before it. -/
theorem C66_refuted_stale_result (A : Arith F) (W : World F M R G) (ev : Evaluator F)
    (sc : List (Candidate F) → Candidate F → Flt F) (hev : Faithful ev sc) (a : SearchArgs F M G) (rng : R)
    (subs : List (SubSearch F M R G)) (h : bayesSearch A W ev a rng = (subs, .ok ()))
    (k : Nat) (e : SearchElem F) (sub prev : SubSearch F M R G)
    (he : a.spaces.elems[k + 1]? = some e) (hs : subs[k + 1]? = some sub) (hp : subs[k]? = some prev)
    (hneg : e.iters a.nIter ≤ 0) : sub.result = prev.result := by
  obtain ⟨cfg, os, rng', -, h1, h2⟩ := bayesSearch_ok h
  obtain ⟨g1, g2, -⟩ := makeOptimizers_ok h1
  obtain ⟨k1, k2⟩ := searchAll_ok hev g2 h2
  rw [← g1, List.getElem?_map] at he
  obtain ⟨⟨e', sh, o⟩, ho, rfl⟩ := Option.map_eq_some_iff.1 he
  obtain ⟨bs, rs, hist', q1, q2, q3, q4, q5, q6, q7, q8, q9, q10, q11, q12⟩ := k2 (k + 1) e' sh o sub ho hs
  have := q11 hneg
  simpa [hp] using this

/-- **C66 is false for a first subspace without iterations**: such a search never returns; it ends in
`UnboundLocalError` although `(space, 0)` is accepted by the constructor. -/
theorem C66_refuted_first_without_iterations (A : Arith F) (W : World F M R G) (ev : Evaluator F)
    (sc : List (Candidate F) → Candidate F → Flt F) (hev : Faithful ev sc) (a : SearchArgs F M G) (rng : R)
    (e : SearchElem F) (he : a.spaces.elems[0]? = some e) (hneg : e.iters a.nIter ≤ 0) :
    ∃ err, (bayesSearch A W ev a rng).2 = .error err := by
  cases h : (bayesSearch A W ev a rng).2 with
  | error err => exact ⟨err, rfl⟩
  | ok u =>
    exfalso
    obtain ⟨subs, hsubs⟩ : ∃ subs, bayesSearch A W ev a rng = (subs, .ok ()) := ⟨_, Prod.ext rfl h⟩
    obtain ⟨cfg, os, rng', -, h1, h2⟩ := bayesSearch_ok hsubs
    obtain ⟨g1, g2, -⟩ := makeOptimizers_ok h1
    obtain ⟨k1, k2⟩ := searchAll_ok hev g2 h2
    rw [← g1, List.getElem?_map] at he
    obtain ⟨⟨e', sh, o⟩, ho, rfl⟩ := Option.map_eq_some_iff.1 he
    have hlt : 0 < subs.length := by rw [k1]; exact (List.getElem?_eq_some_iff.1 ho).1
    obtain ⟨bs, rs, hist', q1, q2, q3, q4, q5, q6, q7, q8, q9, q10, q11, q12⟩ :=
      k2 0 e' sh o _ ho (List.getElem?_eq_getElem hlt)
    have := q11 hneg
    simp at this

/-- Witnesses of both: an entry that belongs to another subspace, and the exception. -/
example :
    let a : SearchArgs ℚ Nat Unit := { toySearchArgs .none with
      spaces := .list [.plain toySearch, .withIter toySearch 0] }
    let b : SearchArgs ℚ Nat Unit := { toySearchArgs .none with
      spaces := .list [.withIter toySearch 0, .plain toySearch] }
    (bayesSearch ratArith okWorld toyEval a 0).2 = .ok () ∧
    ((bayesSearch ratArith okWorld toyEval a 0).1.map fun s => (s.evaluated.length, s.result.funcVals.length))
      = [(3, 3), (0, 3)] ∧
    (bayesSearch ratArith okWorld toyEval b 0).2 = .error .unboundLocalError ∧
    checkSearchSpaces b.spaces = .ok () := by
  refine ⟨?_, ?_, ?_, ?_⟩ <;> decide +kernel

/-! ## Search spaces that are refused -/

/-- **C51, refused search spaces.** An empty dict, an empty list, and a list in which some number of iterations is
negative raise `ValueError` before anything is evaluated. -/
theorem C51_refused (A : Arith F) (W : World F M R G) (ev : Evaluator F) (a : SearchArgs F M G) (rng : R)
    (h : a.spaces = .dict [] ∨ ∃ es, a.spaces = .list es ∧ (es = [] ∨ ∃ s n, .withIter s n ∈ es ∧ n < 0)) :
    bayesSearch A W ev a rng = ([], .error .valueError) := by
  have hc : checkSearchSpaces a.spaces = .error .valueError := by
    rcases h with h | ⟨es, h, rfl | ⟨s, n, hm, hn⟩⟩
    · rw [h]; rfl
    · rw [h]; rfl
    · rw [h]
      simp only [checkSearchSpaces]
      rw [if_neg (by rintro h0; rw [List.length_eq_zero_iff.1 h0] at hm; cases hm), if_neg]
      intro hall
      have := List.all_eq_true.1 hall _ hm
      simp only [decide_eq_true_eq] at this
      omega
  simp only [bayesSearch, hc, error_bind]

example : ∃ (es : List (SearchElem ℚ)) (s : SearchDict ℚ) (n : ℤ), .withIter s n ∈ es ∧ n < 0 :=
  ⟨[.plain [], .withIter [] (-1)], [], -1, by simp, by norm_num⟩

end Skopt

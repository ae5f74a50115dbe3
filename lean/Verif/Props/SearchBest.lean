import Verif.Props.SearchCV
import Verif.Props.Checkpoint

/-!
# C95: the best candidate of a search
-/

namespace Skopt

variable {F M R G : Type}

/-- `b` is the position of the first greatest element of `ys` (scikit-learn's `best_index_` for the scores `ys`). -/
def FirstGreatest [LinearOrder F] (ys : List F) (b : Nat) : Prop :=
  ∃ y, ys[b]? = some y ∧ (∀ z ∈ ys, z ≤ y) ∧ ∀ i z, i < b → ys[i]? = some z → z < y

theorem flatMap_locate {α β : Type} (f : α → List β) {l : List α} {b : Nat} {c : β}
    (h : (l.flatMap f)[b]? = some c) :
    ∃ (k : Nat) (a : α) (i : Nat), l[k]? = some a ∧ (f a)[i]? = some c ∧ b = ((l.take k).flatMap f).length + i := by
  induction l generalizing b with
  | nil => simp at h
  | cons x l ih =>
    rw [List.flatMap_cons] at h
    by_cases hb : b < (f x).length
    · rw [List.getElem?_append_left hb] at h
      exact ⟨0, x, b, rfl, h, by simp⟩
    · rw [List.getElem?_append_right (by omega)] at h
      obtain ⟨k, a, i, h1, h2, h3⟩ := ih h
      refine ⟨k + 1, a, i, h1, h2, ?_⟩
      rw [List.take_succ_cons, List.flatMap_cons, List.length_append]
      omega

theorem flatMap_split {α β : Type} (f : α → List β) {l : List α} {k : Nat} {a : α} (h : l[k]? = some a) :
    l.flatMap f = (l.take k).flatMap f ++ (f a ++ (l.drop (k + 1)).flatMap f) := by
  obtain ⟨hk, rfl⟩ := List.getElem?_eq_some_iff.1 h
  conv_lhs => rw [← List.take_append_drop k l, List.drop_eq_getElem_cons hk]
  rw [List.flatMap_append, List.flatMap_cons]

variable [LinearOrder F]

theorem firstLeast_unique {ys : List F} {a b : Nat} (ha : FirstLeast ys a) (hb : FirstLeast ys b) : a = b := by
  obtain ⟨y, h1, h2, h3⟩ := ha
  obtain ⟨z, g1, g2, g3⟩ := hb
  rcases lt_trichotomy a b with h | h | h
  · exact absurd (g3 a y h h1) (not_lt.2 (h2 z (List.mem_of_getElem? g1)))
  · exact h
  · exact absurd (h3 b z h g1) (not_lt.2 (g2 y (List.mem_of_getElem? h1)))

theorem firstGreatest_neg {ys : List F} {b : Nat} {f : F → F} (hf : StrictAnti f) (h : FirstGreatest ys b) :
    FirstLeast (ys.map f) b := by
  obtain ⟨y, h1, h2, h3⟩ := h
  refine ⟨f y, by rw [List.getElem?_map, h1]; rfl, ?_, ?_⟩
  · intro z hz
    obtain ⟨w, hw, rfl⟩ := List.mem_map.1 hz
    exact hf.antitone (h2 w hw)
  · intro i z hi hz
    rw [List.getElem?_map] at hz
    obtain ⟨w, hw, rfl⟩ := Option.map_eq_some_iff.1 hz
    exact hf (h3 i w hi hw)

theorem firstGreatest_segment {p m q : List F} {i : Nat} (h : FirstGreatest (p ++ (m ++ q)) (p.length + i))
    (hi : i < m.length) : FirstGreatest m i := by
  obtain ⟨y, h1, h2, h3⟩ := h
  rw [List.getElem?_append_right (by omega), List.getElem?_append_left (by omega)] at h1
  refine ⟨y, by simpa using h1, fun z hz => h2 z (by simp [hz]), ?_⟩
  intro j z hj hz
  refine h3 (p.length + j) z (by omega) ?_
  rw [List.getElem?_append_right (by omega), List.getElem?_append_left (by omega)]
  simpa using hz

/-- The entry of `optimizer_results_` of a subspace with finite scores describes the first of its candidates with the
highest score. -/
theorem C95_subspace_best_partial (A : Arith F) (hneg : StrictAnti (A.sub (A.ofInt 0))) (W : World F M R G)
    (ev : Evaluator F) (sc : List (Candidate F) → Candidate F → Flt F) (hev : Faithful ev sc)
    (a : SearchArgs F M G) (rng : R) (subs : List (SubSearch F M R G))
    (h : bayesSearch A W ev a rng = (subs, .ok ())) (k : Nat) (e : SearchElem F) (sub : SubSearch F M R G)
    (he : a.spaces.elems[k]? = some e) (hs : subs[k]? = some sub) (hpos : 0 < e.iters a.nIter)
    (ss : List F) (hss : scoresFrom sc ((subs.take k).flatMap SubSearch.evaluated) sub.evaluated = ss.map Flt.fin)
    (b : Nat) (hb : FirstGreatest ss b) :
    ∃ s, ss[b]? = some s ∧ sub.result.fun_ = .fin (A.sub (A.ofInt 0) s) ∧
      sub.evaluated[b]? = some (pointAsdict e.space sub.result.x.items) := by
  obtain ⟨-, h2⟩ := C51_candidates_per_subspace A W ev sc hev a rng subs h
  obtain ⟨_, _, _, pts, g1, g2, g3⟩ := h2 k e sub he hs hpos
  obtain ⟨-, -, -, g4⟩ := C66_results_per_subspace_partial A W ev sc hev a rng subs h k e sub he hs hpos
  have g3' : sub.result.funcVals = (ss.map (A.sub (A.ofInt 0))).map Flt.fin := by
    rw [g3, hss, List.map_map, List.map_map]
    rfl
  obtain ⟨b', v, f1, f2, f3, f4⟩ := createResult_best g4 g3'
  obtain rfl : b' = b := firstLeast_unique f1 (firstGreatest_neg hneg hb)
  rw [List.getElem?_map] at f3
  obtain ⟨s, hs1, rfl⟩ := Option.map_eq_some_iff.1 f3
  refine ⟨s, hs1, f4, ?_⟩
  rw [g2, List.getElem?_map] at f2
  obtain ⟨p, hp, hx⟩ := Option.map_eq_some_iff.1 f2
  rw [g1, List.getElem?_map, hp, ← hx]
  rfl

/-- **C95.** After a search in which all scores were finite and every subspace had iterations, scikit-learn's
`best_index_`, `best_params_` and `best_score_` (the first candidate of all subspaces with the highest mean test score)
agree with `optimizer_results_`: one entry has that candidate as `x` and the negated score as `fun`; no entry has a
smaller `fun`, and the entries before it have greater ones.

Missing: scores that are NaN (`C95_refuted_nan`) and subspaces without iterations (C66). -/
theorem C95_best_agrees_partial (A : Arith F) (hneg : StrictAnti (A.sub (A.ofInt 0))) (W : World F M R G)
    (ev : Evaluator F) (sc : List (Candidate F) → Candidate F → Flt F) (hev : Faithful ev sc)
    (a : SearchArgs F M G) (rng : R) (subs : List (SubSearch F M R G))
    (h : bayesSearch A W ev a rng = (subs, .ok ())) (hpos : ∀ e ∈ a.spaces.elems, 0 < e.iters a.nIter)
    (ss : List F) (hss : scoresFrom sc [] (subs.flatMap SubSearch.evaluated) = ss.map Flt.fin)
    (b : Nat) (hb : FirstGreatest ss b) :
    ∃ (k : Nat) (e : SearchElem F) (sub : SubSearch F M R G) (s : F),
      a.spaces.elems[k]? = some e ∧ subs[k]? = some sub ∧ ss[b]? = some s ∧
      (subs.flatMap SubSearch.evaluated)[b]? = some (pointAsdict e.space sub.result.x.items) ∧
      sub.result.fun_ = .fin (A.sub (A.ofInt 0) s) ∧
      (∀ sub' ∈ subs, sub.result.fun_ ≤ sub'.result.fun_) ∧
      ∀ j sub', j < k → subs[j]? = some sub' → sub.result.fun_ < sub'.result.fun_ := by
  obtain ⟨hlen, -⟩ := C51_candidates_per_subspace A W ev sc hev a rng subs h
  -- the scores of one subspace are a segment of all scores
  have seg : ∀ (k : Nat) (sub : SubSearch F M R G), subs[k]? = some sub → ∃ p m q : List F, ss = p ++ (m ++ q) ∧
      p.length = ((subs.take k).flatMap SubSearch.evaluated).length ∧ m.length = sub.evaluated.length ∧
      scoresFrom sc ((subs.take k).flatMap SubSearch.evaluated) sub.evaluated = m.map Flt.fin := by
    intro k sub hk
    rw [flatMap_split _ hk, scoresFrom_append, scoresFrom_append, List.nil_append] at hss
    obtain ⟨p, r, e1, e2, e3⟩ := List.map_eq_append_iff.1 hss.symm
    obtain ⟨m, q, e4, e5, e6⟩ := List.map_eq_append_iff.1 e3
    refine ⟨p, m, q, by rw [e1, e4], ?_, ?_, e5.symm⟩
    · have := congrArg List.length e2
      rwa [List.length_map, scoresFrom_length] at this
    · have := congrArg List.length e5
      rwa [List.length_map, scoresFrom_length] at this
  have elem : ∀ (k : Nat) (sub : SubSearch F M R G), subs[k]? = some sub → ∃ e, a.spaces.elems[k]? = some e ∧
      0 < e.iters a.nIter := by
    intro k sub hk
    have hk' : k < a.spaces.elems.length := by
      rw [← hlen]; exact (List.getElem?_eq_some_iff.1 hk).1
    exact ⟨_, List.getElem?_eq_getElem hk', hpos _ (List.getElem_mem hk')⟩
  -- every entry attains the negated score of one of its candidates
  have attained : ∀ (k : Nat) (sub : SubSearch F M R G), subs[k]? = some sub → ∃ (i : Nat) (z : F),
      i < sub.evaluated.length ∧ ss[((subs.take k).flatMap SubSearch.evaluated).length + i]? = some z ∧
      sub.result.fun_ = .fin (A.sub (A.ofInt 0) z) := by
    intro k sub hk
    obtain ⟨e, he, hp⟩ := elem k sub hk
    obtain ⟨p, m, q, e1, e2, e3, e4⟩ := seg k sub hk
    obtain ⟨-, h2⟩ := C51_candidates_per_subspace A W ev sc hev a rng subs h
    obtain ⟨_, _, _, pts, g1, g2, g3⟩ := h2 k e sub he hk hp
    obtain ⟨-, -, -, g4⟩ := C66_results_per_subspace_partial A W ev sc hev a rng subs h k e sub he hk hp
    obtain ⟨i, v, f1, f2, f3, f4⟩ := createResult_best (vs := m.map (A.sub (A.ofInt 0))) g4
      (by rw [g3, e4, List.map_map, List.map_map]; rfl)
    rw [List.getElem?_map] at f3
    obtain ⟨z, hz, rfl⟩ := Option.map_eq_some_iff.1 f3
    have hi : i < m.length := (List.getElem?_eq_some_iff.1 hz).1
    refine ⟨i, z, by omega, ?_, f4⟩
    rw [e1, ← e2, List.getElem?_append_right (by omega), List.getElem?_append_left (by omega)]
    simpa using hz
  obtain ⟨s, hs, hmax, hfirst⟩ := hb
  obtain ⟨c, hc⟩ : ∃ c, (subs.flatMap SubSearch.evaluated)[b]? = some c := by
    have := congrArg List.length hss
    rw [scoresFrom_length, List.length_map] at this
    have hb' : b < (subs.flatMap SubSearch.evaluated).length := by
      rw [this]; exact (List.getElem?_eq_some_iff.1 hs).1
    exact ⟨_, List.getElem?_eq_getElem hb'⟩
  obtain ⟨k, sub, i, k1, k2, k3⟩ := flatMap_locate _ hc
  obtain ⟨e, he, hp⟩ := elem k sub k1
  obtain ⟨p, m, q, e1, e2, e3, e4⟩ := seg k sub k1
  have hi : i < m.length := by rw [e3]; exact (List.getElem?_eq_some_iff.1 k2).1
  have hm : FirstGreatest m i := by
    refine firstGreatest_segment (p := p) (q := q) ?_ hi
    rw [← e1, e2, ← k3]
    exact ⟨s, hs, hmax, hfirst⟩
  obtain ⟨s', f1, f2, f3⟩ := C95_subspace_best_partial A hneg W ev sc hev a rng subs h k e sub he k1 hp m e4 i hm
  have hss' : s' = s := by
    have : ss[b]? = some s' := by
      rw [e1, k3, ← e2, List.getElem?_append_right (by omega), List.getElem?_append_left (by omega)]
      simpa using f1
    rw [hs] at this
    exact (Option.some.inj this).symm
  subst hss'
  rw [k2] at f3
  refine ⟨k, e, sub, s', he, k1, hs, by rw [hc, ← Option.some.inj f3], f2, ?_, ?_⟩
  · intro sub' hsub'
    obtain ⟨j, hj⟩ := List.getElem?_of_mem hsub'
    obtain ⟨i', z, -, z1, z2⟩ := attained j sub' hj
    rw [f2, z2]
    exact Flt.fin_le_fin.2 (hneg.antitone (hmax z (List.mem_of_getElem? z1)))
  · intro j sub' hj hsub'
    obtain ⟨i', z, i1, z1, z2⟩ := attained j sub' hsub'
    rw [f2, z2]
    refine Flt.fin_lt_fin.2 (hneg (hfirst _ z ?_ z1))
    have hpre : ((subs.take k).flatMap SubSearch.evaluated).length ≥
        ((subs.take j).flatMap SubSearch.evaluated).length + sub'.evaluated.length := by
      have hj' : (subs.take k)[j]? = some sub' := by rw [List.getElem?_take_of_lt hj]; exact hsub'
      rw [flatMap_split _ hj', List.take_take, Nat.min_eq_left hj.le]
      simp only [List.length_append]
      omega
    omega

/-- Negation of rational numbers is strictly decreasing. -/
theorem ratArith_neg : StrictAnti (ratArith.sub (ratArith.ofInt 0)) := by
  intro x y h
  show (((0 : ℤ) : ℚ) - y) < ((0 : ℤ) : ℚ) - x
  linarith

/-- Scores that rise and fall: the third of five candidates, the last of the first subspace, is the best. -/
def humpScore (before : List (Candidate ℚ)) (_ : Candidate ℚ) : Flt ℚ :=
  .fin (if before.length ≤ 2 then before.length else 1)

/-- scikit-learn's part with these scores. -/
def humpEval : Evaluator ℚ := fun cs => .ok (scoresFrom humpScore [] cs)

/-- Non-vacuity of C95: five candidates in two subspaces with scores 0, 1, 2, 1, 1.
Meets the hypotheses of `C95_subspace_best_partial`, `C95_best_agrees_partial`. -/
example : Faithful humpEval humpScore ∧
    (bayesSearch ratArith okWorld humpEval (toySearchArgs .none) 0).2 = .ok () ∧
    (∀ e ∈ (toySearchArgs (CbArg.none)).spaces.elems, 0 < e.iters (toySearchArgs (CbArg.none)).nIter) ∧
    scoresFrom humpScore [] ((bayesSearch ratArith okWorld humpEval (toySearchArgs .none) 0).1.flatMap
      SubSearch.evaluated) = [0, 1, 2, 1, 1].map Flt.fin ∧
    FirstGreatest ([0, 1, 2, 1, 1] : List ℚ) 2 ∧
    ((bayesSearch ratArith okWorld humpEval (toySearchArgs .none) 0).1.map fun s => s.result.fun_) =
      [.fin (-2), .fin (-1)] := by
  refine ⟨fun cs s h => ?_, by decide +kernel, ?_, by decide +kernel, ⟨2, rfl, ?_, ?_⟩, by decide +kernel⟩
  · simp only [humpEval, Except.ok.injEq] at h; exact h.symm
  · intro e he
    simp only [toySearchArgs, SearchSpaces.elems, List.mem_cons, List.not_mem_nil, or_false] at he
    rcases he with rfl | rfl <;> simp [SearchElem.iters, toySearchArgs]
  · decide +kernel
  · intro i z hi hz
    match i, hi with
    | 0, _ => cases hz; norm_num
    | 1, _ => cases hz; norm_num

/-- The second candidate cannot be scored (`error_score=np.nan`). -/
def nanScore (before : List (Candidate ℚ)) (_ : Candidate ℚ) : Flt ℚ :=
  if before.length = 1 then .nan else .fin before.length

/-- scikit-learn's part with these scores. -/
def nanEval : Evaluator ℚ := fun cs => .ok (scoresFrom nanScore [] cs)

/-- One subspace, three candidates evaluated one by one. -/
def nanSearchArgs : SearchArgs ℚ Nat Unit where
  spaces := .list [.plain toySearch]
  opt := { est := { isGP := true, hasGradients := true }, acq := some .EI, acqOptimizer := .sampling
           nPoints := 3, nInitialPoints := 5 }
  gen := none
  nIter := 3
  nPoints := 1
  callback := .none

/-- **C95 is false when a candidate cannot be scored.** With `error_score=np.nan` a candidate whose fit fails gets the
score NaN; `np.argmin` prefers NaN to every number, so the entry of `optimizer_results_` reports the failed candidate –
here the second of three – with `fun = nan` as the best, although the others have scores 0 and 2. -/
theorem C95_refuted_nan : Faithful nanEval nanScore ∧
    (bayesSearch ratArith okWorld nanEval nanSearchArgs 0).2 = .ok () ∧
    ((bayesSearch ratArith okWorld nanEval nanSearchArgs 0).1.map fun s =>
      (s.result.funcVals, s.result.fun_)) = [([.fin 0, .nan, .fin (-2)], .nan)] ∧
    ((bayesSearch ratArith okWorld nanEval nanSearchArgs 0).1.map fun s =>
      decide (s.result.xIters[1]? = some s.result.x)) = [true] := by
  refine ⟨fun cs s h => ?_, by decide +kernel, by decide +kernel, by decide +kernel⟩
  simp only [nanEval, Except.ok.injEq] at h; exact h.symm

end Skopt

import Verif.Lemmas.OptimizerRun
import Verif.Model.ExampleWorld

/-!
# C29, C30, C37, C39, C40, C41: what `tell` records and what the result reports
-/

namespace Skopt

variable {F M R G : Type}

/-! ## C29 -/

section
variable [LinearOrder F]

/-- **C29.** For every world, every starting state and every sequence of documented calls (single tells,
batch tells, asks, batch asks, `update_next`, `get_result`) in which the tells return: the recorded
points are the previous ones followed by all told points in order, likewise the values, and every
recorded point is aligned with its value.

Missing: batches whose two lists differ in length, which the code accepts (see the refutations), and
points made of lists only. -/
theorem C29_tell_records_history_partial (A : Arith F) (W : World F M R G) (sh : Shared F G)
    (s : Opt F M R) (calls : List (Call F))
    (hflat : ∀ p y f, Call.one p y f ∈ calls → Flat p)
    (hok : ∀ q ∈ calls.zip (runOps A W sh s (calls.map Call.toOp)).2.2, q.1.isTell = true →
      Returns q.2) :
    let t := (runOps A W sh s (calls.map Call.toOp)).2.1
    let obs := calls.flatMap Call.obs
    t.Xi = s.Xi ++ obs.map (fun o => .seq o.1) ∧
      (∃ ys, t.yi = s.yi ++ ys ∧ List.Forall₂ (OnRecord W s.cfg.acq) (obs.map Prod.snd) ys) ∧
      (s.Xi.length = s.yi.length → t.Xi.length = t.yi.length) := by
  have key : let t := (runOps A W sh s (calls.map Call.toOp)).2.1
      let obs := calls.flatMap Call.obs
      t.Xi = s.Xi ++ obs.map (fun o => .seq o.1) ∧
      (∃ ys, t.yi = s.yi ++ ys ∧ List.Forall₂ (OnRecord W s.cfg.acq) (obs.map Prod.snd) ys) := by
    induction calls generalizing sh s with
    | nil => exact ⟨by simp [runOps], [], by simp [runOps], by simp⟩
    | cons c cs ih =>
      simp only [List.map_cons, runOps] at hok ⊢
      have h1 := step_call (A := A) (W := W) (sh := sh) (s := s) (c := c)
        (fun p y f hc => hflat p y f (by simp [hc]))
        (fun hc => hok (c, _) (by simp) hc)
      simp only at h1
      obtain ⟨c1, _, c3, ⟨ys, c4, c5, _⟩, _⟩ := h1
      obtain ⟨i1, ys', i2, i3⟩ := ih (step A W sh s c.toOp).1 (step A W sh s c.toOp).2.1
        (fun p y f hc => hflat p y f (by simp [hc]))
        (fun q hq ht => hok q (by simp [hq]) ht)
      rw [c1] at i3
      refine ⟨?_, ys ++ ys', ?_, ?_⟩
      · rw [i1, c3, List.flatMap_cons, List.map_append, List.append_assoc]
      · rw [i2, c4, List.append_assoc]
      · rw [List.flatMap_cons, List.map_append]
        exact List.rel_append c5 i3
  refine ⟨key.1, key.2, ?_⟩
  intro hl
  obtain ⟨ys, h1, h2⟩ := key.2
  have h3 := h2.length_eq
  rw [key.1, h1, List.length_append, List.length_append, List.length_map, ← h3, List.length_map, hl]

end

/-- Non-vacuity: two single tells, an ask, a batch tell of two (one point told twice), a batch ask; all
return, the second and third tell fit a model. -/
def exCalls : List (Call ℚ) :=
  [.one [.num 3] (.num (.fin 5)) true, .one [.num 4] (.num (.fin 2)) true, .ask,
   .batch [([.num 1], .num (.fin 7)), ([.num 3], .num (.fin 5))] true, .askMany 2 .clMin]

/-- Meets the hypotheses of `C29_tell_records_history_partial`, `C30_result_exists`, `C40_result_prefix_partial`.
-/
example : (runOps ratArith okWorld toyShared (toyOpt .EI) (exCalls.map Call.toOp)).2.2.map
      (fun r => match r with | .ok _ => true | .error _ => false) = [true, true, true, true, true] ∧
    (runOps ratArith okWorld toyShared (toyOpt .EI) (exCalls.map Call.toOp)).2.1.Xi =
      [.seq [.num 3], .seq [.num 4], .seq [.num 1], .seq [.num 3]] ∧
    (runOps ratArith okWorld toyShared (toyOpt .EI) (exCalls.map Call.toOp)).2.1.yi =
      [.num (.fin 5), .num (.fin 2), .num (.fin 7), .num (.fin 5)] ∧
    (runOps ratArith okWorld toyShared (toyOpt .EI) (exCalls.map Call.toOp)).2.1.models =
      [2, 4] := by
  refine ⟨by decide +kernel, by decide +kernel, by decide +kernel, by decide +kernel⟩

/-- **C29 is false for batches of different lengths**: two points with one value are accepted, `tell`
returns, and from then on points and values are out of step. -/
theorem C29_refuted_length_mismatch :
    Returns (tell ratArith okWorld toyDims (toyOpt .EI) (.lst [.seq [.num 3], .seq [.num 4]])
      (.seq [.num (.fin 5)]) true).2 ∧
    (tell ratArith okWorld toyDims (toyOpt .EI) (.lst [.seq [.num 3], .seq [.num 4]])
      (.seq [.num (.fin 5)]) true).1.Xi = [.seq [.num 3], .seq [.num 4]] ∧
    (tell ratArith okWorld toyDims (toyOpt .EI) (.lst [.seq [.num 3], .seq [.num 4]])
      (.seq [.num (.fin 5)]) true).1.yi = [.num (.fin 5)] := by
  refine ⟨⟨⟨.seq [.num 3], .fin 5, [.fin 5], none, [.seq [.num 3], .seq [.num 4]], []⟩,
    by decide +kernel⟩, by decide +kernel, by decide +kernel⟩

/-- **C29 is false for a list of points with a scalar value**: it is accepted, and the list of points is
recorded as if it were one point. -/
theorem C29_refuted_list_of_points_with_scalar :
    (tell ratArith okWorld toyDims (toyOpt .EI) (.lst [.seq [.num 3], .seq [.num 4]])
      (.num (.fin 5)) true).1.Xi = [.seq [.seq [.num 3], .seq [.num 4]]] := by
  decide +kernel

/-- **C29 is false in the per-second modes for points given as numpy arrays**: `tell` returns a result
but the observation is dropped. -/
theorem C29_refuted_per_second_array :
    let s := (tell ratArith okWorld toyDims (toyOpt .EIps) (.lst [.num 3])
      (.seq [.num (.fin 5), .num (.fin 1)]) true).1
    s.Xi = [.seq [.num 3]] ∧
    Returns (tell ratArith okWorld toyDims s .array (.seq [.num (.fin 2), .num (.fin 1)]) true).2 ∧
    (tell ratArith okWorld toyDims s .array (.seq [.num (.fin 2), .num (.fin 1)]) true).1.Xi =
      [.seq [.num 3]] := by
  refine ⟨by decide +kernel, ⟨⟨.seq [.num 3], .fin 5, [.fin 5], some [.fin (-3)], [.seq [.num 3]], []⟩,
    by decide +kernel⟩, by decide +kernel⟩

/-! ## C30 -/

theorem mapE_toFlt (ys : List F) :
    mapE YArg.toFlt (ys.map fun y => (.num (.fin y) : YArg F)) = .ok (ys.map Flt.fin) := by
  induction ys with
  | nil => rfl
  | cons y ys ih => simp [mapE, YArg.toFlt, ih]

theorem asColumns_scalars (ys : List F) :
    asColumns (ys.map fun y => (.num (.fin y) : YArg F)) = .ok (.inl (ys.map Flt.fin)) := by
  unfold asColumns
  rw [if_neg (by simp [YArg.isSeq]), mapE_toFlt]
  rfl

theorem mapE_toPair (ps : List (F × F)) :
    mapE YArg.toPair (ps.map fun p => (.seq [.num (.fin p.1), .num (.fin p.2)] : YArg F)) =
      .ok (ps.map fun p => (Flt.fin p.1, Flt.fin p.2)) := by
  induction ps with
  | nil => rfl
  | cons p ps ih =>
    simp only [List.map_cons, mapE, ih]
    rfl

theorem asColumns_pairs {ps : List (F × F)} (h : ps ≠ []) :
    asColumns (ps.map fun p => (.seq [.num (.fin p.1), .num (.fin p.2)] : YArg F)) =
      .ok (.inr (ps.map fun p => (Flt.fin p.1, Flt.fin p.2))) := by
  unfold asColumns
  rw [if_pos, mapE_toPair]
  · rfl
  · cases ps with
    | nil => exact absurd rfl h
    | cons p ps => simp [YArg.isSeq]

section
variable [LinearOrder F]

theorem firstLeast_of_npArgmin {ys : List F} {b : Nat}
    (h : npArgmin (ys.map Flt.fin) = .ok b) : FirstLeast ys b := by
  obtain ⟨hb, h1, h2⟩ := npArgmin_spec h
  rw [List.length_map] at hb
  refine ⟨ys[b], List.getElem?_eq_getElem hb, ?_, ?_⟩
  · intro z hz
    have := h1 (.fin z) (List.mem_map.2 ⟨z, hz, rfl⟩)
    rw [List.getElem_map] at this
    exact Flt.fin_le_fin.1 this
  · intro i z hi hz
    have := h2 i hi
    rw [List.getElem_map, List.getElem_map] at this
    obtain ⟨hi', rfl⟩ := List.getElem?_eq_some_iff.1 hz
    exact Flt.fin_lt_fin.1 this

/-- **C30.** For every history of numbers: the result's `fun` is the smallest recorded value, `x` is the
point at the *first* position attaining it, `func_vals` and `x_iters` are the complete history, and
`models` the fitted models.  The same holds for the per-second modes with respect to the values of
the `(value, log time)` pairs.

Missing: NaN among the values (see the refutation). -/
theorem C30_first_best_partial (s : Opt F M R) (r : Result F M) (h : getResult s = .ok r) :
    (∀ ys : List F, s.yi = ys.map (fun y => .num (.fin y)) →
      ∃ b, FirstLeast ys b ∧ s.Xi[b]? = some r.x ∧ ys[b]?.map Flt.fin = some r.fun_ ∧
        r.funcVals = ys.map Flt.fin ∧ r.logTime = none ∧ r.xIters = s.Xi ∧ r.models = s.models) ∧
    (∀ ps : List (F × F), s.yi = ps.map (fun p => .seq [.num (.fin p.1), .num (.fin p.2)]) →
      ps ≠ [] →
      ∃ b, FirstLeast (ps.map Prod.fst) b ∧ s.Xi[b]? = some r.x ∧
        (ps[b]?.map fun p => Flt.fin p.1) = some r.fun_ ∧ r.funcVals = ps.map (fun p => Flt.fin p.1) ∧
        r.logTime = some (ps.map fun p => Flt.fin p.2) ∧ r.xIters = s.Xi ∧ r.models = s.models) := by
  unfold getResult createResult at h
  constructor
  · intro ys hy
    rw [hy, asColumns_scalars, ok_bind] at h
    simp only at h
    rw [bind_eq_ok] at h
    obtain ⟨b, hb, h⟩ := h
    rw [bind_eq_ok] at h
    obtain ⟨x, hx, h⟩ := h
    rw [bind_eq_ok] at h
    obtain ⟨f, hf, h⟩ := h
    injection h with h
    subst h
    refine ⟨b, firstLeast_of_npArgmin hb, ?_, ?_, rfl, rfl, rfl, rfl⟩
    · unfold pyGet at hx
      split at hx
      · next a ha => injection hx with hx; rw [ha, hx]
      · cases hx
    · unfold pyGet at hf
      split at hf
      · next a ha => injection hf with hf; rw [List.getElem?_map] at ha; rw [← hf]; exact ha
      · cases hf
  · intro ps hy hne
    rw [hy, asColumns_pairs hne, ok_bind] at h
    simp only at h
    rw [bind_eq_ok] at h
    obtain ⟨b, hb, h⟩ := h
    rw [bind_eq_ok] at h
    obtain ⟨x, hx, h⟩ := h
    rw [bind_eq_ok] at h
    obtain ⟨f, hf, h⟩ := h
    injection h with h
    subst h
    have e : (ps.map fun p => ((Flt.fin p.1, Flt.fin p.2) : Flt F × Flt F)).map Prod.fst =
        (ps.map Prod.fst).map Flt.fin := by simp
    refine ⟨b, firstLeast_of_npArgmin (by rw [e] at hb; exact hb), ?_, ?_, by simp, by simp, rfl, rfl⟩
    · unfold pyGet at hx
      split at hx
      · next a ha => injection hx with hx; rw [ha, hx]
      · cases hx
    · unfold pyGet at hf
      split at hf
      · next a ha =>
        injection hf with hf
        rw [e, List.getElem?_map, List.getElem?_map] at ha
        rw [← hf, ← ha, Option.map_map]
        rfl
      · cases hf

/-- The result exists whenever there is a history of numbers with a point for each. -/
theorem C30_result_exists (s : Opt F M R) (ys : List F) (hne : ys ≠ [])
    (hy : s.yi = ys.map (fun y => .num (.fin y))) (hl : s.Xi.length = ys.length) :
    ∃ r, getResult s = .ok r := by
  unfold getResult createResult
  rw [hy, asColumns_scalars, ok_bind]
  simp only
  obtain ⟨b, hb⟩ := npArgmin_ok (xs := ys.map Flt.fin) (by simpa using hne)
  rw [hb, ok_bind]
  obtain ⟨hlt, _⟩ := npArgmin_spec hb
  have hlt' := hlt
  rw [List.length_map, ← hl] at hlt'
  rw [pyGet_lt hlt', ok_bind, pyGet_lt hlt, ok_bind]
  exact ⟨_, rfl⟩

/-- **C30** for what `tell` returns: it is the result of the state it leaves. -/
theorem C30_tell_returns_result (A : Arith F) (W : World F M R G) (dims : List (Dim F))
    (s : Opt F M R) (x : XArg F) (y : YArg F) (fit : Bool) (r : Result F M)
    (h : (tell A W dims s x y fit).2 = .ok r) : getResult (tell A W dims s x y fit).1 = .ok r := by
  rcases tell_cases A W dims s x y fit with ⟨e, he⟩ | ⟨y', _, _, _, he⟩
  · rw [he] at h; cases h
  · rw [he] at h ⊢
    exact (tellCore_ok h).1

end

/-- Non-vacuity: the smallest value occurs twice, the first occurrence is reported.
Meets the hypotheses of `C30_first_best_partial`. -/
example : getResult ({ (toyOpt .EI) with
      Xi := [.seq [.num 1], .seq [.num 2], .seq [.num 3]],
      yi := [.num (.fin 5), .num (.fin 2), .num (.fin 2)] } : Opt ℚ Nat Nat) =
    .ok ⟨.seq [.num 2], .fin 2, [.fin 5, .fin 2, .fin 2], none,
      [.seq [.num 1], .seq [.num 2], .seq [.num 3]], []⟩ := by decide +kernel

/-- **C30 is false with NaN on record**: the reported optimum is NaN although 0 was observed. -/
theorem C30_refuted_nan :
    getResult ({ (toyOpt .EI) with
      Xi := [.seq [.num 1], .seq [.num 2], .seq [.num 3]],
      yi := [.num (.fin 5), .num .nan, .num (.fin 0)] } : Opt ℚ Nat Nat) =
    .ok ⟨.seq [.num 2], .nan, [.fin 5, .nan, .fin 0], none,
      [.seq [.num 1], .seq [.num 2], .seq [.num 3]], []⟩ := by decide +kernel

/-! ## C37 -/

section
variable [LinearOrder F]

/-- **C37.** If `tell` refuses its input – the point is not in the space, the value has the wrong form, a
time has no logarithm, or `x` is no list – the optimizer is exactly as before.  If it raises after the
input was accepted (surrogate or result), then the observation is on record.

Missing: inputs that are invalid but pass the checks, e.g. NaN or one point with two values (see the
refutations). -/
theorem C37_rejected_tell_changes_nothing_partial (A : Arith F) (W : World F M R G)
    (dims : List (Dim F)) (s : Opt F M R) (x : XArg F) (y : YArg F) (fit : Bool) (e : PyErr)
    (h : (tell A W dims s x y fit).2 = .error e) :
    (tell A W dims s x y fit).1 = s ∨
    (checkX dims x = .ok () ∧ checkY s.cfg.acq x y = .ok () ∧ ∃ y' t, record s x y' = .ok t ∧
      takeLogs W s.cfg.acq x y = .ok y' ∧ SameCore (tell A W dims s x y fit).1 t ∧
      ((fit = true ∧ (refit A W dims t).2 = .error e) ∨
        getResult (tell A W dims s x y fit).1 = .error e)) := by
  rcases tell_cases A W dims s x y fit with ⟨e, he⟩ | ⟨y', h1, h2, h3, h4⟩
  · exact Or.inl (by rw [he])
  · cases hr : record s x y' with
    | error e' =>
      rcases tellCore_cases A W dims s x y' fit with ⟨_, _, h5⟩ | ⟨t, ht, _⟩
      · exact Or.inl (by rw [h4, h5])
      · rw [hr] at ht; cases ht
    | ok t =>
      rw [h4] at h ⊢
      refine Or.inr ⟨h1, h2, y', t, hr, h3, tellCore_frame A W dims s x y' fit hr, ?_⟩
      rcases tellCore_cases A W dims s x y' fit with ⟨_, h5, _⟩ | ⟨u, hu, h5⟩
      · rw [hr] at h5; cases h5
      · rw [hr] at hu
        injection hu with hu
        subst hu
        rcases h5 with ⟨hf, _, _, _, ⟨e', h6, h7⟩ | ⟨_, h7⟩⟩ | ⟨_, h6⟩
        · rw [h7] at h
          injection h with h
          subst h
          exact Or.inl ⟨hf, h6⟩
        · rw [h7] at h; exact Or.inr h
        · rw [h6] at h ⊢; exact Or.inr h

/-- **C37**, which inputs are refused: a flat point outside the space, or a point with a value that is no
number (outside the per-second modes), makes `tell` raise and changes nothing. -/
theorem C37_refused_inputs (A : Arith F) (W : World F M R G) (dims : List (Dim F)) (s : Opt F M R)
    (p : Point F) (hp : Flat p) (y : YArg F) (fit : Bool)
    (h : ¬ List.Forall₂ Within dims p ∨ (s.cfg.acq.isPs = false ∧ y.isNumber = false)) :
    ∃ e, tell A W dims s (.lst p) y fit = (s, .error e) := by
  have h2 := is2D_false_of_flat hp
  unfold tell
  rcases h with h | ⟨hps, hy⟩
  · have hc : ∃ e, checkX dims (.lst p) = .error e := by
      cases hk : checkX dims (.lst p) with
      | error e => exact ⟨e, rfl⟩
      | ok _ =>
        refine absurd ?_ h
        simp only [checkX, checkXInSpace, h2, if_false, Bool.false_eq_true] at hk
        rw [← Space.contains_true_iff]
        rw [bind_eq_ok] at hk
        obtain ⟨b, hb, hk⟩ := hk
        cases b
        · simp at hk
        · refine ⟨hb, ?_⟩
          simp only [if_true] at hk
          split at hk
          · cases hk
          · next hl => simpa using hl
    obtain ⟨e, he⟩ := hc
    exact ⟨e, by rw [he]; rfl⟩
  · cases hk : checkX dims (.lst p) with
    | error e => exact ⟨e, rfl⟩
    | ok _ =>
      refine ⟨.valueError, ?_⟩
      rw [ok_bind]
      simp only [checkY, hps, h2, hy, Bool.and_false, if_false, Bool.false_eq_true]
      rfl

end

/-- **C37**, which batches are refused: a list of points one of which is outside the space or has the wrong length, or
which comes with a value that is neither a number nor a list of numbers (per-second modes: a list of pairs of scalars),
makes `tell` raise and changes nothing. -/
theorem C37_refused_batches [LinearOrder F] (A : Arith F) (W : World F M R G) (dims : List (Dim F)) (s : Opt F M R)
    (pts : List (Point F)) (y : YArg F) (fit : Bool)
    (h : (∃ p ∈ pts, ¬ List.Forall₂ Within dims p) ∨
      (s.cfg.acq.isPs = false ∧ (∀ v, y ≠ .num v) ∧ ∀ ys, y = .seq ys → ∃ v ∈ ys, ∀ w, v ≠ .num w) ∨
      (s.cfg.acq.isPs = true ∧ ∀ ys, y = .seq ys → ys = [] ∨ ∃ v ∈ ys, ∀ a b, v = .seq [a, b] →
        (∃ zs, a = .seq zs) ∨ ∃ zs, b = .seq zs)) :
    ∃ e, tell A W dims s (.lst (pts.map Val.seq)) y fit = (s, .error e) := by
  have h2 : is2D (pts.map (Val.seq : List (Val F) → Val F)) = true := by
    unfold is2D
    rw [List.all_eq_true]
    intro v hv
    obtain ⟨p, _, rfl⟩ := List.mem_map.1 hv
    rfl
  unfold tell
  rcases h with h | ⟨hps, h3, h4⟩ | ⟨hps, h3⟩
  · have hc : ∃ e, checkX dims (.lst (pts.map Val.seq)) = .error e := by
      cases hk : checkX dims (.lst (pts.map Val.seq)) with
      | error e => exact ⟨e, rfl⟩
      | ok _ =>
        exfalso
        obtain ⟨p, hp, hn⟩ := h
        simp only [checkX, checkXInSpace, h2, if_true] at hk
        obtain ⟨bs, hb, hk⟩ := bind_eq_ok.1 hk
        split at hk
        · next hall =>
          split at hk
          · cases hk
          · next hl =>
            rw [mapE_eq_ok] at hb
            refine hn (Space.contains_true_iff.1 ⟨?_, ?_⟩)
            · have hmem : (Val.seq p : Val F) ∈ pts.map Val.seq := List.mem_map_of_mem hp
              obtain ⟨b, hbm, hbe⟩ := forall₂_mem_left hb hmem
              rw [List.all_eq_true] at hall
              have := hall b hbm
              simp only [id] at this
              rw [this] at hbe
              exact hbe
            · simp only [List.any_eq_true, decide_eq_true_eq, not_exists, not_and, not_not] at hl
              exact hl (.seq p) (List.mem_map_of_mem hp)
        · cases hk
    obtain ⟨e, he⟩ := hc
    exact ⟨e, by rw [he]; rfl⟩
  · cases hk : checkX dims (.lst (pts.map Val.seq)) with
    | error e => exact ⟨e, rfl⟩
    | ok _ =>
      refine ⟨.valueError, ?_⟩
      rw [ok_bind]
      cases y with
      | num v => exact absurd rfl (h3 v)
      | other => simp only [checkY, hps, YArg.isSeq, YArg.isNumber, Bool.false_and, if_false, Bool.false_eq_true]; rfl
      | seq ys =>
        obtain ⟨v, hv, hv'⟩ := h4 ys rfl
        have : ys.all YArg.isNumber = false := by
          rw [List.all_eq_false]
          refine ⟨v, hv, ?_⟩
          cases v with
          | num w => exact absurd rfl (hv' w)
          | _ => simp [YArg.isNumber]
        simp only [checkY, hps, YArg.isSeq, h2, YArg.items, this, Bool.and_self, if_true, if_false, Bool.false_eq_true]
        rfl
  · cases hk : checkX dims (.lst (pts.map Val.seq)) with
    | error e => exact ⟨e, rfl⟩
    | ok _ =>
      refine ⟨.typeError, ?_⟩
      rw [ok_bind]
      have : (y.isSeq && !y.items.isEmpty && y.items.all YArg.isPair) = false := by
        cases y with
        | num v => rfl
        | other => rfl
        | seq ys =>
          rcases h3 ys rfl with rfl | ⟨v, hv, hv'⟩
          · rfl
          · have : ys.all YArg.isPair = false := by
              rw [List.all_eq_false]
              refine ⟨v, hv, ?_⟩
              unfold YArg.isPair
              split
              · next a b => rcases hv' a b rfl with ⟨zs, rfl⟩ | ⟨zs, rfl⟩ <;> simp [YArg.isSeq]
              · simp
            simp [YArg.items, this]
      simp only [checkY, hps, h2, this, if_true, if_false, Bool.false_eq_true]
      rfl

/-- Non-vacuity: a string among the values; a point outside; pairs wanted.
Meets the hypotheses of `C37_refused_inputs`. -/
example : (tell ratArith okWorld toyDims (toyOpt .EI) (.lst [.seq [.num 3], .seq [.num 4]])
      (.seq [.num (.fin 1), .other]) true).2 = .error .valueError ∧
  (tell ratArith okWorld toyDims (toyOpt .EI) (.lst [.seq [.num 3], .seq [.num 11]])
      (.seq [.num (.fin 1), .num (.fin 2)]) true).2 = .error .valueError ∧
  (tell ratArith okWorld toyDims (toyOpt .EIps) (.lst [.seq [.num 3], .seq [.num 4]])
      (.seq [.num (.fin 1), .num (.fin 2)]) true).2 = .error .typeError := by
  decide +kernel

/-- Non-vacuity: 11 is outside `Real(0, 10)`; a string is no objective value.
Meets the hypotheses of `C37_rejected_tell_changes_nothing_partial`. -/
example : (tell ratArith okWorld toyDims (toyOpt .EI) (.lst [.num 11]) (.num (.fin 1)) true).2 =
    .error .valueError ∧
  (tell ratArith okWorld toyDims (toyOpt .EI) (.lst [.num 3]) .other true).2 = .error .valueError := by
  decide +kernel

/-- **C37 is false for one point with two values**: `tell` raises (an `IndexError` while packing the
result), but two values and one point stay on record. -/
theorem C37_refuted_too_many_values :
    (tell ratArith okWorld toyDims (toyOpt .EI) (.lst [.seq [.num 3]])
      (.seq [.num (.fin 5), .num (.fin 2)]) false).2 = .error .indexError ∧
    (tell ratArith okWorld toyDims (toyOpt .EI) (.lst [.seq [.num 3]])
      (.seq [.num (.fin 5), .num (.fin 2)]) false).1.yi = [.num (.fin 5), .num (.fin 2)] := by
  decide +kernel

/-- The surrogate refuses NaN, as every scikit-learn regressor does. -/
def nanWorld : World ℚ Nat Nat Unit :=
  toyWorld fun _ y => y.any fun v => decide (v = .num .nan)

/-- **C37 is false for NaN**: `tell` raises because the value is invalid, but the NaN stays on record and
every later `tell` raises as well. -/
theorem C37_refuted_nan :
    let s := (tell ratArith nanWorld toyDims (toyOpt .EI) (.lst [.seq [.num 3], .seq [.num 4]])
      (.seq [.num (.fin 5), .num .nan]) true)
    s.2 = .error .valueError ∧ s.1.yi = [.num (.fin 5), .num .nan] ∧
    (tell ratArith nanWorld toyDims s.1 (.lst [.num 5]) (.num (.fin 1)) true).2 =
      .error .valueError := by
  decide +kernel

/-! ## C39 -/

section
variable [LinearOrder F]

omit [LinearOrder F] in
theorem onRecord_unique {W : World F M R G} {acq : AcqFunc} {ys zs zs' : List (YArg F)}
    (h : List.Forall₂ (OnRecord W acq) ys zs) (h' : List.Forall₂ (OnRecord W acq) ys zs') :
    zs = zs' := by
  induction h generalizing zs' with
  | nil => cases h'; rfl
  | cons h1 _ ih =>
    cases h' with
    | cons h2 h3 =>
      rw [ih h3]
      congr 1
      unfold OnRecord at h1 h2
      split at h1
      · next hps =>
        rw [if_pos hps] at h2
        obtain ⟨v, t, l, e1, e2, e3⟩ := h1
        obtain ⟨v', t', l', e1', e2', e3'⟩ := h2
        rw [e1] at e1'
        injection e1' with e1'
        simp only [List.cons.injEq, YArg.num.injEq, and_true] at e1'
        obtain ⟨rfl, rfl⟩ := e1'
        rw [e2] at e2'
        injection e2' with e2'
        subst e2'
        rw [e3, e3']
      · next hps => rw [if_neg hps] at h2; rw [h1, h2]

/-- **C39.** Telling a batch and telling its observations one by one (each call returning) leave the
same recorded points and values, the same remaining initial budget and the same reported optimum,
`func_vals` and `x_iters`, whatever the surrogate does. -/
theorem C39_batch_equals_sequential (A : Arith F) (W : World F M R G) (sh : Shared F G)
    (s : Opt F M R) (obs : List (Point F × YArg F)) (fit : Bool)
    (hflat : ∀ o ∈ obs, Flat o.1) (rb : Result F M)
    (hb : (tell A W sh.dims s (.lst (obs.map fun o => .seq o.1)) (.seq (obs.map Prod.snd)) fit).2 =
      .ok rb)
    (hs : ∀ r ∈ (runOps A W sh s ((obs.map fun o => Call.one o.1 o.2 fit).map Call.toOp)).2.2,
      Returns r) :
    let t := (tell A W sh.dims s (.lst (obs.map fun o => .seq o.1)) (.seq (obs.map Prod.snd)) fit).1
    let u := (runOps A W sh s ((obs.map fun o => Call.one o.1 o.2 fit).map Call.toOp)).2.1
    t.Xi = u.Xi ∧ t.yi = u.yi ∧ t.nInit = u.nInit ∧
      ∃ ru, getResult u = .ok ru ∧ ru.x = rb.x ∧ ru.fun_ = rb.fun_ ∧ ru.funcVals = rb.funcVals ∧
        ru.xIters = rb.xIters := by
  intro t u
  have h1 := step_call (A := A) (W := W) (sh := sh) (s := s) (c := .batch obs fit)
    (fun p y f hc => by cases hc) (fun _ => ⟨.result rb, by simp only [Call.toOp, step]; rw [hb]; rfl⟩)
  simp only [Call.toOp, step, Call.obs] at h1
  obtain ⟨a5, a6, a1, ⟨ys, a2, a3, a4⟩, a7⟩ := h1
  have hobs : ((obs.map fun o => Call.one o.1 o.2 fit).flatMap Call.obs) = obs := by
    clear hflat hb hs t u a1 a2 a3 a4 a5 a6 a7
    induction obs with
    | nil => rfl
    | cons o os ih => simp [Call.obs, ih]
  have h2 := C29_tell_records_history_partial A W sh s (obs.map fun o => Call.one o.1 o.2 fit)
    (by
      intro p y f hm
      obtain ⟨o, ho, he⟩ := List.mem_map.1 hm
      injection he with e1 _ _
      subst e1
      exact hflat o ho)
    (fun q hq _ => hs _ (List.of_mem_zip hq).2)
  simp only [hobs] at h2
  obtain ⟨b1, ⟨zs, b2, b3⟩, _⟩ := h2
  obtain ⟨_, _, _, zs', _, b5, b6⟩ := runOps_frame A W sh s
    ((obs.map fun o => Call.one o.1 o.2 fit).map Call.toOp)
  have e : ys = zs := onRecord_unique a3 b3
  have e' : zs' = zs := List.append_cancel_left (b5.symm.trans b2)
  have hX : t.Xi = u.Xi := a1.trans b1.symm
  have hY : t.yi = u.yi := a2.trans (by rw [e]; exact b2.symm)
  refine ⟨hX, hY, ?_, ?_⟩
  · show t.nInit = u.nInit
    rw [show u.nInit = _ from b6, e', ← e]
    exact a4
  · have hg := C30_tell_returns_result A W sh.dims s _ _ fit rb hb
    change getResult t = .ok rb at hg
    unfold getResult createResult at hg ⊢
    rw [hX, hY] at hg
    rw [bind_eq_ok] at hg
    obtain ⟨c, hc, hg⟩ := hg
    rw [hc, ok_bind]
    dsimp only at hg ⊢
    rw [bind_eq_ok] at hg
    obtain ⟨b, hbst, hg⟩ := hg
    rw [hbst, ok_bind]
    rw [bind_eq_ok] at hg
    obtain ⟨x, hx, hg⟩ := hg
    rw [hx, ok_bind]
    rw [bind_eq_ok] at hg
    obtain ⟨f, hf, hg⟩ := hg
    rw [hf, ok_bind]
    injection hg with hg
    subst hg
    exact ⟨_, rfl, rfl, rfl, rfl, rfl⟩

end

/-- Non-vacuity: three observations, as a batch and one by one; a model is fitted in both cases, but only
one model for the batch. -/
def exObs : List (Point ℚ × YArg ℚ) :=
  [([.num 3], .num (.fin 5)), ([.num 4], .num (.fin 2)), ([.num 1], .num (.fin 7))]

/-- Meets the hypotheses of `C39_batch_equals_sequential`. -/
example :
    (tell ratArith okWorld toyDims (toyOpt .EI) (.lst (exObs.map fun o => .seq o.1))
      (.seq (exObs.map Prod.snd)) true).1.models = [3] ∧
    (runOps ratArith okWorld toyShared (toyOpt .EI)
      ((exObs.map fun o => Call.one o.1 o.2 true).map Call.toOp)).2.1.models = [2, 3] ∧
    (runOps ratArith okWorld toyShared (toyOpt .EI)
      ((exObs.map fun o => Call.one o.1 o.2 true).map Call.toOp)).2.2.map
      (fun r => match r with | .ok _ => true | .error _ => false) = [true, true, true] := by
  refine ⟨by decide +kernel, by decide +kernel, by decide +kernel⟩

/-! ## C40 -/

/-- Reading `result.x_iters` of a result of this optimizer when the optimizer is in state `s`: the
attribute is the optimizer's own list `Xi` (utils.py:66 stores the argument, optimizer.py:610, 647,
673 pass `self.Xi`), while `func_vals` is a new array (utils.py:59). -/
def xItersNow (s : Opt F M R) : List (Val F) := s.Xi

/-- Likewise `result.models` (utils.py:67, optimizer.py:611). -/
def modelsNow (s : Opt F M R) : List M := s.models

/-- **C40.** After any later sequence of calls the `x_iters` of an old result still *starts* with the
points it was created with, so its first `len(func_vals)` entries still belong to its `func_vals`.

Missing: `x_iters` keeps growing with the optimizer (see the refutation). -/
theorem C40_result_prefix_partial [LinearOrder F] (A : Arith F) (W : World F M R G)
    (sh : Shared F G) (s : Opt F M R) (ops : List (Op F)) (r : Result F M)
    (h : getResult s = .ok r) :
    xItersNow s = r.xIters ∧
      (xItersNow (runOps A W sh s ops).2.1).take r.xIters.length = r.xIters := by
  have hx : r.xIters = s.Xi := by
    unfold getResult createResult at h
    rw [bind_eq_ok] at h
    obtain ⟨c, _, h⟩ := h
    dsimp only at h
    rw [bind_eq_ok] at h
    obtain ⟨b, _, h⟩ := h
    rw [bind_eq_ok] at h
    obtain ⟨x, _, h⟩ := h
    rw [bind_eq_ok] at h
    obtain ⟨f, _, h⟩ := h
    injection h with h
    subst h
    rfl
  obtain ⟨_, _, xs, _, h1, _, _⟩ := runOps_frame A W sh s ops
  refine ⟨hx.symm, ?_⟩
  rw [hx, xItersNow, h1, List.take_left]

/-- **C40 is false**: after one more `tell`, the `x_iters` of the earlier result has two entries, its
`func_vals` one. -/
theorem C40_refuted_x_iters_grow :
    let s := (tell ratArith okWorld toyDims (toyOpt .EI) (.lst [.num 3]) (.num (.fin 5)) true).1
    let s' := (tell ratArith okWorld toyDims s (.lst [.num 4]) (.num (.fin 2)) true).1
    getResult s = .ok ⟨.seq [.num 3], .fin 5, [.fin 5], none, [.seq [.num 3]], []⟩ ∧
      xItersNow s = [.seq [.num 3]] ∧ xItersNow s' = [.seq [.num 3], .seq [.num 4]] ∧
      modelsNow s = [] ∧ modelsNow s' = [2] := by
  refine ⟨by decide +kernel, by decide +kernel, by decide +kernel, by decide +kernel,
    by decide +kernel⟩

/-! ## C41 -/

/-- **C41 is false for the incumbent**: the `y_opt` handed to the acquisition function is the minimum of
*all* recorded numbers, log-times included; with values 5 and 2 and log-times -3 and -1 it is -3. -/
theorem C41_refuted_incumbent_mixes_times :
    (do let ys ← flatNums ([.seq [.num (.fin 5), .num (.fin (-3))],
                            .seq [.num (.fin 2), .num (.fin (-1))]] : List (YArg ℚ))
        fltMin ys) = .ok (.fin (-3)) := by
  decide +kernel

/-- **C41 (reported optimum).** In the per-second modes the reported optimum depends on the values only:
changing all recorded times changes neither `x`, `fun` nor `func_vals`.

Missing: the incumbent handed to the acquisition function (see the refutation). -/
theorem C41_optimum_ignores_times_partial [LinearOrder F] (s s' : Opt F M R) (vs ts ts' : List F)
    (hne : vs ≠ []) (hl : ts.length = vs.length) (hl' : ts'.length = vs.length) (hX : s'.Xi = s.Xi)
    (hy : s.yi = (vs.zip ts).map fun p => .seq [.num (.fin p.1), .num (.fin p.2)])
    (hy' : s'.yi = (vs.zip ts').map fun p => .seq [.num (.fin p.1), .num (.fin p.2)])
    (r r' : Result F M) (h : getResult s = .ok r) (h' : getResult s' = .ok r') :
    r.x = r'.x ∧ r.fun_ = r'.fun_ ∧ r.funcVals = r'.funcVals := by
  have n1 : vs.zip ts ≠ [] := by
    intro e
    have := congrArg List.length e
    rw [List.length_zip, hl] at this
    cases vs with
    | nil => exact hne rfl
    | cons a as => simp at this
  have n2 : vs.zip ts' ≠ [] := by
    intro e
    have := congrArg List.length e
    rw [List.length_zip, hl'] at this
    cases vs with
    | nil => exact hne rfl
    | cons a as => simp at this
  have f1 : (vs.zip ts).map Prod.fst = vs := List.map_fst_zip (by omega)
  have f2 : (vs.zip ts').map Prod.fst = vs := List.map_fst_zip (by omega)
  obtain ⟨b, l1, x1, v1, w1, _⟩ := (C30_first_best_partial s r h).2 _ hy n1
  obtain ⟨b', l2, x2, v2, w2, _⟩ := (C30_first_best_partial s' r' h').2 _ hy' n2
  rw [f1] at l1
  rw [f2] at l2
  have hb : b = b' := by
    obtain ⟨y, p1, p2, p3⟩ := l1
    obtain ⟨z, q1, q2, q3⟩ := l2
    rcases lt_trichotomy b b' with hlt | heq | hgt
    · exact absurd (q3 b y hlt p1) (not_lt.2 (p2 z (List.mem_of_getElem? q1)))
    · exact heq
    · exact absurd (p3 b' z hgt q1) (not_lt.2 (q2 y (List.mem_of_getElem? p1)))
  subst hb
  refine ⟨?_, ?_, ?_⟩
  · rw [hX] at x2
    rw [x1] at x2
    exact Option.some.inj x2
  · have e1 : ((vs.zip ts)[b]?.map fun p => Flt.fin p.1) = vs[b]?.map Flt.fin := by
      conv_rhs => rw [← f1, List.getElem?_map, Option.map_map]
      rfl
    have e2 : ((vs.zip ts')[b]?.map fun p => Flt.fin p.1) = vs[b]?.map Flt.fin := by
      conv_rhs => rw [← f2, List.getElem?_map, Option.map_map]
      rfl
    rw [e1] at v1
    rw [e2, v1] at v2
    exact Option.some.inj v2
  · rw [w1, w2]
    have g1 : (vs.zip ts).map (fun p => Flt.fin p.1) = vs.map Flt.fin := by
      conv_rhs => rw [← f1, List.map_map]
      rfl
    have g2 : (vs.zip ts').map (fun p => Flt.fin p.1) = vs.map Flt.fin := by
      conv_rhs => rw [← f2, List.map_map]
      rfl
    rw [g1, g2]

example : getResult ({ (toyOpt .EIps) with
    Xi := [.seq [.num 1], .seq [.num 2]],
    yi := [.seq [.num (.fin 5), .num (.fin (-3))], .seq [.num (.fin 2), .num (.fin (-1))]] } :
      Opt ℚ Nat Nat) =
    .ok ⟨.seq [.num 2], .fin 2, [.fin 5, .fin 2], some [.fin (-3), .fin (-1)],
      [.seq [.num 1], .seq [.num 2]], []⟩ := by decide +kernel

end Skopt

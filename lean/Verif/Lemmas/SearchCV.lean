import Verif.Spec.SearchCV
import Verif.Lemmas.OptimizerRun
import Verif.Lemmas.OptimizerSound
import Verif.Lemmas.Minimize
import Verif.Props.Minimize
import Verif.Props.SpaceChecks

/-!
# Lemmas about the search loop
-/

namespace Skopt

variable {F M R G : Type}

theorem scoresFrom_length (sc : List (Candidate F) → Candidate F → Flt F)
    (before cs : List (Candidate F)) : (scoresFrom sc before cs).length = cs.length := by
  induction cs generalizing before with
  | nil => rfl
  | cons c cs ih => simp [scoresFrom, ih]

theorem scoresFrom_append (sc : List (Candidate F) → Candidate F → Flt F)
    (before a b : List (Candidate F)) :
    scoresFrom sc before (a ++ b) = scoresFrom sc before a ++ scoresFrom sc (before ++ a) b := by
  induction a generalizing before with
  | nil => simp [scoresFrom]
  | cons c cs ih => simp [scoresFrom, ih]

theorem lastK_scores (sc : List (Candidate F) → Candidate F → Flt F) (a b : List (Candidate F))
    (hb : b ≠ []) : lastK (scoresFrom sc [] (a ++ b)) b.length = scoresFrom sc a b := by
  unfold lastK
  rw [if_neg (by simpa using hb), scoresFrom_append, List.length_append, scoresFrom_length,
    scoresFrom_length, List.nil_append]
  rw [List.drop_append_of_le_length (by simp [scoresFrom_length])]
  rw [List.drop_eq_nil_of_le (by simp [scoresFrom_length])]
  rfl

variable [LinearOrder F]

/-- A round that returns: a batch of the requested size was asked for, evaluated and told. -/
theorem searchStep_ok {A : Arith F} {W : World F M R G} {ev : Evaluator F}
    {sc : List (Candidate F) → Candidate F → Flt F} (hev : Faithful ev sc) {space : SearchDict F}
    {st st' : SearchState F M R G} {n : ℤ} {r : Result F M} (hc : CacheSized st.opt)
    (h : searchStep A W ev space st n = (st', .ok r)) :
    ∃ ps : List (Point F), (ps.length : ℤ) = n ∧ 0 < ps.length ∧
      st'.shared = (askMany A W st.shared st.opt n .clMin).1 ∧
      st'.cands = st.cands ++ ps.map (pointAsdict space) ∧
      st'.batches = st.batches ++ [ps.map (pointAsdict space)] ∧
      st'.opt.Xi = st.opt.Xi ++ ps.map Val.seq ∧
      st'.opt.yi = st.opt.yi ++
        (scoresFrom sc st.cands (ps.map (pointAsdict space))).map (fun f => .num (Flt.neg A f)) ∧
      st'.opt.cfg = st.opt.cfg ∧ st'.opt.cache = none ∧ getResult st'.opt = .ok r ∧
      st'.hist = st.hist ∧ st'.calls = st.calls ∧
      (∀ p ∈ ps, List.Forall₂ Within st'.shared.dims p) := by
  unfold searchStep at h
  generalize hask : askMany A W st.shared st.opt n .clMin = q at h
  obtain ⟨sh, o, out⟩ := q
  cases out with
  | error e => simp at h
  | ok pts =>
    simp only at h
    have hlen : (pts.length : ℤ) = n := askMany_length hc (by rw [hask])
    have hpos : 0 < n := (askMany_ok (h := by rw [hask])).1
    obtain ⟨rng, c, hfr⟩ := askMany_frame A W st.shared st.opt n .clMin
    rw [hask] at hfr
    simp only at hfr
    cases hitem : mapE (mapE Val.item) pts with
    | error e => simp [hitem] at h
    | ok params =>
      rw [hitem] at h
      simp only at h
      have hpl : params.length = pts.length := mapE_length hitem
      cases hsc : ev (st.cands ++ params.map (pointAsdict space)) with
      | error e => simp [hsc] at h
      | ok scores =>
        rw [hsc] at h
        simp only at h
        have hs := hev _ _ hsc
        have hne : params.map (pointAsdict space) ≠ [] := by
          intro h0
          have := congrArg List.length h0
          simp at this
          simp [this] at hpl
          omega
        have hlast : lastK scores params.length =
            scoresFrom sc st.cands (params.map (pointAsdict space)) := by
          rw [hs]
          have := lastK_scores sc st.cands (params.map (pointAsdict space)) hne
          rwa [List.length_map] at this
        rw [hlast] at h
        obtain ⟨ys, hys⟩ : ∃ ys, ys = (scoresFrom sc st.cands (params.map (pointAsdict space))).map
            (fun f => (.num (Flt.neg A f) : YArg F)) := ⟨_, rfl⟩
        rw [← hys] at h
        have hyl : ys.length = params.length := by rw [hys]; simp [scoresFrom_length]
        have hz1 : (params.zip ys).map (fun o => (Val.seq o.1 : Val F)) = params.map Val.seq := by
          have : (params.zip ys).map Prod.fst = params := List.map_fst_zip (by omega)
          conv_rhs => rw [← this]
          rw [List.map_map]; rfl
        have hz2 : (params.zip ys).map Prod.snd = ys := List.map_snd_zip (by omega)
        have htell := tell_batch A W sh.dims o (params.zip ys) true
        rw [hz1, hz2] at htell
        rcases htell with ⟨e, he⟩ | ⟨ys', h1, h2, h3, h4⟩
        · rw [he] at h
          simp at h
        · have hys' : ys' = ys := by
            cases hps : o.cfg.acq.isPs with
            | false =>
              have : List.Forall₂ Eq ys ys' := h1.imp fun a b hab => by
                unfold OnRecord at hab
                rw [hps, if_neg (by simp)] at hab
                exact hab.symm
              rw [List.forall₂_eq_eq_eq] at this
              exact this.symm
            | true =>
              cases h1 with
              | nil => rfl
              | @cons a b l₁ l₂ hab _ =>
                exfalso
                unfold OnRecord at hab
                rw [hps, if_pos rfl] at hab
                obtain ⟨v, t, l, ha, _⟩ := hab
                have : a ∈ a :: l₁ := List.mem_cons_self
                rw [hys] at this
                obtain ⟨f, _, hf⟩ := List.mem_map.1 this
                rw [ha] at hf
                cases hf
          subst hys'
          rw [h3] at h
          simp only [Prod.mk.injEq] at h
          obtain ⟨hst, hr⟩ := h
          have hcore := tellCore_frame A W sh.dims o (.lst (params.map Val.seq)) (.seq ys') true h4
          have hres := (tellCore_ok hr).1
          rw [← hst]
          refine ⟨params, by omega, by omega, by rfl, rfl, rfl, ?_, ?_, ?_, ?_, hres, rfl, rfl, ?_⟩
          · show (tellCore A W sh.dims o _ _ true).1.Xi = _
            rw [hcore.Xi]
            show o.Xi ++ _ = _
            rw [hfr]
          · show (tellCore A W sh.dims o _ _ true).1.yi = _
            rw [hcore.yi]
            show o.yi ++ _ = _
            rw [hfr, hys]
          · show (tellCore A W sh.dims o _ _ true).1.cfg = _
            rw [hcore.cfg]
            show o.cfg = _
            rw [hfr]
          · show (tellCore A W sh.dims o _ _ true).1.cache = _
            rw [hcore.cache]
            rfl
          · exact (C07_batch_accepted_iff sh.dims params).1 h2

theorem SameRange.refl (d : Dim F) : SameRange d d := fun _ => Iff.rfl

theorem sameRange_refl (dims : List (Dim F)) : List.Forall₂ SameRange dims dims :=
  List.forall₂_same.2 fun d _ => .refl d

theorem sameRange_trans {a b c : List (Dim F)} (h1 : List.Forall₂ SameRange a b)
    (h2 : List.Forall₂ SameRange b c) : List.Forall₂ SameRange a c := by
  induction h1 generalizing c with
  | nil => cases h2; exact .nil
  | cons h _ ih => cases h2 with
    | cons h' h2 => exact .cons (fun v => (h v).trans (h' v)) (ih h2)

theorem sameRange_within {a b : List (Dim F)} (h : List.Forall₂ SameRange a b) (p : Point F) :
    List.Forall₂ Within a p ↔ List.Forall₂ Within b p := by
  induction h generalizing p with
  | nil => exact Iff.rfl
  | cons h _ ih =>
    cases p with
    | nil => constructor <;> intro h <;> cases h
    | cons v p => rw [List.forall₂_cons, List.forall₂_cons, h v, ih p]

theorem setTransformer_sameRange {d d' : Dim F} {t : TKind} (h : d.setTransformer t = .ok d') :
    SameRange d d' := by
  intro v
  cases d with
  | real r => cases t <;> simp [Dim.setTransformer] at h <;> subst h <;> exact Iff.rfl
  | int r => cases t <;> simp [Dim.setTransformer] at h <;> subst h <;> exact Iff.rfl
  | cat c => simp [Dim.setTransformer] at h; subst h; exact Iff.rfl

theorem setTransformers_sameRange {dims dims' : List (Dim F)} {ts : List TKind}
    (h : Space.setTransformers dims ts = .ok dims') : List.Forall₂ SameRange dims dims' := by
  induction dims generalizing ts dims' with
  | nil => simp only [Space.setTransformers, Except.ok.injEq] at h; subst h; exact .nil
  | cons d ds ih =>
    cases ts with
    | nil => simp [Space.setTransformers] at h
    | cons t ts =>
      simp only [Space.setTransformers, bind_eq_ok, Except.ok.injEq] at h
      obtain ⟨d', h1, ds', h2, rfl⟩ := h
      exact .cons (setTransformer_sameRange h1) (ih h2)

theorem init_sameRange {A : Arith F} {W : World F M R G} (hW : KeepsRanges W) {sh : Shared F G}
    {cfg : Config} {rng : R} {o : Opt F M R} {sh' : Shared F G}
    (h : Opt.init A W sh cfg rng = (sh', .ok o)) : List.Forall₂ SameRange sh.dims sh'.dims := by
  unfold Opt.init at h
  cases hd : (if cfg.isGP then Space.setTransformer sh.dims .normalize else .ok sh.dims) with
  | error e => simp [hd] at h
  | ok dims =>
    have h0 : List.Forall₂ SameRange sh.dims dims := by
      split at hd
      · exact (mapE_forall₂ hd).imp fun _ _ => setTransformer_sameRange
      · injection hd with hd; rw [← hd]; exact sameRange_refl _
    rw [hd] at h
    simp only at h
    cases hg : sh.gen with
    | none =>
      simp only [hg, Prod.mk.injEq] at h
      rw [← h.1]; exact h0
    | some g =>
      simp only [hg] at h
      have h1 := hW g dims cfg.nInitial (W.seed rng).2
      generalize W.generate g dims cfg.nInitial (W.seed rng).2 = q at h h1
      obtain ⟨g', dims', out⟩ := q
      cases out with
      | error e => simp at h
      | ok pts =>
        simp only at h h1
        cases hs : Space.setTransformers dims' (Space.getTransformer dims) with
        | error e => simp [hs] at h
        | ok dims'' =>
          simp only [hs, Prod.mk.injEq] at h
          rw [← h.1]
          exact sameRange_trans h0 (sameRange_trans h1 (setTransformers_sameRange hs))

theorem copy_sameRange {A : Arith F} {W : World F M R G} (hW : KeepsRanges W) {sh : Shared F G}
    {s : Opt F M R} {rng : R} {o : Opt F M R} {sh' : Shared F G}
    (h : Opt.copy A W sh s rng = (sh', .ok o)) : List.Forall₂ SameRange sh.dims sh'.dims := by
  unfold Opt.copy at h
  generalize hi : Opt.init (M := M) A W sh { s.cfg with queueSize := none } rng = q at h
  obtain ⟨sh₁, out⟩ := q
  cases out with
  | error e => simp at h
  | ok o₁ =>
    have h0 := init_sameRange hW hi
    simp only at h
    split at h
    · simp only [Prod.mk.injEq] at h
      rw [← h.1]; exact h0
    · split at h
      · simp at h
      · simp only [Prod.mk.injEq] at h
        rw [← h.1]; exact h0

theorem askMany_sameRange {A : Arith F} {W : World F M R G} (hW : KeepsRanges W) {sh : Shared F G}
    {s : Opt F M R} {n : ℤ} {strat : Strategy} {X : List (Point F)}
    (h : (askMany A W sh s n strat).2.2 = .ok X) :
    List.Forall₂ SameRange sh.dims (askMany A W sh s n strat).1.dims := by
  obtain ⟨_, _, ⟨_, h1⟩ | ⟨sh₁, o, o', h1, _, h2⟩⟩ := askMany_ok h
  · rw [h1]; exact sameRange_refl _
  · rw [h2]; exact copy_sameRange hW h1

omit [LinearOrder F] in
theorem batched_cons {α : Type} {k : ℤ} {b : List α} {bs : List (List α)} (h0 : 0 < b.length)
    (h1 : (b.length : ℤ) ≤ k) (h2 : bs ≠ [] → (b.length : ℤ) = k) (h3 : Batched k bs) :
    Batched k (b :: bs) := by
  intro pre c rest h
  cases pre with
  | nil =>
    simp only [List.nil_append, List.cons.injEq] at h
    obtain ⟨rfl, rfl⟩ := h
    exact ⟨h0, h1, h2⟩
  | cons a pre =>
    simp only [List.cons_append, List.cons.injEq] at h
    exact h3 pre c rest h.2

omit [LinearOrder F] in
theorem traceOf_append (cbs : List (Callback F M)) (hist : List (Result F M))
    (a b : List (List (Val F) × Result F M)) :
    traceOf cbs hist (a ++ b) = traceOf cbs hist a ++ traceOf cbs (hist ++ a.map Prod.snd) b := by
  induction a generalizing hist with
  | nil => simp [traceOf]
  | cons x a ih => obtain ⟨vs, r⟩ := x; simp [traceOf, ih]

/-- The number of rounds granted suffices: more of them change nothing. -/
theorem searchLoop_fuel (A : Arith F) (W : World F M R G) (ev : Evaluator F)
    (cbs : List (Callback F M)) (space : SearchDict F) (nPoints : ℤ) (fuel fuel' : Nat) (n : ℤ)
    (st : SearchState F M R G) (h : n ≤ fuel) (h' : fuel ≤ fuel') :
    searchLoop A W ev cbs space nPoints fuel' n st = searchLoop A W ev cbs space nPoints fuel n st := by
  induction fuel generalizing fuel' n st with
  | zero =>
    cases fuel' with
    | zero => rfl
    | succ f => simp only [searchLoop]; rw [if_pos (by omega)]
  | succ fuel ih =>
    cases fuel' with
    | zero => omega
    | succ fuel' =>
      simp only [searchLoop]
      by_cases hn : 0 < n
      · rw [if_neg (by omega), if_neg (by omega)]
        by_cases hp : 0 < nPoints
        · generalize searchStep A W ev space st (min n nPoints) = q
          obtain ⟨st', out⟩ := q
          cases out with
          | error e => rfl
          | ok r =>
            simp only
            split
            · rfl
            · rfl
            · exact ih _ _ _ (by omega) (by omega)
        · have : ∃ st', ∃ e, searchStep A W ev space st (min n nPoints) = (st', .error e) := by
            unfold searchStep askMany
            rw [if_pos (by omega)]
            exact ⟨_, _, rfl⟩
          obtain ⟨st', e, he⟩ := this
          rw [he]
      · rw [if_pos hn, if_pos hn]

/-- The search of one subspace, when it returns. -/
theorem searchLoop_ok {A : Arith F} {W : World F M R G} {ev : Evaluator F}
    {sc : List (Candidate F) → Candidate F → Flt F} (hev : Faithful ev sc)
    {cbs : List (Callback F M)} {space : SearchDict F} {nPoints : ℤ} {fuel : Nat} {n : ℤ}
    {st st' : SearchState F M R G} (hc : CacheSized st.opt) (hf : n ≤ fuel)
    (h : searchLoop A W ev cbs space nPoints fuel n st = (st', .ok ())) :
    ∃ (bs : List (List (Point F))) (rs : List (Result F M)),
      st'.cands = st.cands ++ bs.flatten.map (pointAsdict space) ∧
      st'.batches = st.batches ++ bs.map (fun b => b.map (pointAsdict space)) ∧
      st'.opt.Xi = st.opt.Xi ++ bs.flatten.map Val.seq ∧
      st'.opt.yi = st.opt.yi ++ (scoresFrom sc st.cands (bs.flatten.map (pointAsdict space))).map
        (fun f => .num (Flt.neg A f)) ∧
      Batched nPoints bs ∧
      ((bs.flatten.length : ℤ) ≤ max n 0) ∧
      ((bs.flatten.length : ℤ) = max n 0 ∨ Stops cbs st'.hist) ∧
      rs.length = bs.length ∧ st'.hist = st.hist ++ rs ∧
      st'.calls = st.calls ++ traceOf cbs st.hist (rs.map fun r => ([], r)) ∧
      (∀ j, j + 1 < rs.length → ¬ Stops cbs (st.hist ++ rs.take (j + 1))) ∧
      (st'.last = (rs.getLast?).or st.last) ∧
      (∀ r, rs.getLast? = some r → getResult st'.opt = .ok r) ∧
      (rs = [] → st' = st) ∧ (0 < n → rs ≠ []) ∧
      (KeepsRanges W → ∀ p ∈ bs.flatten, List.Forall₂ Within st.shared.dims p) := by
  induction fuel generalizing n st with
  | zero =>
    simp only [searchLoop, Prod.mk.injEq, and_true] at h
    subst h
    refine ⟨[], [], by simp, by simp, by simp, by simp [scoresFrom], ?_, by simp, ?_, rfl, by simp,
      by simp [traceOf], by simp, by simp, by simp, by simp, fun h => by omega, by simp⟩
    · intro pre b rest h; simp at h
    · left; simp; omega
  | succ fuel ih =>
    simp only [searchLoop] at h
    by_cases hn : 0 < n
    · rw [if_neg (by omega)] at h
      generalize hq : searchStep A W ev space st (min n nPoints) = q at h
      obtain ⟨st₁, out⟩ := q
      cases out with
      | error e => simp at h
      | ok r =>
        simp only at h
        obtain ⟨ps, g1, g2, g3, g4, g5, g6, g7, g8, g9, g10, g11, g12, g13⟩ := searchStep_ok hev hc hq
        have hask : ∃ X, (askMany A W st.shared st.opt (min n nPoints) .clMin).2.2 = .ok X := by
          unfold searchStep at hq
          generalize askMany A W st.shared st.opt (min n nPoints) .clMin = a at hq ⊢
          obtain ⟨_, _, out⟩ := a
          cases out with
          | error e => simp at hq
          | ok X => exact ⟨X, rfl⟩
        obtain ⟨X, hX⟩ := hask
        have hrange := fun hW : KeepsRanges W => askMany_sameRange hW hX
        rw [← g3] at hrange
        have hin : KeepsRanges W → ∀ p ∈ ps, List.Forall₂ Within st.shared.dims p :=
          fun hW p hp => (sameRange_within (hrange hW) p).2 (g13 p hp)
        obtain ⟨s1, -, -⟩ := evalCallbacks_spec (st₁.hist ++ [r]) r cbs 0 false
        cases hcb : (evalCallbacks (st₁.hist ++ [r]) r cbs 0 false).2 with
        | error e => simp [hcb] at h
        | ok b =>
          obtain ⟨t1, t2, -⟩ := s1 b hcb
          simp only [Nat.zero_add, Bool.false_eq_true, false_or] at t1 t2
          cases b with
          | true =>
            simp only [hcb, Prod.mk.injEq, and_true] at h
            subst h
            rw [g11] at t1
            simp only [g11, g12]
            refine ⟨[ps], [r], by simp [g4], by simp [g5], by simp [g6], by simp [g7],
              ?_, ?_, Or.inr ?_, rfl, rfl, ?_, by simp, by simp, ?_, by simp, by simp, by simpa using hin⟩
            · refine batched_cons g2 (by omega) (fun h => absurd rfl h) ?_
              intro pre b rest h; simp at h
            · simp; omega
            · rw [g11] at t2; exact t2.1 rfl
            · simp [traceOf, t1]
            · intro r' hr'
              simp at hr'
              rw [← hr']; exact g10
          | false =>
            simp only [hcb] at h
            have hcs : CacheSized st₁.opt := fun k s X hX => by rw [g9] at hX; cases hX
            have hpn : 0 < nPoints := by omega
            obtain ⟨bs, rs, e1, e2, e3, e4, e5, e6, e7, e8, e9, e10, e11, e12, e13, e14, -, e15⟩ :=
              ih (n := n - nPoints)
                (st := { st₁ with
                  hist := st₁.hist ++ [r], last := some r
                  calls := st₁.calls ++ (evalCallbacks (st₁.hist ++ [r]) r cbs 0 false).1 })
                hcs (by omega) h
            simp only at e1 e2 e3 e4 e9 e10 e11 e12 e13 e15
            have hbs : bs ≠ [] → 0 < n - nPoints := by
              intro hne
              by_contra hlt
              obtain ⟨b, bs', rfl⟩ := List.exists_cons_of_ne_nil hne
              have := (e5 [] b bs' rfl).1
              simp only [List.flatten_cons, List.length_append] at e6
              omega
            refine ⟨ps :: bs, r :: rs, ?_, ?_, ?_, ?_, ?_, ?_, ?_, by simp [e8], ?_, ?_, ?_, ?_, ?_, by simp,
              by simp, ?_⟩
            · rw [e1, g4]; simp
            · rw [e2, g5]; simp
            · rw [e3, g6]; simp
            · rw [e4, g7, g4]
              simp only [List.flatten_cons, List.map_append, scoresFrom_append, List.append_assoc]
            · exact batched_cons g2 (by omega) (fun h => by have := hbs h; omega) e5
            · simp only [List.flatten_cons, List.length_append, Nat.cast_add]
              by_cases hb : bs = []
              · subst hb; simp; omega
              · have := hbs hb; omega
            · simp only [List.flatten_cons, List.length_append, Nat.cast_add]
              rcases e7 with e7 | e7
              · left; omega
              · exact Or.inr e7
            · rw [e9, g11]; simp
            · rw [g11] at t1
              rw [e10, g12, g11, t1]
              simp [traceOf]
            · intro j hj
              rw [g11] at e11 t2
              cases j with
              | zero =>
                simp only [zero_add, List.take_succ_cons, List.take_zero]
                exact fun hS => by simpa using t2.2 hS
              | succ j =>
                have := e11 j (by simpa using hj)
                simpa using this
            · rw [e12]
              cases rs with
              | nil => simp
              | cons a l => simp [List.getLast?_cons]
            · intro r' hr'
              cases rs with
              | nil =>
                have := e14 rfl
                rw [this]
                simp at hr'
                rw [← hr']
                exact g10
              | cons a l =>
                apply e13
                rw [List.getLast?_cons_cons] at hr'
                exact hr'
            · intro hW p hp
              simp only [List.flatten_cons, List.mem_append] at hp
              rcases hp with hp | hp
              · exact hin hW p hp
              · exact (sameRange_within (hrange hW) p).2 (e15 hW p hp)
    · rw [if_pos hn] at h
      simp only [Prod.mk.injEq, and_true] at h
      subst h
      refine ⟨[], [], by simp, by simp, by simp, by simp [scoresFrom], ?_, by simp, ?_, rfl, by simp,
        by simp [traceOf], by simp, by simp, by simp, by simp, fun h => absurd h hn, by simp⟩
      · intro pre b rest h; simp at h
      · left; simp; omega

omit [LinearOrder F] in
theorem batched_map {α β : Type} {k : ℤ} {bs : List (List α)} (f : α → β) (h : Batched k bs) :
    Batched k (bs.map fun b => b.map f) := by
  induction bs with
  | nil => intro pre b rest h; simp at h
  | cons b bs ih =>
    obtain ⟨h0, h1, h2⟩ := h [] b bs rfl
    refine batched_cons (by simpa using h0) (by simpa using h1) (fun hne => ?_)
      (ih fun pre c rest hc => h (b :: pre) c rest (by rw [hc]; rfl))
    rw [List.length_map]
    exact h2 (by simpa using hne)

/-- The loop over the subspaces, when it returns. -/
theorem searchAll_ok {A : Arith F} {W : World F M R G} {ev : Evaluator F}
    {sc : List (Candidate F) → Candidate F → Flt F} (hev : Faithful ev sc)
    {cbs : List (Callback F M)} {nIter nPoints : ℤ}
    {os : List (SearchElem F × Shared F G × Opt F M R)} {rng : R} {cands : List (Candidate F)}
    {hist : List (Result F M)} {last : Option (Result F M)} {subs : List (SubSearch F M R G)}
    (hfresh : ∀ q ∈ os, q.2.2.Xi = [] ∧ q.2.2.yi = [] ∧ q.2.2.cache = none)
    (h : searchAll A W ev cbs nIter nPoints os rng cands hist last = (subs, .ok ())) :
    subs.length = os.length ∧
    ∀ (k : Nat) (e : SearchElem F) (sh : Shared F G) (o : Opt F M R) (sub : SubSearch F M R G),
      os[k]? = some (e, sh, o) → subs[k]? = some sub →
      ∃ (bs : List (List (Point F))) (rs hist' : List (Result F M)),
        sub.final.batches = bs.map (fun b => b.map (pointAsdict e.space)) ∧
        Batched nPoints bs ∧
        (bs.flatten.length : ℤ) ≤ max (e.iters nIter) 0 ∧
        ((bs.flatten.length : ℤ) = max (e.iters nIter) 0 ∨ Stops cbs sub.final.hist) ∧
        rs.length = bs.length ∧ sub.final.hist = hist' ++ rs ∧
        (∀ j, j + 1 < rs.length → ¬ Stops cbs (hist' ++ rs.take (j + 1))) ∧
        sub.final.calls = traceOf cbs hist' (rs.map fun r => ([], r)) ∧
        hist' = (if k = 0 then hist else ((subs[k - 1]?).map fun s => s.final.hist).getD []) ∧
        (0 < e.iters nIter → rs ≠ [] ∧
          sub.result.xIters = bs.flatten.map Val.seq ∧
          sub.result.funcVals = (scoresFrom sc (cands ++ (subs.take k).flatMap SubSearch.evaluated)
            (bs.flatten.map (pointAsdict e.space))).map (Flt.neg A)) ∧
        (e.iters nIter ≤ 0 → some sub.result =
          (if k = 0 then last else (subs[k - 1]?).map fun s => s.result)) ∧
        (KeepsRanges W → ∀ p ∈ bs.flatten, List.Forall₂ Within sh.dims p) ∧
        (0 < e.iters nIter → getResult sub.final.opt = .ok sub.result) := by
  induction os generalizing rng cands hist last subs with
  | nil =>
    simp only [searchAll, Prod.mk.injEq, and_true] at h
    subst h
    exact ⟨rfl, by simp⟩
  | cons q os ih =>
    obtain ⟨e, sh, o⟩ := q
    obtain ⟨f1, f2, f3⟩ := hfresh (e, sh, o) List.mem_cons_self
    simp only at f1 f2 f3
    simp only [searchAll] at h
    generalize hq : searchLoop A W ev cbs e.space nPoints (e.iters nIter).toNat (e.iters nIter)
      { shared := sh, opt := { o with rng := rng }, cands := cands, batches := [], hist := hist,
        last := last, calls := [] } = q at h
    obtain ⟨st, out⟩ := q
    cases out with
    | error err => simp at h
    | ok u =>
      simp only at h
      cases hl : st.last with
      | none => simp [hl] at h
      | some r =>
        simp only [hl, Prod.mk.injEq] at h
        obtain ⟨h1, h2⟩ := h
        obtain ⟨bs, rs, e1, e2, e3, e4, e5, e6, e7, e8, e9, e10, e11, e12, e13, e14, e15, e16⟩ :=
          searchLoop_ok hev (fun k s X hX => by simp only [f3] at hX; cases hX)
            (Int.self_le_toNat _) hq
        simp only [f1, f2, List.nil_append] at e1 e2 e3 e4 e9 e10 e11 e12 e14 e16
        have hrest := ih (fun q hq => hfresh q (List.mem_cons_of_mem _ hq)) (Prod.ext rfl h2)
        obtain ⟨g1, g2⟩ := hrest
        rw [← h1]
        refine ⟨by simp [g1], ?_⟩
        intro k e' sh' o' sub hk hsub
        cases k with
        | zero =>
          simp only [List.getElem?_cons_zero, Option.some.injEq, Prod.mk.injEq] at hk hsub
          obtain ⟨rfl, rfl, rfl⟩ := hk
          subst hsub
          refine ⟨bs, rs, hist, e2, e5, e6, e7, e8, e9, e11, e10, by simp, ?_, ?_, e16, ?_⟩
          · intro hpos
            have hne := e15 hpos
            obtain ⟨r', hr'⟩ : ∃ r', rs.getLast? = some r' := by
              rw [List.getLast?_eq_some_getLast hne]; exact ⟨_, rfl⟩
            have hrr : r = r' := by
              rw [e12, hr'] at hl
              exact (Option.some.inj hl).symm
            subst hrr
            obtain ⟨c1, c2, -⟩ := createResult_parts (e13 r hr')
            refine ⟨hne, by rw [c1, e3], ?_⟩
            rw [e4] at c2
            simp only [List.take_zero, List.flatMap_nil, List.append_nil]
            rw [List.forall₂_map_left_iff] at c2
            have : List.Forall₂ (fun a b => Flt.neg A a = b)
                (scoresFrom sc cands (bs.flatten.map (pointAsdict e.space))) r.funcVals :=
              c2.imp fun a b hab => by simpa [valueOf] using hab
            rw [← List.forall₂_map_left_iff (f := Flt.neg A) (R := fun a b => a = b)] at this
            rw [List.forall₂_eq_eq_eq] at this
            exact this.symm
          · intro hneg
            have hb : bs = [] := by
              cases bs with
              | nil => rfl
              | cons b bs =>
                have := (e5 [] b bs rfl).1
                simp only [List.flatten_cons, List.length_append] at e6
                omega
            have hr : rs = [] := by
              rw [hb] at e8; exact List.length_eq_zero_iff.1 e8
            rw [if_pos rfl, ← hl, e12, hr]
            rfl
          · intro hpos
            have hne := e15 hpos
            obtain ⟨r', hr'⟩ : ∃ r', rs.getLast? = some r' := by
              rw [List.getLast?_eq_some_getLast hne]; exact ⟨_, rfl⟩
            rw [e12, hr'] at hl
            cases Option.some.inj hl
            exact e13 _ hr'
        | succ k =>
          simp only [List.getElem?_cons_succ] at hk hsub
          obtain ⟨bs', rs', hist', q1, q2, q3, q4, q5, q6, q7, q8, q9, q10, q11, q12⟩ :=
            g2 k e' sh' o' sub hk hsub
          refine ⟨bs', rs', hist', q1, q2, q3, q4, q5, q6, q7, q8, ?_, ?_, ?_, q12⟩
          · cases k with
            | zero => simpa using q9
            | succ k => simpa using q9
          · intro hpos
            obtain ⟨w1, w2, w3⟩ := q10 hpos
            refine ⟨w1, w2, ?_⟩
            rw [w3, e1]
            have hev1 : SubSearch.evaluated (⟨st, r⟩ : SubSearch F M R G) =
                bs.flatten.map (pointAsdict e.space) := by
              show st.batches.flatten = _
              rw [e2, List.map_flatten]
            simp only [List.take_succ_cons, List.flatMap_cons, hev1, List.append_assoc]
          · intro hneg
            have := q11 hneg
            cases k with
            | zero => simpa [hl] using this
            | succ k => simpa using this

end Skopt

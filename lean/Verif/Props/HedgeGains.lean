import Verif.Props.Hedge
import Verif.Props.GpPlot
import Verif.Props.Suggestion

/-!
# C87: the gains of `gp_hedge` are minus what the later surrogates predicted for the proposals
-/

namespace Skopt

variable {F M R G : Type}

/-! ## Specification -/

/-- One fit: the surrogate fitted, and the proposals (one per acquisition function) made with it. -/
abbrev HedgeRound (F M : Type) := M × List (List (Val F))

/-- `ps` are the successive predictions for the successive proposals: the proposals of each fit are judged by the surrogate
of the next fit. -/
def Judged (W : World F M R G) (log : List (HedgeRound F M)) (ps : List (List F)) : Prop :=
  List.Forall₂ (fun (q : HedgeRound F M × HedgeRound F M) p => W.predict q.2.1 q.1.2 = .ok p) (log.zip log.tail) ps

/-- `g` is what is left of zero after subtracting, one after the other, the `i`-th entries of `ps`. -/
def LossOf (A : Arith F) (ps : List (List F)) (i : Nat) (g : F) : Prop :=
  ∃ col : List F, List.Forall₂ (fun p v => p[i]? = some v) ps col ∧ g = col.foldl A.sub (A.ofInt 0)

/-- The three gains kept by the optimizer are those earned by the proposals of `log`. -/
structure GainsOf (A : Arith F) (W : World F M R G) (log : List (HedgeRound F M)) (s : Opt F M R) : Prop where
  /-- the listed surrogates are the last ones of the log -/
  models : ∃ j, s.models = (log.map Prod.fst).drop j
  /-- all of them if their number is not limited -/
  allModels : s.cfg.queueSize = none → s.models = log.map Prod.fst
  /-- one proposal per acquisition function -/
  three : ∀ q ∈ log, q.2.length = 3
  /-- the proposals waiting to be judged -/
  pending : s.nextXs = log.getLast?.map Prod.snd
  /-- the gains -/
  gains : ∃ ps g, Judged W log ps ∧ s.gains = some g ∧ g.length = 3 ∧
    ∀ (i : Nat) (v : F), g[i]? = some v → LossOf A ps i v

/-! ## Helpers -/

section
variable [LinearOrder F]

theorem suggest_rows {A : Arith F} {W : World F M R G} {dims : List (Dim F)} {est : M} {s : Opt F M R}
    (h : (suggest A W dims est s).2 = .ok ()) :
    ∃ rows, (suggest A W dims est s).1.nextXs = some rows ∧ rows.length = s.cfg.acq.candidates.length := by
  simp only [suggest] at h ⊢
  split at h
  · simp at h
  · next X hX =>
    split at h
    · simp at h
    · next yOpt hy =>
      split at h
      · simp at h
      · next u a he =>
        obtain ⟨rows, h1, h2⟩ := proposeAll_rows he ⟨_, rfl⟩
        simp only [Option.getD_some, List.nil_append] at h1
        split at h
        · simp at h
        · next x hx =>
          exact ⟨rows, h1, h2.length_eq.symm⟩

/-- A fit that succeeds: one model more, the old proposals judged by it, three new proposals. -/
theorem refit_gains {A : Arith F} {W : World F M R G} {dims : List (Dim F)} {u : Opt F M R}
    (h : (refit A W dims u).2 = .ok ()) :
    ∃ m rows, pushModel u.cfg.queueSize u.models m = .ok (refit A W dims u).1.models ∧
      updateGains A W u m = .ok (refit A W dims u).1.gains ∧ (refit A W dims u).1.nextXs = some rows ∧
      rows.length = u.cfg.acq.candidates.length := by
  unfold refit at h ⊢
  split at h
  · cases h
  · next Xt hXt =>
    dsimp only at h
    split at h
    · cases h
    · next est hest =>
      split at h
      · cases h
      · next g hg =>
        split at h
        · cases h
        · next ms hms =>
          simp only [hest, hg, hms]
          obtain ⟨rows, h1, h2⟩ := suggest_rows h
          obtain ⟨_, f2, f3, _⟩ := suggest_frame A W dims est
            { u with rng := (W.fit u.rng Xt u.yi).1, gains := g, models := ms }
          refine ⟨est, rows, ?_, ?_, h1, h2⟩
          · rw [f2]; exact hms
          · rw [f3]; exact hg

/-- A `tell` that returns: no fit and nothing changed, or one fit. -/
theorem tell_gains {A : Arith F} {W : World F M R G} {dims : List (Dim F)} {s : Opt F M R} {x : XArg F} {y : YArg F}
    {fit : Bool} {r : Result F M} (h : (tell A W dims s x y fit).2 = .ok r) :
    let t := (tell A W dims s x y fit).1
    t.cfg = s.cfg ∧ ((t.models = s.models ∧ t.gains = s.gains ∧ t.nextXs = s.nextXs) ∨
      ∃ u : Opt F M R, u.cfg = s.cfg ∧ u.nextXs = s.nextXs ∧ u.gains = s.gains ∧
        ∃ m rows, pushModel s.cfg.queueSize s.models m = .ok t.models ∧
          updateGains A W u m = .ok t.gains ∧ t.nextXs = some rows ∧ rows.length = s.cfg.acq.candidates.length) := by
  rcases tell_cases A W dims s x y fit with ⟨e, he⟩ | ⟨y', _, _, hy', he⟩
  · rw [he] at h; cases h
  · rw [he] at h ⊢
    rcases tellCore_cases A W dims s x y' fit with ⟨e, _, h3⟩ | ⟨u, hu, h3⟩
    · rw [h3] at h; cases h
    · obtain ⟨r1, r2, r3, r4, r5, _⟩ := record_frame hu
      have hf := tellCore_frame A W dims s x y' fit hu
      refine ⟨hf.1.trans r1, ?_⟩
      rcases h3 with ⟨a1, a2, a3, h7, h8⟩ | ⟨h4, h5⟩
      · rcases h8 with ⟨e, _, h9⟩ | ⟨h9, _⟩
        · rw [h9] at h; cases h
        · obtain ⟨m, rows, g1, g2, g3, g4⟩ := refit_gains h9
          refine Or.inr ⟨u, r1, r5, r4, m, rows, ?_, ?_, ?_, ?_⟩
          · rw [h7, ← r1, ← r3]; exact g1
          · rw [h7]; exact g2
          · rw [h7]; exact g3
          · rw [g4, r1]
      · refine Or.inl ?_
        rw [h5]; exact ⟨r3, r4, r5⟩

omit [LinearOrder F] in
theorem judged_snoc {W : World F M R G} {log : List (HedgeRound F M)} {ps : List (List F)} {q₀ q : HedgeRound F M}
    {p : List F} (h : Judged W (log ++ [q₀]) ps) (hp : W.predict q.1 q₀.2 = .ok p) :
    Judged W (log ++ [q₀] ++ [q]) (ps ++ [p]) := by
  unfold Judged at *
  have e : ∀ l : List (HedgeRound F M), (l ++ [q₀] ++ [q]).zip (l ++ [q₀] ++ [q]).tail =
      (l ++ [q₀]).zip (l ++ [q₀]).tail ++ [(q₀, q)] := by
    intro l
    induction l with
    | nil => rfl
    | cons a l ih =>
      cases l with
      | nil => rfl
      | cons b l => simpa using ih
  rw [e]
  exact List.rel_append h (.cons hp .nil)

omit [LinearOrder F] in
theorem LossOf.snoc {A : Arith F} {ps : List (List F)} {i : Nat} {g v : F} {p : List F} (h : LossOf A ps i g)
    (hp : p[i]? = some v) : LossOf A (ps ++ [p]) i (A.sub g v) := by
  obtain ⟨col, h1, h2⟩ := h
  refine ⟨col ++ [v], List.rel_append h1 (.cons hp .nil), ?_⟩
  rw [List.foldl_append, ← h2]; rfl

/-- The surrogates predict one value for every row (the contract of `predict`). -/
def PredictsEach (W : World F M R G) : Prop :=
  ∀ m rows p, W.predict m rows = .ok p → p.length = rows.length

omit [LinearOrder F] in
/-- One more fit. -/
theorem GainsOf.snoc {A : Arith F} {W : World F M R G} {log : List (HedgeRound F M)} {s t u : Opt F M R}
    (hpred : PredictsEach W) (hs : GainsOf A W log s) (hacq : s.cfg.acq = .gpHedge) (hcfg : t.cfg = s.cfg) (u1 : u.cfg = s.cfg)
    (u2 : u.nextXs = s.nextXs) (u3 : u.gains = s.gains) {m : M} {rows : List (List (Val F))}
    (h1 : pushModel s.cfg.queueSize s.models m = .ok t.models) (h2 : updateGains A W u m = .ok t.gains)
    (h3 : t.nextXs = some rows) (h4 : rows.length = s.cfg.acq.candidates.length) :
    GainsOf A W (log ++ [(m, rows)]) t := by
  have h4' : rows.length = 3 := by rw [h4, hacq]; rfl
  refine ⟨?_, ?_, ?_, ?_, ?_⟩
  · obtain ⟨j, hj⟩ := hs.models
    rcases pushModel_get h1 with h | ⟨a, rest, e1, e2⟩
    · rcases Nat.le_total j log.length with hle | hge
      · exact ⟨j, by rw [h, hj, List.map_append, List.drop_append_of_le_length (by simpa using hle)]; rfl⟩
      · refine ⟨log.length, ?_⟩
        rw [h, hj, List.drop_eq_nil_of_le (by simpa using hge), List.map_append,
          List.drop_append_of_le_length (by simp), List.drop_eq_nil_of_le (by simp)]
        rfl
    · have hlt : j < log.length := by
        by_contra hge
        rw [List.drop_eq_nil_of_le (by simp; omega)] at hj
        rw [hj] at e1; cases e1
      refine ⟨j + 1, ?_⟩
      rw [e2, List.map_append, List.drop_append_of_le_length (by simp; omega)]
      have : rest = ((log.map Prod.fst).drop j).tail := by rw [← hj, e1]; rfl
      rw [this, List.tail_drop]; rfl
  · intro hq
    rw [hcfg] at hq
    have := hs.allModels hq
    rw [hq] at h1
    simp only [pushModel, Except.ok.injEq] at h1
    rw [← h1, this, List.map_append]; rfl
  · intro q hq
    rcases List.mem_append.1 hq with hq | hq
    · exact hs.three q hq
    · rw [List.mem_singleton] at hq; rw [hq]; exact h4'
  · rw [h3]; simp
  · obtain ⟨ps, g, g1, g2, g3, g4⟩ := hs.gains
    unfold updateGains at h2
    rw [u1, hacq, u2, u3, g2, hs.pending] at h2
    rcases List.eq_nil_or_concat log with rfl | ⟨l, q₀, rfl⟩
    · simp only [List.getLast?_nil, Option.map_none, Except.ok.injEq] at h2
      refine ⟨ps, g, ?_, h2.symm, g3, g4⟩
      simpa [Judged] using g1
    · simp only [List.concat_eq_append, List.getLast?_append, List.getLast?_singleton, Option.some_or,
        Option.map_some] at h2
      have h₀ : q₀.2.length = 3 := hs.three q₀ (by simp)
      rw [if_neg (by cases hq : q₀.2 with | nil => simp [hq] at h₀ | cons => simp)] at h2
      obtain ⟨p, hp, h2⟩ := bind_eq_ok.1 h2
      rw [if_neg (by rw [hpred _ _ _ hp]; omega)] at h2
      split at h2
      · cases h2
      · next hl =>
        have hl' : p.length = g.length := not_not.1 hl
        rw [List.concat_eq_append] at g1 ⊢
        refine ⟨ps ++ [p], List.zipWith A.sub g p, judged_snoc g1 hp, (Except.ok.inj h2).symm, ?_, ?_⟩
        · rw [List.length_zipWith, hl', g3]; rfl
        · intro i v hv
          rw [List.getElem?_zipWith] at hv
          cases ha : g[i]? with
          | none => rw [ha] at hv; simp at hv
          | some a =>
            cases hb : p[i]? with
            | none => rw [ha, hb] at hv; simp at hv
            | some b =>
              rw [ha, hb] at hv
              have : v = A.sub a b := by simpa using hv.symm
              rw [this]
              exact (g4 i a ha).snoc hb

theorem step_gains {A : Arith F} {W : World F M R G} {sh : Shared F G} {s : Opt F M R} {op : Op F}
    {log : List (HedgeRound F M)} (hpred : PredictsEach W) (hs : GainsOf A W log s) (hacq : s.cfg.acq = .gpHedge)
    (hr : (∃ x y fit, op = .tell x y fit) → Returns (step A W sh s op).2.2) :
    (step A W sh s op).2.1.cfg.acq = .gpHedge ∧ ∃ more, GainsOf A W (log ++ more) (step A W sh s op).2.1 := by
  cases op with
  | ask =>
    obtain ⟨r, e⟩ := askOne_frame A W sh.dims s
    refine ⟨?_, [], ?_⟩
    · simp only [step, e]; exact hacq
    · simp only [step, e, List.append_nil]
      exact ⟨hs.1, hs.2, hs.3, hs.4, hs.5⟩
  | askMany n strat =>
    obtain ⟨r, c, e⟩ := askMany_frame A W sh s n strat
    refine ⟨?_, [], ?_⟩
    · simp only [step, e]; exact hacq
    · simp only [step, e, List.append_nil]
      exact ⟨hs.1, hs.2, hs.3, hs.4, hs.5⟩
  | updateNext =>
    obtain ⟨r, nx, e⟩ := updateNext_frame A W sh s
    refine ⟨?_, [], ?_⟩
    · simp only [step, e]; exact hacq
    · simp only [step, e, List.append_nil]
      exact ⟨hs.1, hs.2, hs.3, hs.4, hs.5⟩
  | getResult => exact ⟨hacq, [], by rw [List.append_nil]; exact hs⟩
  | tell x y fit =>
    obtain ⟨out, ho⟩ := hr ⟨_, _, _, rfl⟩
    simp only [step, bind_eq_ok] at ho ⊢
    obtain ⟨r, hr', _⟩ := ho
    obtain ⟨c1, ⟨c2, c3, c4⟩ | ⟨u, u1, u2, u3, m, rows, p1, p2, p3, p4⟩⟩ := tell_gains hr'
    · refine ⟨by rw [c1]; exact hacq, [], ?_⟩
      rw [List.append_nil]
      exact ⟨c2 ▸ hs.1, fun hq => c2 ▸ hs.2 (c1 ▸ hq), hs.3, c4.trans hs.4, by rw [c3]; exact hs.5⟩
    · exact ⟨by rw [c1]; exact hacq, [(m, rows)], hs.snoc hpred hacq c1 u1 u2 u3 p1 p2 p3 p4⟩

theorem runOps_gains {A : Arith F} {W : World F M R G} (hpred : PredictsEach W) (ops : List (Op F)) :
    ∀ (sh : Shared F G) (s : Opt F M R) (log : List (HedgeRound F M)), s.cfg.acq = .gpHedge → GainsOf A W log s →
      (∀ q ∈ ops.zip (runOps A W sh s ops).2.2, (∃ x y fit, q.1 = .tell x y fit) → Returns q.2) →
      ∃ more, GainsOf A W (log ++ more) (runOps A W sh s ops).2.1 := by
  induction ops with
  | nil => intro sh s log _ h _; exact ⟨[], by rw [List.append_nil]; exact h⟩
  | cons op ops ih =>
    intro sh s log hacq hs hr
    obtain ⟨h1, more, h2⟩ := step_gains hpred hs hacq fun ht => hr (op, _) List.mem_cons_self ht
    obtain ⟨more', h3⟩ := ih (step A W sh s op).1 _ _ h1 h2 fun q hq => hr q (List.mem_cons_of_mem _ hq)
    refine ⟨more ++ more', ?_⟩
    rw [← List.append_assoc]
    exact h3

end

/-! ## C87 -/

/-- **C87.** A new `gp_hedge` optimizer, used by any sequence of calls of its methods of which every `tell` returns: there is
a record of its fits (surrogates and three proposals each; the listed surrogates are the end of it) such that the gain of the
`i`-th acquisition function is zero minus, for every fit but the last, what the *next* surrogate predicted for the `i`-th
proposal.  In any arithmetic; asking, listing results and refreshing the suggestion leave the gains alone. -/
theorem C87_gains [LinearOrder F] (A : Arith F) (W : World F M R G) (hpred : PredictsEach W) (sh : Shared F G) (cfg : Config)
    (hacq : cfg.acq = .gpHedge) (rng : R) (pts : Option (List (Point F))) (ops : List (Op F))
    (hok : ∀ q ∈ ops.zip (runOps A W sh (Opt.fresh A cfg rng pts : Opt F M R) ops).2.2,
      (∃ x y fit, q.1 = .tell x y fit) → Returns q.2) :
    ∃ log, GainsOf A W log (runOps A W sh (Opt.fresh A cfg rng pts : Opt F M R) ops).2.1 := by
  have h0 : GainsOf A W [] (Opt.fresh A cfg rng pts : Opt F M R) := by
    refine ⟨⟨0, rfl⟩, fun _ => rfl, fun q hq => absurd hq List.not_mem_nil, rfl,
      ⟨[], List.replicate 3 (A.ofInt 0), List.Forall₂.nil, ?_, rfl, ?_⟩⟩
    · simp [Opt.fresh, hacq]
    · intro i v hv
      refine ⟨[], .nil, ?_⟩
      exact List.eq_of_mem_replicate (List.mem_of_getElem? hv)
  obtain ⟨log, h⟩ := runOps_gains hpred ops sh _ [] hacq h0 hok
  exact ⟨log, h⟩

/-- The total predicted for the proposals of the `i`-th acquisition function. -/
def predictedTotal (ps : List (List ℝ)) (i : Nat) : ℝ := (ps.map fun p => p.getD i 0).sum

theorem lossOf_exact {ps : List (List ℝ)} {i : Nat} {g : ℝ} (h : LossOf exact ps i g) : g = - predictedTotal ps i := by
  obtain ⟨col, h1, rfl⟩ := h
  have hf : ∀ (l : List ℝ) (a : ℝ), l.foldl exact.sub a = a - l.sum := by
    intro l
    induction l with
    | nil => intro a; simp
    | cons b l ih =>
      intro a
      rw [List.foldl_cons, ih, List.sum_cons]
      show a - b - l.sum = _
      ring
  have h0 : exact.ofInt 0 = (0 : ℝ) := by show ((0 : ℤ) : ℝ) = 0; simp
  rw [hf, h0, zero_sub, neg_inj, predictedTotal]
  congr 1
  clear hf h0
  induction h1 with
  | nil => rfl
  | cons h _ ih => rw [List.map_cons, ← ih, List.getD_eq_getElem?_getD, h]; rfl

/-- **C87 (who is preferred).** In exact arithmetic the gains are minus the totals predicted for the proposals; so the
acquisition function whose proposals turned out to be predicted lower in total is drawn with the larger probability (objective
values are minimised), `eta` being positive. -/
theorem C87_lower_predictions_preferred (W : World ℝ M R G) (hpred : PredictsEach W) (hexp : W.exp = Real.exp) (heta : 0 < W.eta)
    (sh : Shared ℝ G) (cfg : Config)
    (hacq : cfg.acq = .gpHedge) (rng : R) (pts : Option (List (Point ℝ))) (ops : List (Op ℝ))
    (hok : ∀ q ∈ ops.zip (runOps exact W sh (Opt.fresh exact cfg rng pts : Opt ℝ M R) ops).2.2,
      (∃ x y fit, q.1 = .tell x y fit) → Returns q.2) :
    let t := (runOps exact W sh (Opt.fresh exact cfg rng pts : Opt ℝ M R) ops).2.1
    ∃ log ps, Judged W log ps ∧ (cfg.queueSize = none → t.models = log.map Prod.fst) ∧
      t.gains = some [-predictedTotal ps 0, -predictedTotal ps 1, -predictedTotal ps 2] ∧
      ∀ (i j : Nat) (a b : ℝ), ((t.gains.map (hedgeProbs exact W.exp W.eta)).getD [])[i]? = some a →
        ((t.gains.map (hedgeProbs exact W.exp W.eta)).getD [])[j]? = some b →
        predictedTotal ps i < predictedTotal ps j → b < a := by
  intro t
  obtain ⟨log, h⟩ := C87_gains exact W hpred sh cfg hacq rng pts ops hok
  obtain ⟨ps, g, g1, g2, g3, g4⟩ := h.gains
  have hg : g = [-predictedTotal ps 0, -predictedTotal ps 1, -predictedTotal ps 2] := by
    match g, g3, g4 with
    | [a, b, c], _, g4 =>
      rw [lossOf_exact (g4 0 a rfl), lossOf_exact (g4 1 b rfl), lossOf_exact (g4 2 c rfl)]
  have hcfg : t.cfg = cfg := (runOps_frame exact W sh _ ops).1
  refine ⟨log, ps, g1, fun hq => h.allModels ((congrArg Config.queueSize hcfg).trans hq), g2.trans (by rw [hg]), ?_⟩
  intro i j a b ha hb hlt
  rw [show t.gains = some g from g2, Option.map_some, Option.getD_some, hexp, hedgeProbs_eq, List.getElem?_map] at ha hb
  have hval : ∀ (k : Nat) (c : ℝ), (g[k]?.map (hedgeWeight W.eta g)) = some c →
      c = hedgeWeight W.eta g (-predictedTotal ps k) := by
    intro k c hk
    cases hgk : g[k]? with
    | none => rw [hgk] at hk; simp at hk
    | some v =>
      rw [hgk] at hk
      rw [← lossOf_exact (g4 k v hgk)]
      simpa using hk.symm
  rw [hval i a ha, hval j b hb]
  unfold hedgeWeight
  apply div_lt_div_of_pos_right _ (sum_exp_pos W.eta (by rw [hg]; simp))
  apply Real.exp_lt_exp.2
  have := mul_lt_mul_of_pos_left hlt heta
  linarith

/-- A world whose surrogates predict the first coordinate plus the number of observations they were fitted to. -/
def judgingWorld : World ℚ Nat Nat Unit :=
  { okWorld with predict := fun m X => .ok (X.map fun row => match row with
    | .num x :: _ => x + m
    | _ => 0) }

example : PredictsEach judgingWorld := by
  rintro m rows p h
  cases h
  simp

/-- Four tells, three fits: the proposals (all at 1/2) of the first fit are judged by the second surrogate (3 observations),
those of the second fit by the third surrogate (4 observations); `0 - 7/2 - 9/2 = -8`.
Meets the hypotheses of `C87_gains`, `C87_lower_predictions_preferred`. -/
example :
    let ops : List (Op ℚ) := [.tell (.lst [.num 1]) (.num (.fin 3)) true, .tell (.lst [.num 2]) (.num (.fin 5)) true, .ask,
      .tell (.lst [.num 2]) (.num (.fin 5)) true, .getResult, .tell (.lst [.num 2]) (.num (.fin 5)) true]
    let run := runOps ratArith judgingWorld toyShared (toyOpt .gpHedge) ops
    (∀ r ∈ run.2.2, Returns r) ∧ run.2.1.models = [2, 3, 4] ∧ run.2.1.gains = some [-8, -8, -8] := by
  refine ⟨?_, by decide +kernel, by decide +kernel⟩
  have : ∀ r : Except PyErr (Out ℚ Nat), (match r with | .ok _ => true | .error _ => false) = true → Returns r := by
    intro r h
    cases r with
    | ok a => exact ⟨a, rfl⟩
    | error e => cases h
  intro r hr
  refine this r ?_
  revert r
  rw [← List.all_eq_true]
  decide +kernel

end Skopt

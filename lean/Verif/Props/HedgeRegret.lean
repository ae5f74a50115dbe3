import Verif.Lemmas.HedgeRegret
import Verif.Props.HedgeGains
import Verif.Props.Liveness
import Verif.Lemmas.RandomSearch
import Mathlib.Data.List.GetD

/-!
# C117: drawing with the weights of `gp_hedge` is nearly as good as the best of the three acquisition functions
-/

namespace Skopt

variable {F M R G : Type}

/-! ## Specification -/

/-- Minus the totals predicted so far for the proposals of the three acquisition functions. -/
def totalGains (ps : List (List ℝ)) : List ℝ := [-predictedTotal ps 0, -predictedTotal ps 1, -predictedTotal ps 2]

/-- The mean of the values `p` under the Hedge weights that belong to the totals of `done`. -/
noncomputable def drawnMean (eta : ℝ) (done : List (List ℝ)) (p : List ℝ) : ℝ :=
  (List.zipWith (fun g v => hedgeWeight eta (totalGains done) g * v) (totalGains done) p).sum

/-- What one has to expect in total when every proposal is drawn with the weights earned by the earlier ones: the sum over
all rounds of the mean of the three predicted values, each with the weight it had when the proposal was drawn. -/
noncomputable def drawnTotal (eta : ℝ) : List (List ℝ) → List (List ℝ) → ℝ
  | _, [] => 0
  | done, p :: ps => drawnMean eta done p + drawnTotal eta (done ++ [p]) ps

/-! ## Lemmas -/

theorem runOps_gains_all [LinearOrder F] {A : Arith F} {W : World F M R G} (hpred : PredictsEach W) (ops : List (Op F)) :
    ∀ (sh : Shared F G) (s : Opt F M R) (log : List (HedgeRound F M)), s.cfg.acq = .gpHedge → GainsOf A W log s →
      (∀ q ∈ ops.zip (runOps A W sh s ops).2.2, (∃ x y fit, q.1 = .tell x y fit) → Returns q.2) →
      ∃ more, GainsOf A W (log ++ more) (runOps A W sh s ops).2.1 ∧
        ∀ ops₁, ops₁ <+: ops → ∃ m₁, m₁ <+: more ∧ GainsOf A W (log ++ m₁) (runOps A W sh s ops₁).2.1 := by
  induction ops with
  | nil =>
    intro sh s log _ h _
    refine ⟨[], by rw [List.append_nil]; exact h, ?_⟩
    intro ops₁ h₁
    rw [List.prefix_nil] at h₁
    subst h₁
    exact ⟨[], List.prefix_rfl, by rw [List.append_nil]; exact h⟩
  | cons op ops ih =>
    intro sh s log hacq hs hr
    obtain ⟨h1, more, h2⟩ := step_gains hpred hs hacq fun ht => hr (op, _) List.mem_cons_self ht
    obtain ⟨more', h3, h4⟩ := ih (step A W sh s op).1 _ _ h1 h2 fun q hq => hr q (List.mem_cons_of_mem _ hq)
    refine ⟨more ++ more', by rw [← List.append_assoc]; exact h3, ?_⟩
    intro ops₁ h₁
    cases ops₁ with
    | nil => exact ⟨[], List.nil_prefix, by rw [List.append_nil]; exact hs⟩
    | cons o os =>
      obtain ⟨rfl, h₁'⟩ := List.cons_prefix_cons.1 h₁
      obtain ⟨m₁, g1, g2⟩ := h4 os h₁'
      refine ⟨more ++ m₁, List.prefix_append_right_inj _ |>.2 g1, ?_⟩
      rw [← List.append_assoc]
      exact g2

theorem judged_cons {W : World F M R G} {a b : HedgeRound F M} {log : List (HedgeRound F M)} {ps : List (List F)} :
    Judged W (a :: b :: log) ps ↔ ∃ p qs, ps = p :: qs ∧ W.predict b.1 a.2 = .ok p ∧ Judged W (b :: log) qs := by
  unfold Judged
  rw [List.tail_cons, List.zip_cons_cons, List.forall₂_cons_left_iff]
  constructor
  · rintro ⟨p, qs, h1, h2, rfl⟩
    exact ⟨p, qs, rfl, h1, h2⟩
  · rintro ⟨p, qs, rfl, h1, h2⟩
    exact ⟨p, qs, h1, h2, rfl⟩

theorem judged_prefix {W : World F M R G} : ∀ (log₁ log : List (HedgeRound F M)) (ps₁ ps : List (List F)), log₁ <+: log →
    Judged W log₁ ps₁ → Judged W log ps → ps₁ <+: ps
  | [], _, ps₁, _, _, h₁, _ => by
      have : ps₁ = [] := by simpa [Judged] using h₁
      subst this
      exact List.nil_prefix
  | [a], _, ps₁, _, _, h₁, _ => by
      have : ps₁ = [] := by simpa [Judged] using h₁
      subst this
      exact List.nil_prefix
  | a :: b :: log₁, [], _, _, hp, _, _ => by simp at hp
  | a :: b :: log₁, [c], _, _, hp, _, _ => by simp at hp
  | a :: b :: log₁, c :: d :: log, ps₁, ps, hp, h₁, h => by
      obtain ⟨rfl, hp'⟩ := List.cons_prefix_cons.1 hp
      obtain ⟨rfl, -⟩ := List.cons_prefix_cons.1 hp'
      obtain ⟨p, qs, rfl, e1, h₂⟩ := judged_cons.1 h₁
      obtain ⟨p', qs', rfl, e2, h'⟩ := judged_cons.1 h
      rw [e1] at e2
      injection e2 with e2
      subst e2
      exact List.cons_prefix_cons.2 ⟨rfl, judged_prefix (b :: log₁) (b :: log) qs qs' hp' h₂ h'⟩

theorem gainsOf_totals {W : World ℝ M R G} {log : List (HedgeRound ℝ M)} {s : Opt ℝ M R} (h : GainsOf exact W log s) :
    ∃ ps, Judged W log ps ∧ s.gains = some (totalGains ps) := by
  obtain ⟨ps, g, g1, g2, g3, g4⟩ := h.gains
  refine ⟨ps, g1, g2.trans ?_⟩
  match g, g3, g4 with
  | [a, b, c], _, g4 =>
    rw [lossOf_exact (g4 0 a rfl), lossOf_exact (g4 1 b rfl), lossOf_exact (g4 2 c rfl)]
    rfl

theorem predictedTotal_take (ps : List (List ℝ)) (i k : Nat) :
    predictedTotal (ps.take k) i = ∑ l ∈ Finset.range (min k ps.length), (ps.getD l []).getD i 0 := by
  induction ps generalizing k with
  | nil => simp [predictedTotal]
  | cons p ps ih =>
    cases k with
    | zero => simp [predictedTotal]
    | succ k =>
      have := ih k
      unfold predictedTotal at this ⊢
      rw [List.take_succ_cons, List.map_cons, List.sum_cons, this, List.length_cons, Nat.succ_min_succ, Finset.sum_range_succ']
      simp [add_comm]

theorem drawnMean_eq (eta : ℝ) (done : List (List ℝ)) {p : List ℝ} (hp : p.length = 3) :
    drawnMean eta done p = (∑ i : Fin 3, Real.exp (-(eta * predictedTotal done i)) * p.getD i 0) /
      ∑ i : Fin 3, Real.exp (-(eta * predictedTotal done i)) := by
  match p, hp with
  | [a, b, c], _ =>
    simp [drawnMean, totalGains, hedgeWeight, Fin.sum_univ_three]
    ring

theorem drawnTotal_eq (eta : ℝ) (ps : List (List ℝ)) (k : Nat) (hk : k ≤ ps.length) :
    drawnTotal eta (ps.take k) (ps.drop k) = ∑ l ∈ Finset.Ico k ps.length, drawnMean eta (ps.take l) (ps.getD l []) := by
  induction hn : ps.length - k generalizing k with
  | zero =>
    have : k = ps.length := by omega
    subst this
    simp [drawnTotal]
  | succ n ih =>
    have hlt : k < ps.length := by omega
    rw [List.drop_eq_getElem_cons hlt, drawnTotal, ← List.take_succ_eq_append_getElem hlt, ih (k + 1) hlt (by omega),
      Finset.sum_eq_sum_Ico_succ_bot hlt]
    congr 2
    rw [List.getD_eq_getElem _ _ hlt]

theorem drawnTotal_le (eta : ℝ) (heta : 0 < eta) (ps : List (List ℝ)) (hp : ∀ p ∈ ps, p.length = 3) {a b : ℝ}
    (hab : ∀ p ∈ ps, ∀ v ∈ p, a ≤ v ∧ v ≤ b) (i : Nat) (hi : i < 3) :
    drawnTotal eta [] ps ≤ predictedTotal ps i + Real.log 3 / eta + eta * (b - a) ^ 2 / 8 * ps.length := by
  have h := hedge_regret (n := 3) (by norm_num) eta heta (a := a) (b := b) (fun l i => (ps.getD l []).getD i 0) ps.length
    (by
      intro k hk j
      have hm : ps.getD k [] ∈ ps := by rw [List.getD_eq_getElem _ _ hk]; exact List.getElem_mem _
      refine hab _ hm _ ?_
      have hl := hp _ hm
      generalize ps.getD k [] = q at hl ⊢
      show q.getD j 0 ∈ q
      rw [List.getD_eq_getElem _ _ (by rw [hl]; exact j.isLt)]
      exact List.getElem_mem _) ⟨i, hi⟩
  have e := drawnTotal_eq eta ps 0 (Nat.zero_le _)
  rw [List.take_zero, List.drop_zero, ← Finset.range_eq_Ico] at e
  rw [e]
  have et := predictedTotal_take ps i ps.length
  rw [List.take_length, min_self] at et
  rw [et]
  refine le_trans (le_of_eq (Finset.sum_congr rfl fun k hk => ?_)) h
  rw [Finset.mem_range] at hk
  have hm : ps.getD k [] ∈ ps := by rw [List.getD_eq_getElem _ _ hk]; exact List.getElem_mem _
  rw [drawnMean_eq eta _ (hp _ hm)]
  simp only [predictedTotal_take, min_eq_left hk.le]

/-- The choice among the proposals of a fit that succeeds. -/
theorem suggest_draw [LinearOrder F] {A : Arith F} {W : World F M R G} {dims : List (Dim F)} {est : M} {s : Opt F M R}
    (hacq : s.cfg.acq = .gpHedge) (h : (suggest A W dims est s).2 = .ok ()) :
    ∃ g rows rng i row p ps, (suggest A W dims est s).1.gains = some g ∧ (suggest A W dims est s).1.nextXs = some rows ∧
      rows.length = 3 ∧ npArgmax (W.multinomial rng (hedgeProbs A W.exp W.eta g)).2 = .ok i ∧ rows[i]? = some row ∧
      Space.inverseTransform A dims [row] = .ok (p :: ps) ∧ (suggest A W dims est s).1.nextX = some p := by
  simp only [suggest] at h ⊢
  split at h
  · simp at h
  · next X hX =>
    split at h
    · simp at h
    · next yOpt hy =>
      split at h
      · simp at h
      · next u a he =>
        obtain ⟨rows, h1, h2⟩ := proposeAll_rows he ⟨_, rfl⟩
        simp only [Option.getD_some, List.nil_append] at h1
        have hlen : rows.length = 3 := by rw [← h2.length_eq]; simp only [hacq]; rfl
        have hu := (proposeAll_frame A W dims est yOpt X s.cfg.acq.candidates
          { s with rng := (W.draws s.rng dims s.cfg.nPoints).1, nextXs := some [] }).1.cfg
        rw [he] at hu
        have hu' : u.cfg.acq = .gpHedge := by rw [hu]; exact hacq
        split at h
        · simp at h
        · next x hx =>
          obtain ⟨row, hr, h3⟩ := bind_eq_ok.1 hx
          obtain ⟨ps, hps, h4⟩ := bind_eq_ok.1 h3
          simp only [choose, hu'] at hr
          split at hr
          · simp at hr
          · next g hg =>
            obtain ⟨i, hi, h5⟩ := bind_eq_ok.1 hr
            refine ⟨g, rows, u.rng, i, row, x, ps.tail, ?_⟩
            refine ⟨hg, h1, hlen, hi, ?_, ?_, rfl⟩
            · rw [h1] at h5
              exact pyGet_eq_ok.1 h5
            · rw [hps]
              have h6 := pyGet_eq_ok.1 h4
              match ps, h6 with
              | p :: ps, h6 =>
                injection h6 with h6
                rw [h6]
                rfl

theorem refit_draw [LinearOrder F] {A : Arith F} {W : World F M R G} {dims : List (Dim F)} {u : Opt F M R}
    (hacq : u.cfg.acq = .gpHedge) (h : (refit A W dims u).2 = .ok ()) :
    ∃ g rows rng i row p ps, (refit A W dims u).1.gains = some g ∧ (refit A W dims u).1.nextXs = some rows ∧
      rows.length = 3 ∧ npArgmax (W.multinomial rng (hedgeProbs A W.exp W.eta g)).2 = .ok i ∧ rows[i]? = some row ∧
      Space.inverseTransform A dims [row] = .ok (p :: ps) ∧ (refit A W dims u).1.nextX = some p := by
  unfold refit at h ⊢
  split at h
  · cases h
  · next Xt hXt =>
    dsimp only at h
    split at h
    · cases h
    · next est hest =>
      split at h
      · cases h
      · next g hg =>
        split at h
        · cases h
        · next ms hms =>
          simp only [hest, hg, hms]
          exact suggest_draw (s := { u with rng := (W.fit u.rng Xt u.yi).1, gains := g, models := ms }) hacq h

/-! ## C117 -/

/-- **C117.** A new `gp_hedge` optimizer, used by any sequence of calls of which every `tell` returns.  There is a record of
its fits, and of the values the next surrogate predicted for the three proposals of each fit, such that

* at every moment the gains, and so the weights with which the next proposal is drawn (`C117_draw`), are those earned by the
  part of the record that lies in the past;
* if the predicted values lie between `a` and `b`, then the sum of the predicted values of proposals drawn with these
  weights is to be expected at most `log 3 / eta + eta (b - a)² / 8` per fit above that of each single acquisition function.
-/
theorem C117_regret (W : World ℝ M R G) (hpred : PredictsEach W) (hexp : W.exp = Real.exp) (heta : 0 < W.eta)
    (sh : Shared ℝ G) (cfg : Config) (hacq : cfg.acq = .gpHedge) (rng : R) (pts : Option (List (Point ℝ))) (ops : List (Op ℝ))
    (hok : ∀ q ∈ ops.zip (runOps exact W sh (Opt.fresh exact cfg rng pts : Opt ℝ M R) ops).2.2,
      (∃ x y fit, q.1 = .tell x y fit) → Returns q.2) :
    ∃ (log : List (HedgeRound ℝ M)) (ps : List (List ℝ)), Judged W log ps ∧ log.length ≤ ps.length + 1 ∧
      (cfg.queueSize = none →
        (runOps exact W sh (Opt.fresh exact cfg rng pts : Opt ℝ M R) ops).2.1.models = log.map Prod.fst) ∧
      (∀ ops₁, ops₁ <+: ops → ∃ log₁ ps₁, log₁ <+: log ∧ ps₁ <+: ps ∧ Judged W log₁ ps₁ ∧
        (cfg.queueSize = none →
          (runOps exact W sh (Opt.fresh exact cfg rng pts : Opt ℝ M R) ops₁).2.1.models = log₁.map Prod.fst) ∧
        (runOps exact W sh (Opt.fresh exact cfg rng pts : Opt ℝ M R) ops₁).2.1.gains = some (totalGains ps₁) ∧
        hedgeProbs exact W.exp W.eta (totalGains ps₁) = (totalGains ps₁).map (hedgeWeight W.eta (totalGains ps₁))) ∧
      ∀ a b, (∀ p ∈ ps, ∀ v ∈ p, a ≤ v ∧ v ≤ b) → ∀ i < 3,
        drawnTotal W.eta [] ps ≤ predictedTotal ps i + Real.log 3 / W.eta + W.eta * (b - a) ^ 2 / 8 * ps.length := by
  have h0 : GainsOf exact W [] (Opt.fresh exact cfg rng pts : Opt ℝ M R) := by
    refine ⟨⟨0, rfl⟩, fun _ => rfl, fun q hq => absurd hq List.not_mem_nil, rfl,
      ⟨[], List.replicate 3 (exact.ofInt 0), List.Forall₂.nil, ?_, rfl, ?_⟩⟩
    · simp [Opt.fresh, hacq]
    · intro i v hv
      refine ⟨[], .nil, ?_⟩
      exact List.eq_of_mem_replicate (List.mem_of_getElem? hv)
  obtain ⟨log, h, hall⟩ := runOps_gains_all hpred ops sh _ [] hacq h0 hok
  rw [List.nil_append] at h
  obtain ⟨ps, hj, -⟩ := gainsOf_totals h
  have hcfg : ∀ o, (runOps exact W sh (Opt.fresh exact cfg rng pts : Opt ℝ M R) o).2.1.cfg = cfg :=
    fun o => (runOps_frame exact W sh _ o).1
  have hlen : ∀ p ∈ ps, p.length = 3 := by
    intro p hp
    obtain ⟨i, hi, rfl⟩ := List.mem_iff_getElem.1 hp
    have hl := List.Forall₂.length_eq hj
    have := List.Forall₂.get hj (i := i) (by omega) hi
    simp only [List.get_eq_getElem, List.getElem_zip] at this
    rw [hpred _ _ _ this]
    exact h.three _ (List.getElem_mem _)
  refine ⟨log, ps, hj, ?_, fun hq => h.allModels ((congrArg Config.queueSize (hcfg ops)).trans hq), ?_, fun a b hab i hi =>
    drawnTotal_le W.eta heta ps hlen hab i hi⟩
  · have hl := List.Forall₂.length_eq hj
    rw [List.length_zip, List.length_tail] at hl
    omega
  · intro ops₁ h₁
    obtain ⟨log₁, l1, l2⟩ := hall ops₁ h₁
    rw [List.nil_append] at l2
    obtain ⟨ps₁, j1, j2⟩ := gainsOf_totals l2
    exact ⟨log₁, ps₁, l1, judged_prefix log₁ log ps₁ ps l1 j1 hj, j1,
      fun hq => l2.allModels ((congrArg Config.queueSize (hcfg ops₁)).trans hq), j2, by rw [hexp, hedgeProbs_eq]⟩

/-- **C117, draw.** In any arithmetic, a `tell` of a `gp_hedge` optimizer that returns and fits (initial phase over, surrogate
given): the suggestion of the next `ask` is one of the three new proposals, decoded, namely the one on which the only draw of
`numpy.random.RandomState.multinomial` falls, and the probabilities handed to it are those of the gains *after* this fit. -/
theorem C117_draw [LinearOrder F] (A : Arith F) (W : World F M R G) (dims : List (Dim F)) (s : Opt F M R)
    (hacq : s.cfg.acq = .gpHedge) (hest : s.cfg.hasEst = true) (x : XArg F) (y : YArg F) (r : Result F M)
    (h : (tell A W dims s x y true).2 = .ok r) (hn : (tell A W dims s x y true).1.nInit ≤ 0) :
    ∃ g rows rng i row p ps,
      (tell A W dims s x y true).1.gains = some g ∧ (tell A W dims s x y true).1.nextXs = some rows ∧ rows.length = 3 ∧
      npArgmax (W.multinomial rng (hedgeProbs A W.exp W.eta g)).2 = .ok i ∧ rows[i]? = some row ∧
      Space.inverseTransform A dims [row] = .ok (p :: ps) ∧ (tell A W dims s x y true).1.nextX = some p := by
  rcases tell_cases A W dims s x y true with ⟨e, he⟩ | ⟨y', _, _, hy', he⟩
  · rw [he] at h; cases h
  rw [he] at h hn ⊢
  rcases tellCore_cases A W dims s x y' true with ⟨e, _, h3⟩ | ⟨u, hu, h3⟩
  · rw [h3] at h; cases h
  obtain ⟨r1, r2, r3, r4, r5, _⟩ := record_frame hu
  have hf := tellCore_frame A W dims s x y' true hu
  rcases h3 with ⟨a1, a2, a3, h7, h8⟩ | ⟨h4, h5⟩
  · rcases h8 with ⟨e, _, h9⟩ | ⟨h9, _⟩
    · rw [h9] at h; cases h
    · rw [h7]
      exact refit_draw (r1 ▸ hacq) h9
  · rw [h5] at hn
    exact absurd ⟨rfl, hn, by rw [r1]; exact hest⟩ h4

/-! ## Examples -/

/-- A world whose surrogates predict the first coordinate, cut off at 0 and 1. -/
noncomputable def clippedWorld : World ℝ Unit Unit Unit :=
  { realWorld with
    exp := Real.exp
    predict := fun _ X => .ok (X.map fun row => match row with
      | .num x :: _ => max 0 (min x 1)
      | _ => 0) }

theorem clippedWorld_bounded {m : Unit} {X : List (List (Val ℝ))} {p : List ℝ} (h : clippedWorld.predict m X = .ok p) :
    ∀ v ∈ p, 0 ≤ v ∧ v ≤ 1 := by
  cases h
  intro v hv
  obtain ⟨row, _, rfl⟩ := List.mem_map.1 hv
  split
  · exact ⟨le_max_left _ _, max_le zero_le_one (min_le_right _ _)⟩
  · exact ⟨le_rfl, zero_le_one⟩

theorem clippedWorld_reliable : Reliable clippedWorld liveDims := by
  have h := liveWorld_reliable
  exact ⟨h.fit, fun _ X _ _ => ⟨_, rfl, by simp⟩, h.draws, h.acquisition, h.argsort, h.lbfgs, h.multinomial, h.log⟩

/-- Whatever is told (a mixed space, observations one at a time, one initial point): `k + 1` observations mean `k` fits
judged by later ones at most, and the expected total is at most `log 3 + k / 8` above that of the best single acquisition
function.  Meets the hypotheses of `C117_regret`. -/
example (obs : List (Point ℝ × ℝ)) (hobs : ∀ o ∈ obs, InSpace exact liveDims o.1) :
    ∃ log ps, Judged clippedWorld log ps ∧ ∀ i < 3,
      drawnTotal 1 [] ps ≤ predictedTotal ps i + Real.log 3 + ps.length / 8 := by
  have hpred : PredictsEach clippedWorld := by
    rintro m rows p h
    cases h
    simp
  have hret := C68_ask_tell_returns_partial (W := clippedWorld) liveDims_workable clippedWorld_reliable none liveCfg
    ⟨(by decide), fun _ => (by decide), fun k hk => (by cases hk; decide)⟩ (by decide) () none (by simp)
    (obs.map fun o => .one o.1 (.num (.fin o.2)) true) (by
      intro c hc
      obtain ⟨o, ho, rfl⟩ := List.mem_map.1 hc
      exact ⟨⟨hobs o ho, inSpace_flat liveDims_workable.nonempty liveDims_workable.valid (hobs o ho), _, rfl⟩, rfl⟩)
  obtain ⟨log, ps, h1, -, -, -, h5⟩ := C117_regret clippedWorld hpred rfl (by norm_num [clippedWorld, realWorld])
    ⟨liveDims, none⟩ liveCfg rfl () none _ (fun q hq _ => hret q.2 (List.of_mem_zip hq).2)
  refine ⟨log, ps, h1, fun i hi => ?_⟩
  have hb := h5 0 1 (by
    intro p hp
    obtain ⟨k, hk, rfl⟩ := List.mem_iff_getElem.1 hp
    have hl := List.Forall₂.length_eq h1
    exact clippedWorld_bounded (List.Forall₂.get h1 (i := k) (by omega) hk)) i hi
  have e : clippedWorld.eta = 1 := rfl
  rw [e] at hb
  norm_num at hb
  linarith

/-- The first observation is told to an optimizer with one initial point, on the mixed space: the hypotheses of `C117_draw`. -/
example (p : Point ℝ) (hp : InSpace exact liveDims p) (y : ℝ) :
    ∃ r, (tell exact clippedWorld liveDims (Opt.fresh exact liveCfg () none) (.lst p) (.num (.fin y)) true).2 = .ok r ∧
      (tell exact clippedWorld liveDims (Opt.fresh exact liveCfg () none) (.lst p) (.num (.fin y)) true).1.nInit ≤ 0 := by
  have hf := inSpace_flat liveDims_workable.nonempty liveDims_workable.valid hp
  have hret : Returns (step exact clippedWorld ⟨liveDims, none⟩ (Opt.fresh exact liveCfg () none)
      (.tell (.lst p) (.num (.fin y)) true)).2.2 := C68_ask_tell_returns_partial (W := clippedWorld) liveDims_workable clippedWorld_reliable none liveCfg
    ⟨(by decide), fun _ => (by decide), fun k hk => (by cases hk; decide)⟩ (by decide) () none (by simp)
    [.one p (.num (.fin y)) true] (by
      intro c hc
      rw [List.mem_singleton] at hc
      subst hc
      exact ⟨⟨hp, hf, _, rfl⟩, rfl⟩) _ List.mem_cons_self
  obtain ⟨⟨t, r⟩, ht⟩ : ∃ q, q = tell exact clippedWorld liveDims (Opt.fresh exact liveCfg () none) (.lst p) (.num (.fin y)) true :=
    ⟨_, rfl⟩
  rw [← ht]
  cases r with
  | error e =>
    exfalso
    simp only [step, ← ht] at hret
    obtain ⟨_, hret⟩ := hret
    cases hret
  | ok r => exact ⟨r, rfl, by rw [(tell_one_state hf ht.symm).2.1]; decide⟩

end Skopt

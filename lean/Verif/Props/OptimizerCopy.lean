import Verif.Lemmas.OptimizerSound
import Verif.Lemmas.Generator
import Verif.Model.ExampleWorld
import Verif.Model.Sobol

/-!
# C35, C36, C38: constant liar, model queue, copies
-/

namespace Skopt

variable {F M R G : Type}

/-! ## C35 -/

/-- `L` is the aggregate that the strategy names: the smallest or the largest of the values. -/
def IsExtreme [LinearOrder F] (strat : Strategy) (ys : List F) (L : F) : Prop :=
  L ∈ ys ∧ match strat with
    | .clMin => ∀ y ∈ ys, L ≤ y
    | .clMax => ∀ y ∈ ys, y ≤ L
    | _ => False

theorem lie_scalar [LinearOrder F] (A : Arith F) (W : World F M R G) {acq : AcqFunc}
    (hps : acq.isPs = false) (strat : Strategy) {ys : List F} (hne : ys ≠ []) :
    lie A W acq strat (ys.map fun y => .num (.fin y)) = (do
      let l ← strat.aggregate A (ys.map Flt.fin)
      .ok (.num l)) := by
  unfold lie
  have he : (ys.map fun y => (.num (.fin y) : YArg F)).isEmpty = false := by
    cases ys with
    | nil => exact absurd rfl hne
    | cons => rfl
  simp only [he, hps, Bool.false_eq_true, if_false, flatNums_fin, ok_bind]

theorem map_fin_append (ys : List F) (k : Nat) (L : F) :
    (ys.map fun y => (.num (.fin y) : YArg F)) ++ List.replicate k (.num (.fin L)) =
      (ys ++ List.replicate k L).map fun y => .num (.fin y) := by
  simp

section
variable [LinearOrder F]

/-- The common part: a batch that is computed (not taken from the cache) comes from the loop on a copy
with the same history, and if appended lies do not change the lie, all lies are equal. -/
theorem batch_lies {A : Arith F} {W : World F M R G} {sh : Shared F G} {s : Opt F M R} (hs : Sound s)
    (hps : s.cfg.acq.isPs = false) {n : ℤ} {strat : Strategy} {X : List (Point F)}
    (hcache : s.cache = none) (h : (askMany A W sh s n strat).2.2 = .ok X) (l : Flt F)
    (hconst : ∀ k, lie A W s.cfg.acq strat (s.yi ++ List.replicate k (.num l)) = .ok (.num l)) :
    ∃ sh₁ o o', Opt.copy A W sh { s with rng := (W.seed s.rng).1 } (W.seed s.rng).2 = (sh₁, .ok o) ∧
      liarLoop A W sh₁.dims strat n.toNat o = (o', .ok X) ∧
      o'.yi = s.yi ++ List.replicate n.toNat (.num l) := by
  obtain ⟨hn, hst, ⟨h1, _⟩ | ⟨sh₁, o, o', h1, h2, _⟩⟩ := askMany_ok h
  · rw [hcache] at h1; cases h1
  · obtain ⟨_, c1, c2, c3, c4, c5, _⟩ := copy_sound (s := { s with rng := (W.seed s.rng).1 })
      ⟨hs.lists, hs.count, hs.aligned⟩ h1
    refine ⟨sh₁, o, o', h1, h2, ?_⟩
    have := liarLoop_yi (k := 0) (yi := s.yi) (by rw [c5]; exact hps) (by rw [c5]; exact hconst)
      (by simpa using c2) h2
    simpa using this

/-- **C35, extremes.** However the arithmetic rounds: in every state reached by documented calls whose
recorded values are the numbers `ys`, a batch `ask` with strategy `cl_min` or `cl_max` tells the copy
`n` times the same lie, the minimum resp. maximum of `ys` (which are the values on record after the last
round).

Missing: the per-second modes, where the lie is not an objective value (see the refutation). -/
theorem C35_lies_are_extreme_partial (A : Arith F) (W : World F M R G) (sh : Shared F G)
    (s : Opt F M R) (hs : Sound s) (hps : s.cfg.acq.isPs = false) (ys : List F) (hne : ys ≠ [])
    (hys : s.yi = ys.map fun y => .num (.fin y)) (hcache : s.cache = none) (n : ℤ)
    (strat : Strategy) (hstrat : strat = .clMin ∨ strat = .clMax) (X : List (Point F))
    (h : (askMany A W sh s n strat).2.2 = .ok X) :
    ∃ L, IsExtreme strat ys L ∧
      ∃ sh₁ o o', Opt.copy A W sh { s with rng := (W.seed s.rng).1 } (W.seed s.rng).2 = (sh₁, .ok o) ∧
        liarLoop A W sh₁.dims strat n.toNat o = (o', .ok X) ∧
        o'.yi = s.yi ++ List.replicate n.toNat (.num (.fin L)) := by
  rcases hstrat with rfl | rfl
  · obtain ⟨m, hm⟩ : ∃ m, fltMin (ys.map Flt.fin) = .ok m := by
      cases ys with
      | nil => exact absurd rfl hne
      | cons y ys => exact ⟨_, rfl⟩
    obtain ⟨h1, h2⟩ := fltMin_iff.1 hm
    obtain ⟨L, hL, rfl⟩ := List.mem_map.1 h1
    have h3 : ∀ y ∈ ys, L ≤ y := fun y hy => Flt.fin_le_fin.1 (h2 _ (List.mem_map_of_mem hy))
    refine ⟨L, ⟨hL, h3⟩, batch_lies hs hps hcache h _ ?_⟩
    intro k
    rw [hys, map_fin_append, lie_scalar A W hps _ (by simp [hne])]
    have : fltMin ((ys ++ List.replicate k L).map Flt.fin) = .ok (.fin L) := by
      rw [fltMin_iff]
      refine ⟨List.mem_map_of_mem (by simp [hL]), ?_⟩
      intro y hy
      obtain ⟨z, hz, rfl⟩ := List.mem_map.1 hy
      rcases List.mem_append.1 hz with hz | hz
      · exact Flt.fin_le_fin.2 (h3 z hz)
      · rw [(List.mem_replicate.1 hz).2]
    simp only [Strategy.aggregate, this, ok_bind]
  · obtain ⟨L, hL, h3⟩ : ∃ L ∈ ys, ∀ y ∈ ys, y ≤ L := by
      clear h hys hcache
      induction ys with
      | nil => exact absurd rfl hne
      | cons y ys ih =>
        by_cases he : ys = []
        · subst he; exact ⟨y, by simp⟩
        · obtain ⟨L, hL, h⟩ := ih he
          rcases le_total y L with hl | hl
          · exact ⟨L, by simp [hL], by simpa [hl] using h⟩
          · exact ⟨y, by simp, by
              intro z hz
              rcases List.mem_cons.1 hz with rfl | hz
              · exact le_rfl
              · exact (h z hz).trans hl⟩
    refine ⟨L, ⟨hL, h3⟩, batch_lies hs hps hcache h _ ?_⟩
    intro k
    rw [hys, map_fin_append, lie_scalar A W hps _ (by simp [hne])]
    have : fltMax ((ys ++ List.replicate k L).map Flt.fin) = .ok (.fin L) := by
      rw [fltMax_iff]
      refine ⟨by simp [hL], ?_⟩
      intro z hz
      rcases List.mem_append.1 hz with hz | hz
      · exact h3 z hz
      · rw [(List.mem_replicate.1 hz).2]
    simp only [Strategy.aggregate, this, ok_bind]

end

theorem fltMean_exact {ys : List ℝ} (hne : ys ≠ []) :
    fltMean exact (ys.map Flt.fin) = .fin (ys.sum / ys.length) := by
  have key : ∀ (ys : List ℝ) (a : ℝ),
      (ys.map Flt.fin).foldl (fltAdd exact) (.fin a) = .fin (a + ys.sum) := by
    intro ys
    induction ys with
    | nil => intro a; simp
    | cons y ys ih =>
      intro a
      rw [List.map_cons, List.foldl_cons]
      show (ys.map Flt.fin).foldl (fltAdd exact) (.fin (a + y)) = _
      rw [ih, List.sum_cons, add_assoc]
  unfold fltMean
  have he : (ys.map Flt.fin).isEmpty = false := by
    cases ys with
    | nil => exact absurd rfl hne
    | cons => rfl
  rw [he, if_neg (by simp), key]
  show Flt.fin ((((0 : ℤ) : ℝ) + ys.sum) / (((ys.map Flt.fin).length : ℤ) : ℝ)) = _
  simp

/-- **C35, mean.** With exact real arithmetic and strategy `cl_mean`, all `n` lies are the arithmetic mean
of the recorded values. -/
theorem C35_lies_are_mean_partial (W : World ℝ M R G) (sh : Shared ℝ G)
    (s : Opt ℝ M R) (hs : Sound s) (hps : s.cfg.acq.isPs = false) (ys : List ℝ) (hne : ys ≠ [])
    (hys : s.yi = ys.map fun y => .num (.fin y)) (hcache : s.cache = none) (n : ℤ)
    (X : List (Point ℝ)) (h : (askMany exact W sh s n .clMean).2.2 = .ok X) :
    ∃ sh₁ o o', Opt.copy exact W sh { s with rng := (W.seed s.rng).1 } (W.seed s.rng).2 =
        (sh₁, .ok o) ∧
      liarLoop exact W sh₁.dims .clMean n.toNat o = (o', .ok X) ∧
      o'.yi = s.yi ++ List.replicate n.toNat (.num (.fin (ys.sum / ys.length))) := by
  refine batch_lies hs hps hcache h _ ?_
  intro k
  rw [hys, map_fin_append, lie_scalar exact W hps _ (by simp [hne])]
  simp only [Strategy.aggregate, ok_bind]
  rw [fltMean_exact (by simp [hne])]
  have hl : (ys.length : ℝ) ≠ 0 := by
    have : ys.length ≠ 0 := by simpa using hne
    exact_mod_cast this
  have hl' : ((ys ++ List.replicate k (ys.sum / ys.length)).length : ℝ) ≠ 0 := by
    simp only [List.length_append, List.length_replicate]
    have : 0 < ys.length := List.length_pos_iff.2 hne
    positivity
  congr 3
  rw [div_eq_iff hl', List.sum_append, List.sum_replicate]
  simp only [List.length_append, List.length_replicate, nsmul_eq_mul]
  push_cast
  field_simp

/-- **C35, no observation yet.** With an empty history every lie is 0 (there is nothing to aggregate). -/
theorem C35_lies_without_history_partial [LinearOrder F] (A : Arith F) (W : World F M R G)
    (sh : Shared F G) (s : Opt F M R) (hs : Sound s) (hps : s.cfg.acq.isPs = false) (hys : s.yi = [])
    (hcache : s.cache = none) (n : ℤ) (strat : Strategy) (hstrat : strat = .clMin ∨ strat = .clMax)
    (X : List (Point F)) (h : (askMany A W sh s n strat).2.2 = .ok X) :
    ∃ sh₁ o o', Opt.copy A W sh { s with rng := (W.seed s.rng).1 } (W.seed s.rng).2 = (sh₁, .ok o) ∧
      liarLoop A W sh₁.dims strat n.toNat o = (o', .ok X) ∧
      o'.yi = List.replicate n.toNat (.num (.fin (A.ofInt 0))) := by
  have hb := batch_lies hs hps hcache h (.fin (A.ofInt 0)) ?_
  · obtain ⟨sh₁, o, o', h1, h2, h3⟩ := hb
    rw [hys, List.nil_append] at h3
    exact ⟨sh₁, o, o', h1, h2, h3⟩
  · intro k
    rw [hys, List.nil_append]
    cases k with
    | zero => simp [lie, hps, ok_bind]
    | succ k =>
      have e : List.replicate (k + 1) (.num (.fin (A.ofInt 0)) : YArg F) =
          (List.replicate (k + 1) (A.ofInt 0)).map fun y => .num (.fin y) := by simp
      rw [e, lie_scalar A W hps _ (by simp)]
      have hall : ∀ y ∈ List.replicate (k + 1) (A.ofInt 0), y = A.ofInt 0 :=
        fun y hy => (List.mem_replicate.1 hy).2
      rcases hstrat with rfl | rfl
      · have : fltMin ((List.replicate (k + 1) (A.ofInt 0)).map Flt.fin) = .ok (.fin (A.ofInt 0)) := by
          rw [fltMin_iff]
          refine ⟨List.mem_map_of_mem (by simp), ?_⟩
          intro y hy
          obtain ⟨z, hz, rfl⟩ := List.mem_map.1 hy
          rw [hall z hz]
        simp only [Strategy.aggregate, this, ok_bind]
      · have : fltMax ((List.replicate (k + 1) (A.ofInt 0)).map Flt.fin) = .ok (.fin (A.ofInt 0)) := by
          rw [fltMax_iff]
          exact ⟨by simp, fun z hz => (hall z hz).le⟩
        simp only [Strategy.aggregate, this, ok_bind]

/-- The toy optimizer after telling 3 and 5. -/
def toyTwo (acq : AcqFunc) : Opt ℚ Nat Nat :=
  (runOps ratArith okWorld toyShared (toyOpt acq)
    [.tell (.lst [.num 1]) (.num (.fin 3)) true, .tell (.lst [.num 2]) (.num (.fin 5)) true]).2.1

/-- Non-vacuity: the hypotheses hold for a toy optimizer with two observations and all three strategies
give a batch.
Meets the hypotheses of `C35_lies_are_extreme_partial`, `C35_lies_are_mean_partial`,
`C35_lies_without_history_partial`. -/
example : Sound (toyTwo .EI) ∧ (toyTwo .EI).yi = [3, 5].map (fun y => .num (.fin y)) ∧
    (toyTwo .EI).cache = none ∧
    (askMany ratArith okWorld toyShared (toyTwo .EI) 2 .clMax).2.2 = .ok [[.num 5], [.num 5]] ∧
    (askMany ratArith okWorld toyShared (toyOpt .EI) 2 .clMin).2.2 = .ok [[.num 5], [.num 5]] := by
  refine ⟨⟨by decide +kernel, by decide +kernel, by decide +kernel⟩, by decide +kernel,
    by decide +kernel, by decide +kernel, by decide +kernel⟩

/-- **C35 is false in the per-second modes**: with the single observation (value 5, time 1) on record as
(5, -3) – the logarithm of the example world – `cl_min` claims the objective value -3, the logarithm of
the time, and `cl_mean` claims the mean of value and logarithm. -/
theorem C35_refuted_per_second :
    let s := (tell ratArith okWorld toyDims (toyOpt .EIps) (.lst [.num 3])
      (.seq [.num (.fin 5), .num (.fin 1)]) true).1
    s.yi = [.seq [.num (.fin 5), .num (.fin (-3))]] ∧
    lie ratArith okWorld .EIps .clMin s.yi = .ok (.seq [.num (.fin (-3)), .num (.fin (-3))]) ∧
    lie ratArith okWorld .EIps .clMean s.yi = .ok (.seq [.num (.fin 1), .num (.fin (-3))]) := by
  refine ⟨by decide +kernel, by decide +kernel, by decide +kernel⟩

/-! ## C36 -/

/-- The last `k` elements. -/
def lastN {α : Type} (k : Nat) (l : List α) : List α := l.drop (l.length - k)

/-- The models fitted during a sequence of calls, as its results show them: one for every `tell` with
`fit=True` that returns a result when `n_initial_points` values are on record, namely the last model of
that result. -/
def fittedModels [LinearOrder F] (A : Arith F) (W : World F M R G) :
    Shared F G → Opt F M R → List (Op F) → List M
  | _, _, [] => []
  | sh, s, op :: ops =>
    let t := step A W sh s op
    (match op, t.2.2 with
      | .tell _ _ true, .ok (.result r) =>
        if s.cfg.hasEst ∧ s.cfg.nInitial ≤ t.2.1.yi.length then r.models.getLast?.toList else []
      | _, _ => []) ++ fittedModels A W t.1 t.2.1 ops

theorem pushModel_lastN {k : Nat} (hk : 0 < k) {L ms ms' : List M} {m : M} (h : ms = lastN k L)
    (hp : pushModel (some k) ms m = .ok ms') : ms' = lastN k (L ++ [m]) := by
  unfold pushModel at hp
  simp only at hp
  have hlen : ms.length = min k L.length := by rw [h]; simp [lastN]; omega
  split at hp
  · next hlt =>
    injection hp with hp
    have : L.length < k := by omega
    rw [← hp, h]
    unfold lastN
    rw [List.length_append, Nat.sub_eq_zero_of_le this.le,
      Nat.sub_eq_zero_of_le (by simp; omega)]
    simp
  · next hge =>
    split at hp
    · cases hp
    · next a rest =>
      injection hp with hp
      have hL : k ≤ L.length := by
        simp only [List.length_cons] at hlen hge
        omega
      rw [← hp]
      unfold lastN at h ⊢
      rw [List.length_append, List.length_singleton, show L.length + 1 - k = (L.length - k) + 1 by omega]
      rw [List.drop_append_of_le_length (by omega), ← List.drop_drop, ← h]
      rfl

theorem pushModel_none {ms ms' : List M} {m : M} (hp : pushModel none ms m = .ok ms') :
    ms' = ms ++ [m] := by
  unfold pushModel at hp; injection hp with hp; exact hp.symm

theorem pushModel_getLast {q : Option ℤ} {ms ms' : List M} {m : M} (hp : pushModel q ms m = .ok ms') :
    ms'.getLast? = some m := by
  unfold pushModel at hp
  split at hp
  · injection hp with hp; rw [← hp]; simp
  · split at hp
    · injection hp with hp; rw [← hp]; simp
    · split at hp
      · cases hp
      · injection hp with hp; rw [← hp]; simp

section
variable [LinearOrder F]

/-- Models and a call: unchanged, or one model pushed by a fitting `tell`. -/
theorem step_models (A : Arith F) (W : World F M R G) (sh : Shared F G) (s : Opt F M R) (op : Op F)
    (hn : s.nInit = s.cfg.nInitial - s.yi.length) :
    let t := step A W sh s op
    (t.2.1.models = s.models ∨ ∃ m, pushModel s.cfg.queueSize s.models m = .ok t.2.1.models) ∧
    (∀ x y fit r, op = .tell x y fit → t.2.2 = .ok (.result r) →
      r.models = t.2.1.models ∧
      (fit = true ∧ s.cfg.hasEst = true ∧ s.cfg.nInitial ≤ t.2.1.yi.length →
        ∃ m, pushModel s.cfg.queueSize s.models m = .ok t.2.1.models) ∧
      (¬ (fit = true ∧ s.cfg.hasEst = true ∧ s.cfg.nInitial ≤ t.2.1.yi.length) →
        t.2.1.models = s.models)) ∧
    ((∀ x y fit, op ≠ .tell x y fit) → t.2.1.models = s.models) := by
  cases op with
  | ask =>
    obtain ⟨r, e⟩ := askOne_frame A W sh.dims s
    simp only [step, e]; simp
  | askMany n strat =>
    obtain ⟨r, c, e⟩ := askMany_frame A W sh s n strat
    simp only [step, e]; simp
  | updateNext =>
    obtain ⟨r, c, e⟩ := updateNext_frame A W sh s
    simp only [step, e]; simp
  | getResult => simp [step]
  | tell x y fit =>
    simp only [step]
    rcases tell_cases A W sh.dims s x y fit with ⟨e, he⟩ | ⟨y', _, _, _, he⟩
    · rw [he]
      refine ⟨Or.inl rfl, ?_, ?_⟩
      · intro x y fit r _ h; cases h
      · intro h; exact absurd rfl (h x y fit)
    · rw [he]
      rcases tellCore_cases A W sh.dims s x y' fit with ⟨e, _, h3⟩ | ⟨u, hu, h3⟩
      · rw [h3]
        refine ⟨Or.inl rfl, ?_, ?_⟩
        · intro x y fit r _ h; cases h
        · intro h; exact absurd rfl (h x y fit)
      · obtain ⟨r1, r2, r3, _, _, r6, _, _, xs', ys', _, r8, r9⟩ := record_frame hu
        obtain ⟨f1, f2, _, f4⟩ := refit_frame A W sh.dims u
        have hf := tellCore_frame A W sh.dims s x y' fit hu
        have hres : ∀ r, (do let p ← (tellCore A W sh.dims s x y' fit).2; .ok (Out.result p)) =
            (.ok (.result r) : Except PyErr (Out F M)) → r.models =
              (tellCore A W sh.dims s x y' fit).1.models := by
          intro r hr
          rw [bind_eq_ok] at hr
          obtain ⟨p, hp, hr⟩ := hr
          injection hr with hr
          injection hr with hr
          subst hr
          have hg := (tellCore_ok hp).1
          unfold getResult createResult at hg
          rw [bind_eq_ok] at hg
          obtain ⟨c, _, hg⟩ := hg
          simp only [bind_eq_ok] at hg
          obtain ⟨_, _, _, _, _, _, hg⟩ := hg
          injection hg with hg
          rw [← hg]
        have hcond : u.nInit ≤ 0 ↔ s.cfg.nInitial ≤ (tellCore A W sh.dims s x y' fit).1.yi.length := by
          rw [hf.5, r9, hn, r8, List.length_append]; push_cast; omega
        rcases h3 with ⟨h4, h5, h6, h7, h8⟩ | ⟨h4, h7⟩
        · rw [h7]
          rw [r1, r3] at f2 f4
          refine ⟨f2, ?_, ?_⟩
          · intro x₁ y₁ fit₁ r hop hr
            injection hop with _ _ hop
            subst hop
            refine ⟨by rw [← h7]; exact hres r hr, ?_⟩
            constructor
            · intro _
              rcases h8 with ⟨e, _, h9⟩ | ⟨h9, _⟩
              · rw [h9] at hr; cases hr
              · exact (f4 h9).1
            · intro hneg
              rw [← h7] at hneg
              exact absurd ⟨h4, by rw [← r1]; exact h6, hcond.1 h5⟩ hneg
          · intro h; exact absurd rfl (h x y fit)
        · refine ⟨Or.inl (by rw [h7]; exact r3), ?_, ?_⟩
          · intro x₁ y₁ fit₁ r hop hr
            injection hop with _ _ hop
            subst hop
            refine ⟨hres r hr, ?_⟩
            constructor
            · rintro ⟨a, b, c⟩
              exact absurd ⟨a, hcond.2 c, by rw [r1]; exact b⟩ h4
            · intro _
              rw [h7]
              exact r3
          · intro h; exact absurd rfl (h x y fit)

/-- **C36, bound.** With `model_queue_size = k`, no sequence of calls whatsoever – returning or
raising – makes the optimizer keep more than `k` models. -/
theorem C36_queue_bounded (A : Arith F) (W : World F M R G) (sh : Shared F G) (cfg : Config) (rng : R)
    (pts : Option (List (Point F))) (k : Nat) (hq : cfg.queueSize = some (k : ℤ))
    (ops : List (Op F)) :
    (runOps A W sh (Opt.fresh A cfg rng pts) ops).2.1.models.length ≤ k := by
  have key : ∀ (ops : List (Op F)) (sh : Shared F G) (s : Opt F M R), s.cfg = cfg →
      s.nInit = s.cfg.nInitial - s.yi.length → s.models.length ≤ k →
      (runOps A W sh s ops).2.1.models.length ≤ k := by
    intro ops
    induction ops with
    | nil => intro sh s _ _ h; exact h
    | cons op ops ih =>
      intro sh s hc hn h
      obtain ⟨f1, f2, xs, ys, f3, f4, f5⟩ := step_frame A W sh s op
      refine ih (step A W sh s op).1 (step A W sh s op).2.1 (f1.trans hc)
        (by rw [f5, f1, f4, hn, List.length_append]; push_cast; ring) ?_
      rcases (step_models A W sh s op hn).1 with h1 | ⟨m, h1⟩
      · rw [h1]; exact h
      · rw [hc, hq] at h1
        unfold pushModel at h1
        simp only at h1
        split at h1
        · injection h1 with h1
          rw [← h1, List.length_append, List.length_singleton]
          omega
        · split at h1
          · cases h1
          · next a rest hm =>
            injection h1 with h1
            rw [hm, List.length_cons] at h
            rw [← h1, List.length_append, List.length_singleton]
            exact h
  exact key ops sh _ rfl (by simp [Opt.fresh]) (by simp [Opt.fresh])

/-- **C36, contents.** For every sequence of calls in which the tells return: with
`model_queue_size = k ≥ 1` the kept models are the `k` most recently fitted ones in the order of fitting
(all of them if fewer); without a limit they are exactly the fitted models, one per fitting `tell`.

Missing: a queue of size zero (`C36_refuted_size_zero`). -/
theorem C36_queue_contents_partial (A : Arith F) (W : World F M R G) (sh : Shared F G) (cfg : Config) (rng : R)
    (pts : Option (List (Point F))) (ops : List (Op F))
    (hok : ∀ q ∈ ops.zip (runOps A W sh (Opt.fresh A cfg rng pts : Opt F M R) ops).2.2,
      (∃ x y fit, q.1 = .tell x y fit) → Returns q.2) :
    let s₀ : Opt F M R := Opt.fresh A cfg rng pts
    let t := (runOps A W sh s₀ ops).2.1
    (∀ k : Nat, 0 < k → cfg.queueSize = some (k : ℤ) →
        t.models = lastN k (fittedModels A W sh s₀ ops)) ∧
      (cfg.queueSize = none → t.models = fittedModels A W sh s₀ ops) := by
  -- what one call does to the models, in terms of the fitted models
  have one : ∀ (sh : Shared F G) (s : Opt F M R) (op : Op F), s.nInit = s.cfg.nInitial - s.yi.length →
      ((∃ x y fit, op = .tell x y fit) → Returns (step A W sh s op).2.2) →
      ∃ new : List M, (∀ ops, fittedModels A W sh s (op :: ops) =
          new ++ fittedModels A W (step A W sh s op).1 (step A W sh s op).2.1 ops) ∧
        ((new = [] ∧ (step A W sh s op).2.1.models = s.models) ∨
         ∃ m, new = [m] ∧ pushModel s.cfg.queueSize s.models m = .ok (step A W sh s op).2.1.models) := by
    intro sh s op hn hret
    obtain ⟨_, h2, h3⟩ := step_models A W sh s op hn
    refine ⟨_, fun ops => rfl, ?_⟩
    cases op with
    | tell x y fit =>
      obtain ⟨out, hout⟩ := hret ⟨x, y, fit, rfl⟩
      have hres : ∃ r, out = .result r := by
        simp only [step] at hout
        rw [bind_eq_ok] at hout
        obtain ⟨p, _, hp⟩ := hout
        injection hp with hp
        exact ⟨p, hp.symm⟩
      obtain ⟨r, rfl⟩ := hres
      obtain ⟨h4, h5, h6⟩ := h2 x y fit r rfl hout
      rw [hout]
      cases fit with
      | false =>
        left
        exact ⟨rfl, h6 (by simp)⟩
      | true =>
        by_cases hc : s.cfg.hasEst = true ∧
            s.cfg.nInitial ≤ (step A W sh s (.tell x y true)).2.1.yi.length
        · right
          obtain ⟨m, hm⟩ := h5 ⟨rfl, hc⟩
          refine ⟨m, ?_, hm⟩
          simp only
          rw [if_pos hc, h4, pushModel_getLast hm]
          rfl
        · left
          refine ⟨?_, h6 fun h => hc h.2⟩
          simp only
          rw [if_neg hc]
    | ask => exact Or.inl ⟨rfl, h3 (by simp)⟩
    | askMany n st => exact Or.inl ⟨rfl, h3 (by simp)⟩
    | updateNext => exact Or.inl ⟨rfl, h3 (by simp)⟩
    | getResult => exact Or.inl ⟨rfl, h3 (by simp)⟩
  have key : ∀ (ops : List (Op F)) (sh : Shared F G) (s : Opt F M R) (L : List M),
      s.cfg = cfg → s.nInit = s.cfg.nInitial - s.yi.length →
      (∀ q ∈ ops.zip (runOps A W sh s ops).2.2, (∃ x y fit, q.1 = .tell x y fit) → Returns q.2) →
      (∀ k : Nat, 0 < k → cfg.queueSize = some (k : ℤ) → s.models = lastN k L →
        (runOps A W sh s ops).2.1.models = lastN k (L ++ fittedModels A W sh s ops)) ∧
      (cfg.queueSize = none → (runOps A W sh s ops).2.1.models =
        s.models ++ fittedModels A W sh s ops) := by
    intro ops
    induction ops with
    | nil =>
      intro sh s L _ _ _
      exact ⟨fun k _ _ h => by simpa [fittedModels, runOps] using h,
        fun _ => by simp [fittedModels, runOps]⟩
    | cons op ops ih =>
      intro sh s L hc hn hok
      simp only [runOps] at hok
      obtain ⟨new, hnew, hcase⟩ := one sh s op hn (fun ht => hok (op, _) (by simp) ht)
      obtain ⟨f1, f2, xs, ys, f3, f4, f5⟩ := step_frame A W sh s op
      obtain ⟨i1, i2⟩ := ih (step A W sh s op).1 (step A W sh s op).2.1 (L ++ new) (f1.trans hc)
        (by rw [f5, f1, f4, hn, List.length_append]; push_cast; ring)
        (fun q hq ht => hok q (by simp [hq]) ht)
      rw [hnew]
      rw [hc] at hcase
      constructor
      · intro k hk hq hm
        rw [← List.append_assoc]
        refine i1 k hk hq ?_
        rcases hcase with ⟨e1, e2⟩ | ⟨m, e1, e2⟩
        · rw [e1, e2, List.append_nil]; exact hm
        · rw [e1]
          rw [hq] at e2
          exact pushModel_lastN hk hm e2
      · intro hq
        have := i2 hq
        simp only [runOps]
        rw [this, ← List.append_assoc]
        congr 1
        rcases hcase with ⟨e1, e2⟩ | ⟨m, e1, e2⟩
        · rw [e1, e2, List.append_nil]
        · rw [e1]
          rw [hq] at e2
          exact pushModel_none e2
  obtain ⟨k1, k2⟩ := key ops sh (Opt.fresh A cfg rng pts) [] rfl (by simp [Opt.fresh]) hok
  exact ⟨fun k hk hq => by simpa using k1 k hk hq (by simp [lastN, Opt.fresh]),
    fun hq => by simpa [Opt.fresh] using k2 hq⟩

/-- **C36, what is fitted.** The last model of a result returned by a fitting `tell` is the surrogate
fitted on the complete history: all recorded points (transformed) with all recorded values. -/
theorem C36_model_fitted_on_history (A : Arith F) (W : World F M R G) (dims : List (Dim F))
    (s : Opt F M R) (x : XArg F) (y : YArg F) (r : Result F M)
    (hest : s.cfg.hasEst = true) (hn : s.nInit = s.cfg.nInitial - s.yi.length)
    (h : (tell A W dims s x y true).2 = .ok r)
    (hle : s.cfg.nInitial ≤ (tell A W dims s x y true).1.yi.length) :
    let t := (tell A W dims s x y true).1
    ∃ Xt m, Space.transform A dims (t.Xi.map Val.items) = .ok Xt ∧
      (W.fit s.rng Xt t.yi).2 = .ok m ∧ r.models.getLast? = some m := by
  rcases tell_cases A W dims s x y true with ⟨e, he⟩ | ⟨y', _, _, _, he⟩
  · rw [he] at h; cases h
  · rw [he] at h hle ⊢
    rcases tellCore_cases A W dims s x y' true with ⟨e, _, h3⟩ | ⟨u, hu, h3⟩
    · rw [h3] at h; cases h
    · obtain ⟨r1, r2, r3, _, _, r6, r7, _, xs', ys', _, r8, r9⟩ := record_frame hu
      have hf := tellCore_frame A W dims s x y' true hu
      have hu0 : u.nInit ≤ 0 := by
        rw [hf.5, r8, List.length_append] at hle
        rw [r9, hn]; push_cast at hle; omega
      rcases h3 with ⟨_, _, _, h7, h8⟩ | ⟨h4, _⟩
      · rcases h8 with ⟨e, _, h9⟩ | ⟨h9, h10⟩
        · rw [h9] at h; cases h
        · have hm : r.models = (refit A W dims u).1.models := by
            rw [← h7]
            have hg := (tellCore_ok h).1
            unfold getResult createResult at hg
            rw [bind_eq_ok] at hg
            obtain ⟨c, _, hg⟩ := hg
            simp only [bind_eq_ok] at hg
            obtain ⟨_, _, _, _, _, _, hg⟩ := hg
            injection hg with hg
            rw [← hg]
          dsimp only
          rw [hf.4, hf.5, hm]
          unfold refit at h9 ⊢
          split at h9
          · cases h9
          · next Xt hXt =>
            dsimp only at h9
            split at h9
            · cases h9
            · next est hest' =>
              split at h9
              · cases h9
              · next g hg =>
                split at h9
                · cases h9
                · next ms hms =>
                  refine ⟨Xt, est, hXt, by rw [← r7]; exact hest', ?_⟩
                  simp only [hest', hg, hms]
                  rw [(suggest_frame A W dims est _).2.1]
                  exact pushModel_getLast hms
      · exact absurd ⟨rfl, hu0, by rw [r1]; exact hest⟩ h4

end

/-- A toy optimizer keeping at most two models. -/
def toyQueue (k : ℤ) : Opt ℚ Nat Nat :=
  Opt.fresh ratArith { toyCfg .EI with queueSize := some k } 0 none

/-- Non-vacuity: four tells, three of them fitting, all return; the two most recent models are kept.
Meets the hypotheses of `C36_queue_bounded`, `C36_queue_contents_partial`, `C36_model_fitted_on_history`. -/
example :
    let ops : List (Op ℚ) := [.tell (.lst [.num 1]) (.num (.fin 3)) true,
      .tell (.lst [.num 2]) (.num (.fin 5)) true, .tell (.lst [.num 2]) (.num (.fin 5)) true,
      .tell (.lst [.num 2]) (.num (.fin 5)) true]
    (runOps ratArith okWorld toyShared (toyQueue 2) ops).2.1.models = [3, 4] ∧
    fittedModels ratArith okWorld toyShared (toyQueue 2) ops = [2, 3, 4] ∧
    (runOps ratArith okWorld toyShared (toyOpt .EI) ops).2.1.models = [2, 3, 4] := by
  refine ⟨by decide +kernel, by decide +kernel, by decide +kernel⟩

/-- **C36 needs `k ≥ 1`**: with `model_queue_size = 0`, which the constructor accepts, the first fitting
`tell` raises `IndexError` after having recorded the observation. -/
theorem C36_refuted_size_zero :
    let s := (tell ratArith okWorld toyDims (toyQueue 0) (.lst [.num 1]) (.num (.fin 3)) true).1
    (tell ratArith okWorld toyDims s (.lst [.num 2]) (.num (.fin 5)) true).2 = .error .indexError ∧
    (tell ratArith okWorld toyDims s (.lst [.num 2]) (.num (.fin 5)) true).1.Xi.length = 2 := by
  refine ⟨by decide +kernel, by decide +kernel⟩

/-! ## C38 -/

section
variable [LinearOrder F]

/-- **C38, same state.** A copy of an optimizer that was used through documented calls has the same
history, the same number of remaining initial points, the same initial design and the same settings
except for the model queue limit, which is dropped. -/
theorem C38_copy_same_state (A : Arith F) (W : World F M R G) (sh sh' : Shared F G) (cfg : Config)
    (rng rng' : R) (pts : Option (List (Point F))) (calls : List (Call F))
    (hflat : ∀ p y f, Call.one p y f ∈ calls → Flat p) (o : Opt F M R) :
    let sh₁ := (runOps A W sh (Opt.fresh A cfg rng pts) (calls.map Call.toOp)).1
    let s := (runOps A W sh (Opt.fresh A cfg rng pts) (calls.map Call.toOp)).2.1
    Opt.copy A W sh₁ s rng' = (sh', .ok o) →
      o.Xi = s.Xi ∧ o.yi = s.yi ∧ o.nInit = s.nInit ∧ o.initialSamples = s.initialSamples ∧
        o.cfg = { s.cfg with queueSize := none } := by
  intro sh₁ s h
  have hs : Sound s := runOps_sound hflat (sound_fresh A cfg rng pts)
  obtain ⟨_, h1, h2, h3, h4, h5, _⟩ := copy_sound hs h
  exact ⟨h1, h2, h3, h4, h5⟩

/-- The generator leaves the transforms of the dimensions as it found them, whether it returns or
raises. -/
def Restores (W : World F M R G) : Prop := ∀ g dims n r, (W.generate g dims n r).2.1 = dims

omit [LinearOrder F] in
theorem set_own_transformers {dims : List (Dim F)} (h : ∀ d ∈ dims, HasLegalTransform d) :
    Space.setTransformers dims (Space.getTransformer dims) = .ok dims := by
  induction dims with
  | nil => rfl
  | cons d ds ih =>
    have e : Space.setTransformers (d :: ds) (Space.getTransformer (d :: ds)) = (do
        let d' ← d.setTransformer d.tkind
        let ds' ← Space.setTransformers ds (Space.getTransformer ds)
        .ok (d' :: ds')) := rfl
    have h1 : d.setTransformer d.tkind = .ok d := by
      have := h d (by simp)
      cases d with
      | real r =>
        obtain ⟨lo, hi, pr, b, tr, nm, c⟩ := r
        rcases this with h | h <;> (simp only at h; subst h; rfl)
      | int r =>
        obtain ⟨lo, hi, pr, b, tr, nm, c⟩ := r
        rcases this with h | h <;> (simp only at h; subst h; rfl)
      | cat c => rfl
    rw [e, h1, ok_bind, ih fun x hx => h x (by simp [hx]), ok_bind]

omit [LinearOrder F] in
theorem init_dims {A : Arith F} {W : World F M R G} (hW : Restores W) (sh : Shared F G) (cfg : Config)
    (rng : R) (hl : ∀ d ∈ sh.dims, HasLegalTransform d)
    (hgp : cfg.isGP = true → sh.dims.map Dim.normalized = sh.dims) :
    (Opt.init (M := M) A W sh cfg rng).1.dims = sh.dims := by
  unfold Opt.init
  have hd : (if cfg.isGP then Space.setTransformer sh.dims .normalize else .ok sh.dims) =
      .ok sh.dims := by
    split
    · next h => rw [setTransformer_normalize, hgp h]
    · rfl
  rw [hd]
  dsimp only
  cases hg : sh.gen with
  | none => rfl
  | some g =>
    dsimp only
    have hr := hW g sh.dims cfg.nInitial (W.seed rng).2
    rcases hgen : W.generate g sh.dims cfg.nInitial (W.seed rng).2 with ⟨g', dims', e | P⟩
    · rw [hgen] at hr; exact hr
    · rw [hgen] at hr
      simp only at hr
      subst hr
      dsimp only
      rw [set_own_transformers hl]

theorem copy_dims {A : Arith F} {W : World F M R G} (hW : Restores W) (sh : Shared F G) (s : Opt F M R)
    (rng : R) (hl : ∀ d ∈ sh.dims, HasLegalTransform d)
    (hgp : s.cfg.isGP = true → sh.dims.map Dim.normalized = sh.dims) :
    (Opt.copy A W sh s rng).1.dims = sh.dims := by
  have hi := init_dims (M := M) (A := A) hW sh { s.cfg with queueSize := none } rng hl hgp
  unfold Opt.copy
  split
  · next sh' e h => rw [h] at hi; exact hi
  · next sh' o h =>
    rw [h] at hi
    dsimp only
    split
    · exact hi
    · split <;> exact hi

/-- **C38, independence.** Making a copy and performing any operations on it leaves the dimensions, which
original and copy share, exactly as they were (everything else in the copy is its own) – provided the
generator restores the transforms, which `C08_*_restores` establish for all of them. -/
theorem C38_copy_independent_partial (A : Arith F) (W : World F M R G) (hW : Restores W) (sh : Shared F G)
    (s : Opt F M R) (rng : R) (hl : ∀ d ∈ sh.dims, HasLegalTransform d)
    (hgp : s.cfg.isGP = true → sh.dims.map Dim.normalized = sh.dims) :
    (Opt.copy A W sh s rng).1.dims = sh.dims ∧
    ∀ o, (Opt.copy A W sh s rng).2 = .ok o → ∀ ops : List (Op F),
      (runOps A W (Opt.copy A W sh s rng).1 o ops).1.dims = sh.dims := by
  refine ⟨copy_dims hW sh s rng hl hgp, ?_⟩
  intro o ho ops
  have hcfg : o.cfg.isGP = s.cfg.isGP := by
    rcases hc : Opt.copy A W sh s rng with ⟨sh', e | o'⟩
    · rw [hc] at ho; cases ho
    · rw [hc] at ho
      injection ho with ho
      subst ho
      unfold Opt.copy at hc
      split at hc
      · cases hc
      · next sh₁ o₁ hi =>
        obtain ⟨r, pts, rfl, _, _⟩ := init_ok hi
        dsimp only at hc
        split at hc
        · simp only [Prod.mk.injEq, Except.ok.injEq] at hc
          rw [← hc.2]; rfl
        · split at hc
          · cases hc
          · next o₂ res ht =>
            simp only [Prod.mk.injEq, Except.ok.injEq] at hc
            rw [← hc.2]
            generalize ho₁ : ({ (Opt.fresh A { s.cfg with queueSize := none } r pts : Opt F M R) with
              initialSamples := s.initialSamples
              gains := match s.gains with
                | some g => some g
                | none => (Opt.fresh A { s.cfg with queueSize := none } r pts : Opt F M R).gains } :
                  Opt F M R) = o₁ at ht
            have h1 : o₂.cfg = o₁.cfg := by
              rcases tellCore_cases A W sh₁.dims o₁ (.lst s.Xi) (.seq s.yi) true with
                ⟨e, _, h⟩ | ⟨u, hu, _⟩
              · rw [ht] at h; cases h
              · have := (tellCore_frame A W sh₁.dims o₁ (.lst s.Xi) (.seq s.yi) true hu).1
                rw [ht] at this
                exact this.trans (record_frame hu).1
            rw [h1, ← ho₁]; rfl
  have hsh := copy_dims (A := A) hW sh s rng hl hgp
  generalize (Opt.copy A W sh s rng).1 = sh₁ at hsh ⊢
  clear ho
  induction ops generalizing sh₁ o with
  | nil => exact hsh
  | cons op ops ih =>
    obtain ⟨f1, _⟩ := step_frame A W sh₁ o op
    refine ih (step A W sh₁ o op).2.1 (by rw [f1]; exact hcfg) (step A W sh₁ o op).1 ?_
    have hcd : ∀ (o' : Opt F M R) r, o'.cfg = o.cfg → (Opt.copy A W sh₁ o' r).1.dims = sh.dims := by
      intro o' r h
      rw [copy_dims hW sh₁ o' r (by rw [hsh]; exact hl)
        (by rw [hsh, h, hcfg]; exact hgp), hsh]
    cases op with
    | ask => exact hsh
    | tell x y fit => exact hsh
    | getResult => exact hsh
    | askMany n strat =>
      simp only [step, askMany]
      split
      · exact hsh
      · split
        · exact hsh
        · split
          · exact hsh
          · have := hcd { o with rng := (W.seed o.rng).1 } (W.seed o.rng).2 rfl
            split
            · next h => rw [h] at this; exact this
            · next h =>
              rw [h] at this
              split <;> exact this
    | updateNext =>
      simp only [step, updateNext]
      split
      · exact hsh
      · have := hcd { o with cache := none } o.rng rfl
        split
        · next h => rw [h] at this; exact this
        · next h =>
          rw [h] at this
          split <;> exact this

end

/-- The toy world with the Sobol generator (unscrambled). -/
def sobolWorld : World ℚ Nat Nat Sobol :=
  { fit := okWorld.fit, predict := okWorld.predict, draws := okWorld.draws,
    acquisition := okWorld.acquisition, argsort := okWorld.argsort, lbfgs := okWorld.lbfgs,
    multinomial := okWorld.multinomial, exp := okWorld.exp, log := okWorld.log,
    logMax := okWorld.logMax, eta := okWorld.eta, seed := okWorld.seed,
    generate := fun s dims n _ => s.generate ratArith id dims n.toNat [] }

/-- Non-vacuity: a copy of a toy optimizer after two tells, with a generator, exists; and the hypotheses
on the dimensions hold.
Meets the hypotheses of `C38_copy_same_state`, `C38_copy_independent_partial`. -/
example :
    (match (Opt.copy ratArith okWorld ⟨toyDims, some ()⟩ (toyTwo .EI) 7).2 with
      | .ok o => o.yi
      | .error _ => []) = [.num (.fin 3), .num (.fin 5)] ∧
    (∀ d ∈ toyDims, HasLegalTransform d) ∧ toyDims.map Dim.normalized = toyDims ∧
    Restores okWorld := by
  refine ⟨by decide +kernel, ?_, rfl, fun _ _ _ _ => rfl⟩
  intro d hd
  simp only [toyDims, List.mem_singleton] at hd
  subst hd
  exact Or.inr rfl

/-- **C38 is false with a stateful generator**: the copy runs the generator of the original again.  With
`Sobol(skip=2)` and two initial points the constructor returns, but every copy – and with it every batch
`ask` – raises `ValueError`. -/
theorem C38_refuted_sobol_skip :
    let init := Opt.init (M := Nat) ratArith sobolWorld
      ⟨toyDims, some { skip := 2, randomize := false }⟩ (toyCfg .EI) 0
    (match init.2 with
      | .ok s => s.initialSamples.map List.length
      | .error _ => none) = some 2 ∧
    (match init.2 with
      | .ok s => (match (Opt.copy ratArith sobolWorld init.1 s 7).2 with
          | .ok _ => none
          | .error e => some e)
      | .error _ => none) = some .valueError ∧
    (match init.2 with
      | .ok s => (match (askMany ratArith sobolWorld init.1 s 2 .clMin).2.2 with
          | .ok _ => none
          | .error e => some e)
      | .error _ => none) = some .valueError := by
  refine ⟨by decide +kernel, by decide +kernel, by decide +kernel⟩

end Skopt

import Verif.Props.Liveness
import Verif.Props.HedgeGains

/-!
# C91: a failed third-party call costs no more than the call of `tell` it happened in

A surrogate that raises (or is interrupted) makes `tell` raise.  The observation is on record nevertheless, and once
the third-party calls work again every further call returns - except with the default `acq_func="gp_hedge"`, where an
optimizer whose search for the next point failed once refuses every later observation.
-/

namespace Skopt

variable {M R G : Type} {dims : List (Dim ℝ)}

theorem Live.ofCore {s t : Opt ℝ M R} (h : SameCore t s) (hs : Live dims s) (hacq : s.cfg.acq ≠ .gpHedge) :
    Live dims t :=
  ⟨h.Xi ▸ hs.points, by rw [h.yi, h.cfg]; exact hs.values, by rw [h.Xi, h.yi]; exact hs.aligned,
    fun ha => absurd (h.cfg ▸ ha) hacq, fun ha => absurd (h.cfg ▸ ha) hacq⟩

/-- A good call in a world that promises nothing but logarithms: it may raise, but puts its observations on record. -/
theorem flaky_step {W : World ℝ M R G} (hlog : LogWorks W) (gen : Option G) {s : Opt ℝ M R} (hs : Live dims s)
    (hacq : s.cfg.acq ≠ .gpHedge) {c : Call ℝ} (hg : GoodCall s.cfg.acq.isPs dims c) :
    let q := step exact W ⟨dims, gen⟩ s c.toOp
    q.1 = ⟨dims, gen⟩ ∧ Live dims q.2.1 ∧ q.2.1.cfg = s.cfg ∧ q.2.1.initialSamples = s.initialSamples ∧
      q.2.1.nInit = s.nInit - c.obs.length ∧ q.2.1.Xi = s.Xi ++ c.obs.map fun o => .seq o.1 := by
  intro q
  cases c with
  | one p y fit =>
    obtain ⟨y', e, hrec, hl⟩ := tell_one_records hlog hs hg.1 hg.2.1 hg.2.2 fit
    have hq : q.2.1 = (tellCore exact W dims s (.lst p) y' fit).1 := by
      simp only [q, Call.toOp, step, e]
    have hcore := tellCore_frame exact W dims s (.lst p) y' fit hrec
    rw [hq]
    refine ⟨by simp only [q, Call.toOp, step], hl.ofCore hcore hacq, hcore.cfg, hcore.initialSamples, ?_, ?_⟩
    · rw [hcore.nInit]; simp [record.single, Call.obs]
    · rw [hcore.Xi]; rfl
  | batch obs fit =>
    obtain ⟨ys, e, hlen, hrec, hl⟩ := tell_batch_records hlog hs hg.1 hg.2 fit
    have hq : q.2.1 = (tellCore exact W dims s (.lst (obs.map fun o => .seq o.1)) (.seq ys) fit).1 := by
      simp only [q, Call.toOp, step, e]
    have hcore := tellCore_frame exact W dims s (.lst (obs.map fun o => .seq o.1)) (.seq ys) fit hrec
    rw [hq]
    refine ⟨by simp only [q, Call.toOp, step], hl.ofCore hcore hacq, hcore.cfg, hcore.initialSamples, ?_, ?_⟩
    · rw [hcore.nInit]; simp [record.batch, Call.obs, hlen]
    · rw [hcore.Xi]; rfl
  | ask =>
    obtain ⟨r, hr⟩ := askOne_frame exact W dims s
    have hq : q.2.1 = { s with rng := r } := by simp only [q, Call.toOp, step, hr]
    rw [hq]
    exact ⟨by simp only [q, Call.toOp, step], Live.ofCore (s := s) ⟨rfl, rfl, rfl, rfl, rfl, rfl⟩ hs hacq, rfl, rfl,
      by simp [Call.obs],
      by simp [Call.obs]⟩
  | askMany n st => exact absurd hg (by simp [GoodCall])
  | updateNext => exact absurd hg (by simp [GoodCall])
  | getResult => exact absurd hg (by simp [GoodCall])

/-- A whole sequence of them. -/
theorem flaky_run {W : World ℝ M R G} (hlog : LogWorks W) (gen : Option G) (calls : List (Call ℝ)) :
    ∀ s : Opt ℝ M R, Live dims s → s.cfg.acq ≠ .gpHedge → (∀ c ∈ calls, GoodCall s.cfg.acq.isPs dims c) →
    let q := runOps exact W ⟨dims, gen⟩ s (calls.map Call.toOp)
    q.1 = ⟨dims, gen⟩ ∧ Live dims q.2.1 ∧ q.2.1.cfg = s.cfg ∧ q.2.1.initialSamples = s.initialSamples ∧
      q.2.1.nInit = s.nInit - (calls.flatMap Call.obs).length ∧
      q.2.1.Xi = s.Xi ++ (calls.flatMap Call.obs).map fun o => .seq o.1 := by
  induction calls with
  | nil => intro s hs _ _; exact ⟨rfl, hs, rfl, rfl, by simp [runOps], by simp [runOps]⟩
  | cons c cs ih =>
    intro s hs hacq hg
    obtain ⟨h1, h2, h3, h4, h5, h6⟩ := flaky_step hlog gen hs hacq (hg c List.mem_cons_self)
    have := ih (step exact W ⟨dims, gen⟩ s c.toOp).2.1 h2 (by rw [h3]; exact hacq) fun c' hc' => by
      rw [h3]; exact hg c' (List.mem_cons_of_mem _ hc')
    simp only [List.map_cons, runOps, h1]
    obtain ⟨g1, g2, g3, g4, g5, g6⟩ := this
    refine ⟨g1, g2, g3.trans h3, g4.trans h4, ?_, ?_⟩
    · rw [g5, h5, List.flatMap_cons, List.length_append]; push_cast; ring
    · rw [g6, h6, List.flatMap_cons, List.map_append, List.append_assoc]

/-- A `tell` that fits makes `ask` ready. -/
theorem step_ready {W : World ℝ M R G} (hd : Workable dims) (hW : Reliable W dims) (gen : Option G) {s : Opt ℝ M R}
    (hs : Live dims s) (hc : Sane s.cfg) {c : Call ℝ} (hg : GoodCall s.cfg.acq.isPs dims c) (hfit : c.fits)
    (htell : c.isTell = true)
    (hinit : ∀ P, s.initialSamples = some P → s.cfg.hasEst = true ∧ s.nInit ≤ P.length) :
    Ready dims (step exact W ⟨dims, gen⟩ s c.toOp).2.1 := by
  have key : ∀ t : Opt ℝ M R, t.cfg = s.cfg → t.initialSamples = s.initialSamples → t.nInit ≤ s.nInit → t.Xi ≠ [] →
      (t.nInit ≤ 0 → s.cfg.hasEst = true → t.models ≠ [] ∧ ∃ p, t.nextX = some p ∧ InSpace exact dims p) →
      Ready dims t := by
    intro t h1 h2 h3 h4 h5
    refine ⟨fun P hP => ?_, fun hn he => ?_⟩
    · obtain ⟨i1, i2⟩ := hinit P (h2 ▸ hP)
      exact ⟨h1 ▸ i1, h3.trans i2⟩
    · obtain ⟨m1, m2⟩ := h5 hn (h1 ▸ he)
      exact ⟨m1, h4, m2⟩
  cases c with
  | one p y fit =>
    obtain ⟨t, r, h1, h2, h3, h4⟩ := tell_one_live hd hW hs hc hg.1 hg.2.1 hg.2.2 fit
    obtain ⟨y', e, hrec, hl⟩ := tell_one_records hW.log hs hg.1 hg.2.1 hg.2.2 fit
    have hcore := tellCore_frame exact W dims s (.lst p) y' fit hrec
    rw [← e, h1] at hcore
    have hn : t.nInit = s.nInit - 1 := hcore.nInit
    have : (step exact W ⟨dims, gen⟩ s (Call.one p y fit).toOp).2.1 = t := by simp only [Call.toOp, step, h1]
    rw [this]
    exact key t hcore.cfg hcore.initialSamples (by omega) h3 fun h he => h4 hfit (by omega) he
  | batch obs fit =>
    obtain ⟨t, r, h1, h2, h3, h4⟩ := tell_batch_live hd hW hs hc hg.1 hg.2 fit
    obtain ⟨ys, e, hlen, hrec, hl⟩ := tell_batch_records hW.log hs hg.1 hg.2 fit
    have hcore := tellCore_frame exact W dims s (.lst (obs.map fun o => .seq o.1)) (.seq ys) fit hrec
    rw [← e, h1] at hcore
    have hn : t.nInit = s.nInit - (ys.length : ℤ) := hcore.nInit
    have : (step exact W ⟨dims, gen⟩ s (Call.batch obs fit).toOp).2.1 = t := by simp only [Call.toOp, step, h1]
    rw [this]
    exact key t hcore.cfg hcore.initialSamples (by omega) h3 fun h he => h4 hfit (by
      rw [List.length_map, ← hlen]; omega) he
  | _ => simp [Call.isTell] at htell

/-! ## C91 -/

/-- **C91.** An optimizer with any acquisition function but `gp_hedge` is used while the third-party calls do whatever they
like (`W₁`: fits, predictions, searches may raise; only logarithms of times work), with members of the space and numbers.
Every observation told is on record, whether or not its `tell` raised.  From the moment on at which the third-party calls
keep their promises (`W₂`), every `tell` returns; and once one of them has fitted a surrogate, so does every `ask()` and
every further call.

Missing: `acq_func="gp_hedge"`, for which it is false, see below. -/
theorem C91_recovery_partial (hd : Workable dims) (W₁ W₂ : World ℝ M R G) (hlog : LogWorks W₁) (hW : Reliable W₂ dims)
    (gen : Option G) (cfg : Config) (hc : Sane cfg) (hacq : cfg.acq ≠ .gpHedge) (rng : R)
    (pts : Option (List (Point ℝ))) (hpts : ∀ P, pts = some P → cfg.hasEst = true ∧ cfg.nInitial ≤ P.length)
    (before : List (Call ℝ)) (hbefore : ∀ c ∈ before, GoodCall cfg.acq.isPs dims c) :
    let s := (runOps exact W₁ ⟨dims, gen⟩ (Opt.fresh exact cfg rng pts : Opt ℝ M R) (before.map Call.toOp)).2.1
    s.Xi = (before.flatMap Call.obs).map (fun o => .seq o.1) ∧
    (∀ tells : List (Call ℝ), (∀ c ∈ tells, GoodCall cfg.acq.isPs dims c ∧ c.isTell = true) →
      ∀ r ∈ (runOps exact W₂ ⟨dims, gen⟩ s (tells.map Call.toOp)).2.2, Returns r) ∧
    (∀ (c : Call ℝ) (after : List (Call ℝ)), c.isTell = true →
      (∀ c' ∈ c :: after, GoodCall cfg.acq.isPs dims c' ∧ c'.fits) →
      ∀ r ∈ (runOps exact W₂ ⟨dims, gen⟩ s ((c :: after).map Call.toOp)).2.2, Returns r) := by
  intro s
  obtain ⟨-, h2, h3, h4, h5, h6⟩ := flaky_run hlog gen before (Opt.fresh exact cfg rng pts : Opt ℝ M R)
    (live_fresh dims cfg rng pts) hacq hbefore
  change Live dims s at h2
  change s.cfg = cfg at h3
  change s.initialSamples = pts at h4
  have h5 : s.nInit = cfg.nInitial - (before.flatMap Call.obs).length := h5
  change s.Xi = _ at h6
  have key : ∀ (calls : List (Call ℝ)) (u : Opt ℝ M R), Live dims u → u.cfg = cfg →
      (∀ c ∈ calls, GoodCall cfg.acq.isPs dims c) →
      ((∀ c ∈ calls, c.isTell = true) ∨ Ready dims u ∧ ∀ c ∈ calls, c.fits) →
      ∀ r ∈ (runOps exact W₂ ⟨dims, gen⟩ u (calls.map Call.toOp)).2.2, Returns r := by
    intro calls
    induction calls with
    | nil => intro u _ _ _ _ r hr; simp [runOps] at hr
    | cons c cs ih =>
      intro u hu he hg hor r hr
      obtain ⟨g1, g2, g3, g4, g5⟩ := step_live hd hW gen hu (by rw [he]; exact hc)
        (by rw [he]; exact hg c List.mem_cons_self) fun hask => by
          rcases hor with h | h
          · have := h c List.mem_cons_self; rw [hask] at this; cases this
          · exact h.1
      simp only [List.map_cons, runOps, g1] at hr
      rcases List.mem_cons.1 hr with rfl | hr
      · exact g2
      · refine ih _ g3 (g4.trans he) (fun c hc => hg c (List.mem_cons_of_mem _ hc)) ?_ r hr
        rcases hor with h | h
        · exact Or.inl fun c hc => h c (List.mem_cons_of_mem _ hc)
        · exact Or.inr ⟨g5 (h.2 c List.mem_cons_self) h.1, fun c hc => h.2 c (List.mem_cons_of_mem _ hc)⟩
  refine ⟨by rw [h6]; simp [Opt.fresh], ?_, ?_⟩
  · intro tells ht
    exact key tells s h2 h3 (fun c hc => (ht c hc).1) (Or.inl fun c hc => (ht c hc).2)
  · intro c after htell hcalls r hr
    have hgc := (hcalls c List.mem_cons_self).1
    have hgs : GoodCall s.cfg.acq.isPs dims c := by rw [h3]; exact hgc
    obtain ⟨g1, g2, g3, g4, g5⟩ := step_live hd hW gen h2 (by rw [h3]; exact hc) hgs fun hask => by
      rw [hask] at htell; cases htell
    have hready := step_ready hd hW gen h2 (by rw [h3]; exact hc) hgs (hcalls c List.mem_cons_self).2 htell (by
      intro P hP
      rw [h4] at hP
      obtain ⟨p1, p2⟩ := hpts P hP
      rw [h3]
      exact ⟨p1, by rw [h5]; omega⟩)
    simp only [List.map_cons, runOps, g1] at hr
    rcases List.mem_cons.1 hr with rfl | hr
    · exact g2
    · exact key after _ g3 (g4.trans h3) (fun c hc => (hcalls c (List.mem_cons_of_mem _ hc)).1)
        (Or.inr ⟨hready, fun c hc => (hcalls c (List.mem_cons_of_mem _ hc)).2⟩) r hr

/-! ## `gp_hedge` -/

section
variable {F : Type} [LinearOrder F]

/-- The proposals of the last fit are missing, so the gains cannot be updated. -/
structure Stuck (s : Opt F M R) : Prop where
  hedge : s.cfg.acq = .gpHedge
  surrogate : s.cfg.hasEst = true
  started : s.nInit ≤ 0
  empty : s.nextXs = some []

omit [LinearOrder F] in
theorem updateGains_stuck {A : Arith F} {W : World F M R G} {s : Opt F M R} (hs : s.cfg.acq = .gpHedge)
    (he : s.nextXs = some []) (est : M) : ∃ e, updateGains A W s est = .error e := by
  unfold updateGains
  rw [hs, he]
  cases s.gains with
  | none => exact ⟨_, rfl⟩
  | some g => exact ⟨_, rfl⟩

theorem refit_stuck (A : Arith F) (W : World F M R G) (dims : List (Dim F)) {s : Opt F M R} (hs : s.cfg.acq = .gpHedge)
    (he : s.nextXs = some []) : (∃ e, (refit A W dims s).2 = .error e) ∧ (refit A W dims s).1.nextXs = some [] := by
  unfold refit
  cases Space.transform A dims (s.Xi.map Val.items) with
  | error e => exact ⟨⟨e, rfl⟩, he⟩
  | ok Xt =>
    simp only
    cases hm : (W.fit s.rng Xt s.yi).2 with
    | error e => exact ⟨⟨e, rfl⟩, he⟩
    | ok est =>
      obtain ⟨e, hg⟩ := updateGains_stuck (A := A) (W := W) (s := { s with rng := (W.fit s.rng Xt s.yi).1 }) hs he est
      simp only [hg]
      exact ⟨⟨e, rfl⟩, he⟩

/-- No `tell` that fits gets out of it. -/
theorem tell_stuck (A : Arith F) (W : World F M R G) (dims : List (Dim F)) {s : Opt F M R} (hs : Stuck s) (x : XArg F)
    (y : YArg F) : (∃ e, (tell A W dims s x y true).2 = .error e) ∧ Stuck (tell A W dims s x y true).1 := by
  rcases tell_cases A W dims s x y true with ⟨e, h⟩ | ⟨y', -, -, -, h⟩
  · rw [h]; exact ⟨⟨e, rfl⟩, hs⟩
  · rw [h]
    rcases tellCore_cases A W dims s x y' true with ⟨e, -, h'⟩ | ⟨t, ht, h'⟩
    · rw [h']; exact ⟨⟨e, rfl⟩, hs⟩
    · obtain ⟨f1, -, -, -, f5, -, -, -, xs, ys, -, -, f11⟩ := record_frame ht
      have hn : t.nInit ≤ 0 := by have := hs.started; omega
      obtain ⟨hr1, hr2⟩ := refit_stuck A W dims (s := t) (by rw [f1]; exact hs.hedge) (f5.trans hs.empty)
      have hcore := (refit_frame A W dims t).1
      rcases h' with ⟨-, -, -, h1, h2⟩ | ⟨h1, -⟩
      · obtain ⟨e, he⟩ := hr1
        refine ⟨?_, ?_⟩
        · rcases h2 with ⟨e', -, h2⟩ | ⟨h2, -⟩
          · exact ⟨e', h2⟩
          · rw [he] at h2; cases h2
        · rw [h1]
          exact ⟨by rw [hcore.cfg, f1]; exact hs.hedge, by rw [hcore.cfg, f1]; exact hs.surrogate,
            by rw [hcore.nInit]; exact hn, hr2⟩
      · exact absurd ⟨rfl, hn, by rw [f1]; exact hs.surrogate⟩ h1

/-- Every later observation is refused. -/
theorem stuck_forever (A : Arith F) (W : World F M R G) (tells : List (XArg F × YArg F)) :
    ∀ (sh : Shared F G) (s : Opt F M R), Stuck s →
      ∀ r ∈ (runOps A W sh s (tells.map fun q => .tell q.1 q.2 true)).2.2, ¬ Returns r := by
  induction tells with
  | nil => intro sh s _ r hr; simp [runOps] at hr
  | cons q qs ih =>
    intro sh s hs r hr
    obtain ⟨⟨e, he⟩, h2⟩ := tell_stuck A W sh.dims hs q.1 q.2
    simp only [List.map_cons, runOps, step] at hr
    rcases List.mem_cons.1 hr with rfl | hr
    · rw [he]
      rintro ⟨a, ha⟩
      cases ha
    · exact ih _ _ h2 r hr
end

/-- A world in which acquisition values cannot be computed. -/
def blindWorld : World ℚ Nat Nat Unit := { okWorld with acquisition := fun _ _ _ _ => .error .typeError }

/-- **C91 refuted for `acq_func="gp_hedge"`, the default.** `self.next_xs_ = []` is executed before the proposals are
computed (optimizer.py:556); if computing them fails, the next fit hands the empty list to `np.vstack`
(optimizer.py:541), which raises `ValueError` before `next_xs_` is set again.  After one failed search (here the second
`tell`), however well the third-party calls work from then on, every `tell` that fits raises. -/
theorem C91_refuted_gp_hedge :
    let first : List (Op ℚ) := [.tell (.lst [.num 1]) (.num (.fin 3)) true, .tell (.lst [.num 2]) (.num (.fin 5)) true]
    let run := runOps ratArith blindWorld toyShared (toyOpt .gpHedge) first
    (run.2.2.map fun r => match r with | .ok _ => true | .error _ => false) = [true, false] ∧
    ∀ (W : World ℚ Nat Nat Unit) (tells : List (XArg ℚ × YArg ℚ)),
      ∀ r ∈ (runOps ratArith W toyShared run.2.1 (tells.map fun q => .tell q.1 q.2 true)).2.2, ¬ Returns r := by
  refine ⟨by decide +kernel, fun W tells => stuck_forever ratArith W tells _ _ ?_⟩
  exact ⟨by decide +kernel, by decide +kernel, by decide +kernel, by decide +kernel⟩

/-- With `acq_func="EI"` the same failure costs one call only. -/
example :
    let first : List (Op ℚ) := [.tell (.lst [.num 1]) (.num (.fin 3)) true, .tell (.lst [.num 2]) (.num (.fin 5)) true]
    let run := runOps ratArith blindWorld toyShared (toyOpt .EI) first
    let later := runOps ratArith okWorld toyShared run.2.1 [.tell (.lst [.num 4]) (.num (.fin 1)) true, .ask]
    (run.2.2.map fun r => match r with | .ok _ => true | .error _ => false) = [true, false] ∧
    (later.2.2.map fun r => match r with | .ok _ => true | .error _ => false) = [true, true] := by
  decide +kernel

/-- The hypotheses of C91 are met: a mixed space, two observations while every fit raises, then a world that works. -/
example :
    let s := (runOps exact ({ realWorld with fit := fun r _ _ => (r, .error .valueError) } : World ℝ Unit Unit Unit)
      ⟨liveDims, none⟩ (Opt.fresh exact { liveCfg with acq := .EI } () none)
      ([.one [.num 3, .num (2 : ℤ), .str "b"] (.num (.fin 1)) true, .ask,
        .one [.num 4, .num (8 : ℤ), .str "c"] (.num (.fin 7)) true].map Call.toOp)).2.1
    s.Xi.length = 2 ∧
    ∀ r ∈ (runOps exact realWorld ⟨liveDims, none⟩ s
      ([.one [.num 3, .num (2 : ℤ), .str "b"] (.num (.fin 0)) true, .ask].map Call.toOp)).2.2, Returns r := by
  have h1 : InSpace exact liveDims [.num 3, .num (2 : ℤ), .str "b"] :=
    .cons ⟨3, rfl, by norm_num, by norm_num⟩ (.cons ⟨2, rfl, by norm_num [exact], by norm_num [exact]⟩
      (.cons (by simp [Legal]) .nil))
  have h2 : InSpace exact liveDims [.num 4, .num (8 : ℤ), .str "c"] :=
    .cons ⟨4, rfl, by norm_num, by norm_num⟩ (.cons ⟨8, rfl, by norm_num [exact], by norm_num [exact]⟩
      (.cons (by simp [Legal]) .nil))
  intro s
  obtain ⟨g1, -, g3⟩ := C91_recovery_partial (dims := liveDims) liveDims_workable
    { realWorld with fit := fun r _ _ => (r, .error .valueError) } realWorld (fun t ht => liveWorld_reliable.log t ht)
    liveWorld_reliable none { liveCfg with acq := .EI }
    ⟨(by decide), fun _ => (by decide), fun k hk => (by cases hk; decide)⟩ (by simp) () none (by simp)
    [.one [.num 3, .num (2 : ℤ), .str "b"] (.num (.fin 1)) true, .ask,
      .one [.num 4, .num (8 : ℤ), .str "c"] (.num (.fin 7)) true] (by
    intro c hc
    simp only [List.mem_cons, List.not_mem_nil, or_false] at hc
    rcases hc with rfl | rfl | rfl
    · exact ⟨h1, ⟨.num 3, by simp, rfl⟩, 1, rfl⟩
    · trivial
    · exact ⟨h2, ⟨.num 4, by simp, rfl⟩, 7, rfl⟩)
  refine ⟨by rw [show s.Xi = _ from g1]; rfl, g3 _ [.ask] rfl ?_⟩
  intro c hc
  simp only [List.mem_cons, List.not_mem_nil, or_false] at hc
  rcases hc with rfl | rfl
  · exact ⟨⟨h1, ⟨.num 3, by simp, rfl⟩, 0, rfl⟩, rfl⟩
  · exact ⟨trivial, trivial⟩

end Skopt

import Verif.Props.Liveness

/-!
# C68: when `ask` answers if some calls do not fit the surrogate

`tell(x, y, fit=False)` records the observation only.  If no call fits a surrogate once the initial points are used up,
`ask` has nothing to go by.
-/

namespace Skopt

variable {M R G : Type} {W : World ℝ M R G} {dims : List (Dim ℝ)}

/-! ## Specification -/

/-- Among the calls there is a `tell` that fits, made when - counting its own observations - at least `n` observations
have been told. -/
def FitDone (n : ℤ) (calls : List (Call ℝ)) : Prop :=
  ∃ pre c post, calls = pre ++ c :: post ∧ c.isTell = true ∧ c.fits ∧ n ≤ ((pre ++ [c]).flatMap Call.obs).length

/-! ## Lemmas -/

theorem fitDone_nil (n : ℤ) : ¬ FitDone n [] := by
  rintro ⟨pre, c, post, h, -⟩
  cases pre <;> cases h

theorem fitDone_cons (n : ℤ) (c : Call ℝ) (cs : List (Call ℝ)) :
    FitDone n (c :: cs) ↔ (c.isTell = true ∧ c.fits ∧ n - c.obs.length ≤ 0) ∨ FitDone (n - c.obs.length) cs := by
  constructor
  · rintro ⟨pre, d, post, h1, h2, h3, h4⟩
    cases pre with
    | nil =>
      injection h1 with h1 h5
      subst h1
      refine .inl ⟨h2, h3, ?_⟩
      simp at h4
      omega
    | cons e pre =>
      injection h1 with h1 h5
      subst h1
      refine .inr ⟨pre, d, post, h5, h2, h3, ?_⟩
      simp only [List.cons_append, List.flatMap_cons, List.length_append] at h4
      push_cast at h4
      omega
  · rintro (⟨h1, h2, h3⟩ | ⟨pre, d, post, h1, h2, h3, h4⟩)
    · exact ⟨[], c, cs, rfl, h1, h2, by simp; omega⟩
    · refine ⟨c :: pre, d, post, by rw [h1]; rfl, h2, h3, ?_⟩
      simp only [List.cons_append, List.flatMap_cons, List.length_append]
      push_cast
      omega

/-- Without a fit, `tell` leaves models and suggestion alone. -/
theorem tell_unfitted {A : Arith ℝ} {s : Opt ℝ M R} {x : XArg ℝ} {y : YArg ℝ} {fit : Bool}
    (h : ¬ (fit = true ∧ (tell A W dims s x y fit).1.nInit ≤ 0 ∧ s.cfg.hasEst = true)) :
    (tell A W dims s x y fit).1.models = s.models ∧ (tell A W dims s x y fit).1.nextX = s.nextX := by
  rcases tell_cases A W dims s x y fit with ⟨e, he⟩ | ⟨y', -, -, -, he⟩
  · rw [he]; exact ⟨rfl, rfl⟩
  · rw [he] at h ⊢
    rcases tellCore_cases A W dims s x y' fit with ⟨e, -, h1⟩ | ⟨t, hr, h1⟩
    · rw [h1]; exact ⟨rfl, rfl⟩
    · have hf := tellCore_frame A W dims s x y' fit hr
      obtain ⟨r1, -, r3, -, -, r6, -⟩ := record_frame hr
      rcases h1 with ⟨a, b, c, -⟩ | ⟨-, h1⟩
      · exact absurd ⟨a, by rw [hf.nInit]; exact b, by rw [← r1]; exact c⟩ h
      · rw [h1]; exact ⟨r3, r6⟩

/-- What holds of the state whether or not `ask` can answer. -/
structure Paused (dims : List (Dim ℝ)) (s : Opt ℝ M R) : Prop where
  live : Live dims s
  sane : Sane s.cfg
  model : s.models ≠ [] → s.Xi ≠ [] ∧ ∃ p, s.nextX = some p ∧ InSpace exact dims p

theorem step_paused (hd : Workable dims) (hW : Reliable W dims) (gen : Option G) {s : Opt ℝ M R} (hs : Paused dims s)
    {c : Call ℝ} (hg : GoodCall s.cfg.acq.isPs dims c) :
    let q := step exact W ⟨dims, gen⟩ s c.toOp
    q.1 = ⟨dims, gen⟩ ∧ (c.isTell = true → Returns q.2.2) ∧ Paused dims q.2.1 ∧ q.2.1.cfg = s.cfg ∧
      q.2.1.initialSamples = s.initialSamples ∧ q.2.1.nInit = s.nInit - c.obs.length ∧
      (q.2.1.models ≠ [] ↔ s.models ≠ [] ∨
        s.cfg.hasEst = true ∧ c.isTell = true ∧ c.fits ∧ s.nInit - c.obs.length ≤ 0) := by
  intro q
  have tells : ∀ (x : XArg ℝ) (y : YArg ℝ) (fit : Bool) (t : Opt ℝ M R) (r : Result ℝ M), c.toOp = .tell x y fit →
      c.isTell = true → (c.fits ↔ fit = true) → (∀ p y f, c = .one p y f → Flat p) →
      tell exact W dims s x y fit = (t, .ok r) → Live dims t → t.Xi ≠ [] →
      (fit = true → s.nInit - c.obs.length ≤ 0 → s.cfg.hasEst = true →
        t.models ≠ [] ∧ ∃ p, t.nextX = some p ∧ InSpace exact dims p) →
      q.1 = ⟨dims, gen⟩ ∧ (c.isTell = true → Returns q.2.2) ∧ Paused dims q.2.1 ∧ q.2.1.cfg = s.cfg ∧
      q.2.1.initialSamples = s.initialSamples ∧ q.2.1.nInit = s.nInit - c.obs.length ∧
      (q.2.1.models ≠ [] ↔ s.models ≠ [] ∨
        s.cfg.hasEst = true ∧ c.isTell = true ∧ c.fits ∧ s.nInit - c.obs.length ≤ 0) := by
    intro x y fit t r hop hct hcf hflat htell hlive hne hfit
    have e : q = (⟨dims, gen⟩, t, .ok (.result r)) := by
      simp only [q, hop, step, htell, ok_bind]
    have hcall := step_call (A := exact) (W := W) (sh := ⟨dims, gen⟩) (s := s) (c := c) hflat
      (fun _ => ⟨.result r, by change q.2.2 = _; rw [e]⟩)
    change q.2.1.cfg = _ ∧ q.2.1.initialSamples = _ ∧ q.2.1.Xi = _ ∧ (∃ ys, q.2.1.yi = _ ∧ _ ∧ q.2.1.nInit = _) ∧ _
      at hcall
    obtain ⟨g1, g2, -, ⟨ys, -, g4, g5⟩, -⟩ := hcall
    have hl : ys.length = c.obs.length := by rw [← g4.length_eq, List.length_map]
    rw [hl] at g5
    rw [e] at g1 g2 g5 ⊢
    simp only at g1 g2 g5
    by_cases hf : fit = true ∧ s.nInit - c.obs.length ≤ 0 ∧ s.cfg.hasEst = true
    · obtain ⟨m1, m2⟩ := hfit hf.1 hf.2.1 hf.2.2
      exact ⟨rfl, fun _ => ⟨_, rfl⟩, ⟨hlive, by rw [g1]; exact hs.sane, fun _ => ⟨hne, m2⟩⟩, g1, g2, g5,
        iff_of_true m1 (.inr ⟨hf.2.2, hct, hcf.2 hf.1, hf.2.1⟩)⟩
    · obtain ⟨u1, u2⟩ := tell_unfitted (A := exact) (W := W) (dims := dims) (s := s) (x := x) (y := y) (fit := fit) (by
        rw [htell, g5]; exact hf)
      rw [htell] at u1 u2
      refine ⟨rfl, fun _ => ⟨_, rfl⟩, ⟨hlive, by rw [g1]; exact hs.sane, fun h => ⟨hne, ?_⟩⟩, g1, g2, g5, ?_⟩
      · show ∃ p, t.nextX = some p ∧ _
        rw [u2]
        exact (hs.model (by rw [← u1]; exact h)).2
      · show t.models ≠ [] ↔ _
        rw [u1]
        exact ⟨.inl, fun h => h.elim id fun h => absurd ⟨hcf.1 h.2.2.1, h.2.2.2, h.1⟩ hf⟩
  cases c with
  | one p y fit =>
    obtain ⟨t, r, h1, h2, h3, h4⟩ := tell_one_live hd hW hs.live hs.sane hg.1 hg.2.1 hg.2.2 fit
    exact tells _ _ fit t r rfl rfl Iff.rfl (fun p' y' f' h => by cases h; exact hg.2.1) h1 h2 h3 h4
  | batch obs fit =>
    obtain ⟨t, r, h1, h2, h3, h4⟩ := tell_batch_live hd hW hs.live hs.sane hg.1 hg.2 fit
    exact tells _ _ fit t r rfl rfl Iff.rfl (fun p' y' f' h => by cases h) h1 h2 h3 (by
      rw [List.length_map] at h4; exact h4)
  | ask =>
    obtain ⟨r, hr⟩ := askOne_frame exact W dims s
    have e1 : q.1 = ⟨dims, gen⟩ := rfl
    have e2 : q.2.1 = { s with rng := r } := by simp only [q, Call.toOp, step, hr]
    rw [e2]
    refine ⟨e1, fun h => (by cases h), ⟨⟨hs.live.points, hs.live.values, hs.live.aligned, hs.live.hedge,
      hs.live.proposals⟩, hs.sane, hs.model⟩, rfl, rfl, by simp [Call.obs], ?_⟩
    exact ⟨.inl, fun h => h.elim id fun h => absurd h.2.1 (by decide)⟩
  | askMany n st => exact hg.elim
  | updateNext => exact hg.elim
  | getResult => exact hg.elim

theorem run_paused (hd : Workable dims) (hW : Reliable W dims) (gen : Option G) (calls : List (Call ℝ)) :
    ∀ {s : Opt ℝ M R}, Paused dims s → (∀ c ∈ calls, GoodCall s.cfg.acq.isPs dims c) →
    let q := runOps exact W ⟨dims, gen⟩ s (calls.map Call.toOp)
    q.1 = ⟨dims, gen⟩ ∧ Paused dims q.2.1 ∧ q.2.1.cfg = s.cfg ∧ q.2.1.initialSamples = s.initialSamples ∧
      q.2.1.nInit = s.nInit - (calls.flatMap Call.obs).length ∧
      (q.2.1.models ≠ [] ↔ s.models ≠ [] ∨ s.cfg.hasEst = true ∧ FitDone s.nInit calls) := by
  induction calls with
  | nil =>
    intro s hs _ q
    exact ⟨rfl, hs, rfl, rfl, by simp [q, runOps], ⟨.inl, fun h => h.elim id fun h => absurd h.2 (fitDone_nil _)⟩⟩
  | cons c cs ih =>
    intro s hs hg
    obtain ⟨h1, -, h3, h4, h5, h6, h7⟩ := step_paused hd hW gen hs (hg c List.mem_cons_self)
    have := ih h3 (fun d hd => by rw [h4]; exact hg d (List.mem_cons_of_mem _ hd))
    simp only [List.map_cons, runOps, h1]
    obtain ⟨k1, k2, k3, k4, k5, k6⟩ := this
    refine ⟨k1, k2, k3.trans h4, k4.trans h5, ?_, ?_⟩
    · rw [k5, h6, List.flatMap_cons, List.length_append]; push_cast; ring
    · rw [k6, h7, h4, h6, fitDone_cons]
      tauto

/-! ## The property -/

/-- **C68 (when `ask` answers).** After any sequence of `ask()` and of `tell` calls with members of the space, with and
without `fit=False`, `ask()` returns a member of the space if initial points are left, if there is no surrogate at all, or
if some call has fitted one since the initial points were used up; in all other cases - and only then - it raises
`RuntimeError`.  (`n` is `n_initial_points`; if the initial points are generated in advance there are enough of them.) -/
theorem C68_ask_answers_iff (hd : Workable dims) (hW : Reliable W dims) (gen : Option G) (cfg : Config) (hc : Sane cfg)
    (rng : R) (pts : Option (List (Point ℝ)))
    (hpts : ∀ P, pts = some P → cfg.hasEst = true ∧ cfg.nInitial ≤ P.length ∧ ∀ p ∈ P, InSpace exact dims p)
    (calls : List (Call ℝ)) (hcalls : ∀ c ∈ calls, GoodCall cfg.acq.isPs dims c) :
    let told : ℤ := (calls.flatMap Call.obs).length
    let q := runOps exact W ⟨dims, gen⟩ (Opt.fresh exact cfg rng pts) (calls.map Call.toOp)
    let answer := (step exact W q.1 q.2.1 .ask).2.2
    (told < cfg.nInitial ∨ cfg.hasEst = false ∨ FitDone cfg.nInitial calls →
      ∃ p, answer = .ok (.point p) ∧ InSpace exact dims p) ∧
    (cfg.nInitial ≤ told → cfg.hasEst = true → ¬ FitDone cfg.nInitial calls → answer = .error .runtimeError) := by
  intro told q answer
  obtain ⟨h1, h2, h3, h4, h5, h6⟩ := run_paused hd hW gen calls (s := (Opt.fresh exact cfg rng pts : Opt ℝ M R))
    ⟨live_fresh dims cfg rng pts, hc, fun h => absurd rfl h⟩ hcalls
  change q.1 = _ at h1
  change Paused dims q.2.1 at h2
  change q.2.1.cfg = cfg at h3
  change q.2.1.initialSamples = pts at h4
  change q.2.1.nInit = cfg.nInitial - told at h5
  change q.2.1.models ≠ [] ↔ _ ∨ cfg.hasEst = true ∧ FitDone cfg.nInitial calls at h6
  have h6 : q.2.1.models ≠ [] ↔ cfg.hasEst = true ∧ FitDone cfg.nInitial calls :=
    h6.trans ⟨fun h => h.elim (fun h => absurd rfl h) id, .inr⟩
  have hans : answer = (askOne exact W dims q.2.1).2.map Out.point := by
    simp only [answer, step, h1]
    cases (askOne exact W dims q.2.1).2 <;> rfl
  constructor
  · intro hor
    have hr : Ready dims q.2.1 := by
      refine ⟨fun P hP => ?_, fun h7 h8 => ?_⟩
      · obtain ⟨a, b, -⟩ := hpts P (by rw [← h4]; exact hP)
        exact ⟨by rw [h3]; exact a, by rw [h5]; omega⟩
      · rw [h3] at h8
        rw [h5] at h7
        have hf : FitDone cfg.nInitial calls := by
          rcases hor with h | h | h
          · omega
          · rw [h8] at h; cases h
          · exact h
        have hm := h6.2 ⟨h8, hf⟩
        exact ⟨hm, h2.model hm⟩
    obtain ⟨p, hp⟩ := askOne_live hd hW h2.live hr
    refine ⟨p, by rw [hans, hp]; rfl, ?_⟩
    exact askOne_member hd hW (fun P hP => (hpts P (by rw [← h4]; exact hP)).2.2) hr hp
  · intro h7 h8 h9
    have hm : q.2.1.models = [] := by
      by_contra hm
      exact h9 (h6.1 hm).2
    rw [hans]
    unfold askOne
    rw [if_neg (by rw [h3, h5, h8]; simp; omega), hm]
    rfl

/-- **C68 (one fitting call is enough).** Whatever was told without fitting, after the next `tell` that fits and brings
the number of observations to `n_initial_points` or beyond, `ask()` answers again, and no later `fit=False` changes
that. -/
theorem C68_fit_recovers (hd : Workable dims) (hW : Reliable W dims) (gen : Option G) (cfg : Config) (hc : Sane cfg)
    (rng : R) (pts : Option (List (Point ℝ)))
    (hpts : ∀ P, pts = some P → cfg.hasEst = true ∧ cfg.nInitial ≤ P.length ∧ ∀ p ∈ P, InSpace exact dims p)
    (before after : List (Call ℝ)) (c : Call ℝ) (hct : c.isTell = true) (hcf : c.fits)
    (hn : cfg.nInitial ≤ ((before ++ [c]).flatMap Call.obs).length)
    (hcalls : ∀ d ∈ before ++ c :: after, GoodCall cfg.acq.isPs dims d) :
    let q := runOps exact W ⟨dims, gen⟩ (Opt.fresh exact cfg rng pts) ((before ++ c :: after).map Call.toOp)
    ∃ p, (step exact W q.1 q.2.1 .ask).2.2 = .ok (.point p) ∧ InSpace exact dims p :=
  (C68_ask_answers_iff hd hW gen cfg hc rng pts hpts _ hcalls).1 (.inr (.inr ⟨before, c, after, rfl, hct, hcf, hn⟩))

/-- One observation recorded with `fit=False` uses up the only initial point: `ask()` raises; with the next observation
it answers, and keeps answering. -/
example :
    let c₁ : Call ℝ := .one [.num 3, .num (2 : ℤ), .str "b"] (.num (.fin 1)) false
    let c₂ : Call ℝ := .one [.num 4, .num (8 : ℤ), .str "c"] (.num (.fin 7)) true
    let after := fun calls : List (Call ℝ) =>
      runOps exact realWorld ⟨liveDims, none⟩ (Opt.fresh exact liveCfg () none) (calls.map Call.toOp)
    (step exact realWorld (after [c₁, .ask]).1 (after [c₁, .ask]).2.1 .ask).2.2 = .error .runtimeError ∧
    ∃ p, (step exact realWorld (after [c₁, .ask, c₂, c₁]).1 (after [c₁, .ask, c₂, c₁]).2.1 .ask).2.2 = .ok (.point p) ∧
      InSpace exact liveDims p := by
  intro c₁ c₂ after
  have h1 : GoodCall false liveDims c₁ := ⟨.cons ⟨3, rfl, by norm_num, by norm_num⟩ (.cons ⟨2, rfl, by norm_num [exact],
    by norm_num [exact]⟩ (.cons (by simp [Legal]) .nil)), ⟨.num 3, by simp, rfl⟩, 1, rfl⟩
  have h2 : GoodCall false liveDims c₂ := ⟨.cons ⟨4, rfl, by norm_num, by norm_num⟩ (.cons ⟨8, rfl, by norm_num [exact],
    by norm_num [exact]⟩ (.cons (by simp [Legal]) .nil)), ⟨.num 4, by simp, rfl⟩, 7, rfl⟩
  have hs : Sane liveCfg := ⟨(by decide), fun _ => (by decide), fun k hk => (by cases hk; decide)⟩
  constructor
  · refine (C68_ask_answers_iff liveDims_workable liveWorld_reliable none liveCfg hs () none (by simp) [c₁, .ask] ?_).2
      (by decide) rfl ?_
    · intro c hc
      simp only [List.mem_cons, List.not_mem_nil, or_false] at hc
      rcases hc with rfl | rfl
      · exact h1
      · trivial
    · rw [fitDone_cons, fitDone_cons]
      rintro (⟨-, h, -⟩ | ⟨h, -⟩ | h)
      · cases h
      · cases h
      · exact fitDone_nil _ h
  · refine C68_fit_recovers liveDims_workable liveWorld_reliable none liveCfg hs () none (by simp) [c₁, .ask] [c₁] c₂ rfl rfl
      (by decide) ?_
    intro c hc
    simp only [List.cons_append, List.nil_append, List.mem_cons, List.not_mem_nil, or_false] at hc
    rcases hc with rfl | rfl | rfl | rfl
    · exact h1
    · trivial
    · exact h2
    · exact h1

end Skopt

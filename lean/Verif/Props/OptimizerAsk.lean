import Verif.Lemmas.OptimizerSound
import Verif.Model.ExampleWorld

/-!
# C31, C32, C34: asking
-/

namespace Skopt

variable {F M R G : Type}

section
variable [LinearOrder F]

/-! ## C31 -/

/-- **C31, initial phase.** For every world and every sequence of calls whatsoever on a fresh optimizer:
as long as fewer values than `n_initial_points` have been told, `ask` returns - with a generator - the
design point whose number is the number of values told so far, and - without one - the point made of one
fresh draw from the distributions of the dimensions.  Neither depends on any model.

Missing: a generator that delivers another number of points than requested (see the refutation). -/
theorem C31_initial_phase_partial (A : Arith F) (W : World F M R G) (sh : Shared F G) (cfg : Config)
    (rng : R) (pts : Option (List (Point F))) (ops : List (Op F)) :
    let sh' := (runOps A W sh (Opt.fresh A cfg rng pts) ops).1
    let t := (runOps A W sh (Opt.fresh A cfg rng pts) ops).2.1
    (t.yi.length : ℤ) < cfg.nInitial →
      (∀ P, pts = some P → (P.length : ℤ) = cfg.nInitial →
        ∃ p, P[t.yi.length]? = some p ∧ askOne A W sh'.dims t = (t, .ok p)) ∧
      (pts = none → (askOne A W sh'.dims t).2 =
        (do let ps ← Space.rvs A sh'.dims (W.draws t.rng sh'.dims 1).2; pyGet ps 0)) := by
  intro sh' t hlt
  obtain ⟨h1, h2, h3⟩ := runOps_count A W sh (Opt.fresh A cfg rng pts : Opt F M R) ops
    (by simp [Opt.fresh])
  change t.nInit = cfg.nInitial - t.yi.length at h1
  change t.initialSamples = pts at h3
  have hpos : 0 < t.nInit := by omega
  constructor
  · intro P hP hlen
    have hlt' : t.yi.length < P.length := by omega
    refine ⟨P[t.yi.length], by simp [hlt'], ?_⟩
    unfold askOne
    rw [if_pos (Or.inl hpos), h3, hP]
    have he : (P.length : ℤ) - t.nInit = ((t.yi.length : Nat) : ℤ) := by omega
    simp only [he, pyGetI]
    rw [if_pos (by omega), Int.toNat_natCast, pyGet_lt hlt']
  · intro hP
    unfold askOne
    rw [if_pos (Or.inl hpos), h3, hP]

/-- **C31, model phase.** Once `n_initial_points` values have been told, an optimizer with a surrogate
raises `RuntimeError` if no model was fitted, and whenever it returns a point this is the stored model
suggestion. -/
theorem C31_model_phase (A : Arith F) (W : World F M R G) (sh : Shared F G) (cfg : Config)
    (rng : R) (pts : Option (List (Point F))) (ops : List (Op F)) (hest : cfg.hasEst = true) :
    let sh' := (runOps A W sh (Opt.fresh A cfg rng pts) ops).1
    let t := (runOps A W sh (Opt.fresh A cfg rng pts) ops).2.1
    cfg.nInitial ≤ t.yi.length →
      (t.models = [] → askOne A W sh'.dims t = (t, .error .runtimeError)) ∧
      (∀ p, (askOne A W sh'.dims t).2 = .ok p → t.models ≠ [] ∧ t.nextX = some p) := by
  intro sh' t hle
  obtain ⟨h1, h2, h3⟩ := runOps_count A W sh (Opt.fresh A cfg rng pts : Opt F M R) ops
    (by simp [Opt.fresh])
  change t.nInit = cfg.nInitial - t.yi.length at h1
  change t.cfg = cfg at h2
  have hneg : ¬ (0 < t.nInit ∨ t.cfg.hasEst = false) := by
    rw [h2, hest]; simp; omega
  constructor
  · intro hm
    unfold askOne
    rw [if_neg hneg, hm]
    rfl
  · intro p hp
    unfold askOne at hp
    rw [if_neg hneg] at hp
    split at hp
    · cases hp
    · next hm =>
      refine ⟨by simpa using hm, ?_⟩
      split at hp
      · cases hp
      · next x hx =>
        simp only [bind_eq_ok] at hp
        obtain ⟨ds, _, hp⟩ := hp
        split at hp
        · cases hp
        · injection hp with hp
          rw [hx, hp]

/-- **C31, where suggestions come from.** The stored suggestion only changes in a fitting `tell` (with
the initial budget used up and a surrogate present) or in `update_next`; before, there is none. -/
theorem C31_no_suggestion_before_fit (A : Arith F) (W : World F M R G) (sh : Shared F G) (cfg : Config)
    (rng : R) (pts : Option (List (Point F))) (ops : List (Op F)) :
    let t := (runOps A W sh (Opt.fresh A cfg rng pts) ops).2.1
    ((t.yi.length : ℤ) < cfg.nInitial ∨ cfg.hasEst = false) → t.nextX = none ∧ t.models = [] := by
  have key : ∀ (ops : List (Op F)) (sh : Shared F G) (s : Opt F M R), s.cfg = cfg →
      s.nInit = cfg.nInitial - s.yi.length →
      (((s.yi.length : ℤ) < cfg.nInitial ∨ cfg.hasEst = false) → s.nextX = none ∧ s.models = []) →
      let t := (runOps A W sh s ops).2.1
      ((t.yi.length : ℤ) < cfg.nInitial ∨ cfg.hasEst = false) → t.nextX = none ∧ t.models = [] := by
    intro ops
    induction ops with
    | nil => intro sh s _ _ h; exact h
    | cons op ops ih =>
      intro sh s hc hn h
      obtain ⟨f1, f2, xs, ys, f3, f4, f5⟩ := step_frame A W sh s op
      refine ih (step A W sh s op).1 (step A W sh s op).2.1 (f1.trans hc) ?_ ?_
      · rw [f5, f4, hn, List.length_append]; push_cast; ring
      · intro hlt
        have hle : (s.yi.length : ℤ) < cfg.nInitial ∨ cfg.hasEst = false := by
          rcases hlt with hlt | hlt
          · rw [f4, List.length_append] at hlt; push_cast at hlt; left; omega
          · exact Or.inr hlt
        obtain ⟨h1, h2⟩ := h hle
        cases op with
        | ask =>
          obtain ⟨r, e⟩ := askOne_frame A W sh.dims s
          simp only [step, e]; exact ⟨h1, h2⟩
        | askMany n strat =>
          obtain ⟨r, c, e⟩ := askMany_frame A W sh s n strat
          simp only [step, e]; exact ⟨h1, h2⟩
        | getResult => exact ⟨h1, h2⟩
        | updateNext =>
          simp only [step, updateNext, h1]; exact ⟨trivial, h2⟩
        | tell x y fit =>
          simp only [step] at hlt f4 f5 ⊢
          rcases tell_cases A W sh.dims s x y fit with ⟨e, he⟩ | ⟨y', _, _, _, he⟩
          · rw [he]; exact ⟨h1, h2⟩
          · rw [he] at hlt ⊢
            rcases tellCore_cases A W sh.dims s x y' fit with ⟨e, _, h3⟩ | ⟨u, hu, h3⟩
            · rw [h3]; exact ⟨h1, h2⟩
            · obtain ⟨r1, r2, r3, _, _, r6, _, _, xs', ys', _, r8, r9⟩ := record_frame hu
              rcases h3 with ⟨_, h4, h5, h6, _⟩ | ⟨_, h6⟩
              · exfalso
                rw [h6, (refit_frame A W sh.dims u).1.5] at hlt
                rcases hlt with hlt | hlt
                · rw [r9, hn] at h4
                  rw [r8, List.length_append] at hlt
                  push_cast at hlt
                  omega
                · rw [r1, hc, hlt] at h5; cases h5
              · rw [h6]; exact ⟨r6.trans h1, r3.trans h2⟩
  exact key ops sh _ rfl (by simp [Opt.fresh]) (fun _ => ⟨rfl, rfl⟩)

/-- **C31, batch.** A batch asked for during the initial phase consists of the next design points, as far
as the design lasts – for every sequence of documented calls, also when the batch comes from the cache. -/
theorem C31_batch_follows_design (A : Arith F) (W : World F M R G) (sh : Shared F G) (cfg : Config)
    (rng : R) (P : List (Point F)) (calls : List (Call F))
    (hflat : ∀ p y f, Call.one p y f ∈ calls → Flat p)
    (hP : ∀ p ∈ P, Flat p) (hlen : (P.length : ℤ) = cfg.nInitial)
    (n : ℤ) (strat : Strategy) (X : List (Point F)) :
    let sh' := (runOps A W sh (Opt.fresh A cfg rng (some P)) (calls.map Call.toOp)).1
    let t := (runOps A W sh (Opt.fresh A cfg rng (some P)) (calls.map Call.toOp)).2.1
    (askMany A W sh' t n strat).2.2 = .ok X →
      ∀ i < X.length, t.yi.length + i < P.length → X[i]? = P[t.yi.length + i]? := by
  -- what a batch computed in a sound state satisfies
  have fresh : ∀ (sh : Shared F G) (s : Opt F M R), Sound s → s.cfg = cfg →
      s.initialSamples = some P → ∀ (sh₁ : Shared F G) (o o' : Opt F M R) (r r' : R) (n : Nat)
      (strat : Strategy) (X : List (Point F)),
      Opt.copy A W sh { s with rng := r } r' = (sh₁, .ok o) →
      liarLoop A W sh₁.dims strat n o = (o', .ok X) →
      ∀ i < X.length, s.yi.length + i < P.length → X[i]? = P[s.yi.length + i]? := by
    intro sh s hs hc hi sh₁ o o' r r' n strat X hco hl i hiX hlt
    obtain ⟨so, c1, c2, c3, c4, c5, _⟩ := copy_sound (s := { s with rng := r })
      ⟨hs.lists, hs.count, hs.aligned⟩ hco
    have hlen' := liarLoop_length hl
    have := liarLoop_design (P := P) (c4.trans hi) (by rw [c5]; simpa [hc] using hlen)
      (fun _ => hP) so.count hl i (by omega) (by rw [c2]; exact hlt)
    rw [c2] at this
    exact this
  have key : ∀ (calls : List (Call F)), (∀ p y f, Call.one p y f ∈ calls → Flat p) →
      ∀ (sh : Shared F G) (s : Opt F M R), Sound s → s.cfg = cfg → s.initialSamples = some P →
      (∀ k st X, s.cache = some ((k, st), X) →
        ∀ i < X.length, s.yi.length + i < P.length → X[i]? = P[s.yi.length + i]?) →
      let t := (runOps A W sh s (calls.map Call.toOp)).2.1
      Sound t ∧ t.cfg = cfg ∧ t.initialSamples = some P ∧ (∀ k st X, t.cache = some ((k, st), X) →
        ∀ i < X.length, t.yi.length + i < P.length → X[i]? = P[t.yi.length + i]?) := by
    intro calls
    induction calls with
    | nil => intro _ sh s h1 h2 h3 h4; exact ⟨h1, h2, h3, h4⟩
    | cons c cs ih =>
      intro hf sh s h1 h2 h3 h4
      obtain ⟨f1, f2, _⟩ := step_frame A W sh s c.toOp
      refine ih (fun p y f hc => hf p y f (by simp [hc])) (step A W sh s c.toOp).1
        (step A W sh s c.toOp).2.1
        (step_sound (fun p y f hc => hf p y f (by simp [hc])) h1) (f1.trans h2) (f2.trans h3) ?_
      rcases step_cache A W sh s c.toOp with ⟨g1, _, _, _, g2⟩ | g1 | ⟨n, strat, X, _, g2, g3, _, _, _, g4⟩
      · intro k st X hX
        rw [g1] at hX
        rw [g2]
        exact h4 k st X hX
      · intro k st X hX; rw [g1] at hX; cases hX
      · intro k st Y hY
        rw [g3] at hY
        simp only [Option.some.injEq, Prod.mk.injEq] at hY
        obtain ⟨⟨rfl, rfl⟩, rfl⟩ := hY
        rw [g4]
        obtain ⟨_, _, ⟨e1, _⟩ | ⟨sh₁, o, o', e1, e2, _⟩⟩ := askMany_ok g2
        · exact h4 _ _ _ e1
        · exact fresh sh s h1 h2 h3 sh₁ o o' _ _ _ _ _ e1 e2
  intro sh' t h
  obtain ⟨k1, k2, k3, k4⟩ := key calls hflat sh (Opt.fresh A cfg rng (some P)) (sound_fresh ..) rfl rfl
    (fun k st X hX => by cases hX)
  obtain ⟨_, _, ⟨e1, _⟩ | ⟨sh₁, o, o', e1, e2, _⟩⟩ := askMany_ok h
  · exact k4 _ _ _ e1
  · exact fresh sh' t k1 k2 k3 sh₁ o o' _ _ _ _ _ e1 e2

end

/-- A fresh toy optimizer with the design 1, 2. -/
def toyDesigned : Opt ℚ Nat Nat :=
  Opt.fresh ratArith (toyCfg .EI) 0 (some [[.num 1], [.num 2]])

/-- Non-vacuity: after one tell the second design point is asked, in a batch the second design point is
followed by a model suggestion, after two tells a model suggestion (5, the midpoint) is returned.
Meets the hypotheses of `C31_initial_phase_partial`, `C31_model_phase`, `C31_batch_follows_design`. -/
example :
    (askOne ratArith okWorld toyDims toyDesigned).2 = .ok [.num 1] ∧
    (runOps ratArith okWorld ⟨toyDims, some ()⟩ toyDesigned
      [.tell (.lst [.num 1]) (.num (.fin 3)) true, .ask, .askMany 2 .clMin,
       .tell (.lst [.num 2]) (.num (.fin 4)) true, .ask]).2.2.map
      (fun r => match r with
        | .ok (.point p) => [p]
        | .ok (.points ps) => ps
        | _ => []) = [[], [[.num 2]], [[.num 2], [.num 5]], [], [[.num 5]]] := by
  refine ⟨by decide +kernel, by decide +kernel⟩

/-- **C31 is false when the generator delivers fewer points than requested** (as `Grid` does in one
dimension, `C27_refuted_one_dimension`): with three points requested and two delivered, the first `ask`
returns the *last* design point, which is then asked for again at the end. -/
theorem C31_refuted_short_design :
    let s : Opt ℚ Nat Nat := Opt.fresh ratArith { toyCfg .EI with nInitial := 3 } 0
      (some [[.num 1], [.num 2]])
    (askOne ratArith okWorld toyDims s).2 = .ok [.num 2] ∧
    (runOps ratArith okWorld ⟨toyDims, some ()⟩ s
      [.tell (.lst [.num 2]) (.num (.fin 3)) true, .tell (.lst [.num 1]) (.num (.fin 3)) true,
       .ask]).2.2.map
      (fun r => match r with
        | .ok (.point p) => [p]
        | _ => []) = [[], [], [[.num 2]]] := by
  refine ⟨by decide +kernel, by decide +kernel⟩

/-- Without surrogate ("dummy") the design is not followed by random points: `ask` raises `IndexError`
once the design is used up. -/
theorem C31_note_dummy_with_design [LinearOrder F] (A : Arith F) (W : World F M R G)
    (dims : List (Dim F)) (s : Opt F M R) (P : List (Point F)) (hP : s.initialSamples = some P)
    (hest : s.cfg.hasEst = false) (hn : s.nInit ≤ 0) :
    askOne A W dims s = (s, .error .indexError) := by
  unfold askOne
  rw [if_pos (Or.inr hest), hP]
  simp only [pyGetI]
  rw [if_pos (by omega), pyGet_ge (by omega)]

/-- Meets the hypotheses of `C31_no_suggestion_before_fit`. -/
example : (askOne ratArith okWorld toyDims { toyDesigned with
    cfg := { toyCfg .EI with hasEst := false }
    nInit := 0 }).2 = .error .indexError := by decide +kernel

/-! ## C32 -/

section
variable [LinearOrder F]

/-- **C32, repeatability.** In the designed phase and in the model phase every further `ask` without a
`tell` in between gives the same outcome as the first, any number of times, and changes nothing. -/
theorem C32_ask_repeatable (A : Arith F) (W : World F M R G) (sh : Shared F G) (s : Opt F M R)
    (h : s.initialSamples ≠ none ∨ (s.nInit ≤ 0 ∧ s.cfg.hasEst = true)) (n : Nat) :
    runOps A W sh s (List.replicate n .ask) =
      (sh, s, List.replicate n (do let p ← (askOne A W sh.dims s).2; .ok (.point p))) := by
  have h1 : (askOne A W sh.dims s).1 = s := by
    unfold askOne
    split
    · next hc =>
      split
      · next hi =>
        rcases h with h | ⟨h, h'⟩
        · exact absurd hi h
        · rcases hc with hc | hc
          · omega
          · rw [h'] at hc; cases hc
      · rfl
    · split
      · rfl
      · split <;> rfl
  induction n with
  | zero => rfl
  | succ n ih =>
    simp only [List.replicate_succ, runOps, step, h1, ih]

/-- **C32, no effect.** In every state whatsoever `ask` changes nothing but the random state: history,
remaining budget, design, models, cache, gains and suggestion are as before. -/
theorem C32_ask_changes_nothing (A : Arith F) (W : World F M R G) (sh : Shared F G) (s : Opt F M R) :
    (step A W sh s .ask).1 = sh ∧ ∃ r, (step A W sh s .ask).2.1 = { s with rng := r } := by
  obtain ⟨r, h⟩ := askOne_frame A W sh.dims s
  exact ⟨rfl, r, h⟩

end

/-- Non-vacuity of `C32_ask_repeatable`: both phases occur and `ask` returns a point in each. -/
example : toyDesigned.initialSamples ≠ none ∧
    (askOne ratArith okWorld toyDims toyDesigned).2 = .ok [.num 1] ∧
    (let t := (runOps ratArith okWorld toyShared (toyOpt .EI)
        [.tell (.lst [.num 1]) (.num (.fin 3)) true, .tell (.lst [.num 2]) (.num (.fin 4)) true]).2.1
     t.nInit ≤ 0 ∧ t.cfg.hasEst = true ∧ (askOne ratArith okWorld toyDims t).2 = .ok [.num 5]) := by
  refine ⟨by decide +kernel, by decide +kernel, by decide +kernel, by decide +kernel, by decide +kernel⟩

/-! ## C34 -/

section
variable [LinearOrder F]

/-- **C34, number.** After every sequence of calls whatsoever, a batch `ask` that returns has been asked
for a positive number of points and returns exactly that many. -/
theorem C34_batch_size (A : Arith F) (W : World F M R G) (sh : Shared F G) (cfg : Config)
    (rng : R) (pts : Option (List (Point F))) (ops : List (Op F)) (n : ℤ) (strat : Strategy)
    (X : List (Point F)) :
    let sh' := (runOps A W sh (Opt.fresh A cfg rng pts) ops).1
    let t := (runOps A W sh (Opt.fresh A cfg rng pts) ops).2.1
    (askMany A W sh' t n strat).2.2 = .ok X → (X.length : ℤ) = n ∧ 0 < n ∧ strat ≠ .other := by
  intro sh' t h
  have hc : CacheSized t := runOps_cacheSized A W sh _ ops (fun k st X hX => by cases hX)
  obtain ⟨h1, h2, _⟩ := askMany_ok h
  exact ⟨askMany_length hc h, h1, h2⟩

/-- **C34, isolation.** In every state, whether it returns or raises, a batch `ask` changes nothing but
the random state and the cache: history, remaining budget, design, models, gains and suggestion are as
before. -/
theorem C34_batch_isolated (A : Arith F) (W : World F M R G) (sh : Shared F G) (s : Opt F M R) (n : ℤ)
    (strat : Strategy) :
    let t := (askMany A W sh s n strat).2.1
    t.cfg = s.cfg ∧ t.nInit = s.nInit ∧ t.initialSamples = s.initialSamples ∧ t.Xi = s.Xi ∧
      t.yi = s.yi ∧ t.models = s.models ∧ t.gains = s.gains ∧ t.nextXs = s.nextXs ∧
      t.nextX = s.nextX := by
  obtain ⟨r, c, h⟩ := askMany_frame A W sh s n strat
  simp only [h, and_self]

/-- **C34, cache.** After a batch `ask` that returned `X`, the identical call returns `X` again, no matter
how many single asks, requests for the result or identical batch asks come in between. -/
theorem C34_batch_cached (A : Arith F) (W : World F M R G) (sh : Shared F G) (s : Opt F M R) (n : ℤ)
    (strat : Strategy) (X : List (Point F)) (h : (askMany A W sh s n strat).2.2 = .ok X)
    (ops : List (Op F))
    (hops : ∀ op ∈ ops, op = .ask ∨ op = .getResult ∨ op = .askMany n strat) :
    let sh₁ := (askMany A W sh s n strat).1
    let s₁ := (askMany A W sh s n strat).2.1
    let sh₂ := (runOps A W sh₁ s₁ ops).1
    let s₂ := (runOps A W sh₁ s₁ ops).2.1
    askMany A W sh₂ s₂ n strat = (sh₂, s₂, .ok X) := by
  obtain ⟨hn, hs, hc⟩ := askMany_ok h
  have hcache : (askMany A W sh s n strat).2.1.cache = some ((n.toNat, strat), X) := by
    rcases hc with ⟨h1, h2⟩ | ⟨sh₁, o, o', _, _, h2⟩
    · rw [h2]; exact h1
    · rw [h2]
  have hit : ∀ (sh : Shared F G) (s : Opt F M R), s.cache = some ((n.toNat, strat), X) →
      askMany A W sh s n strat = (sh, s, .ok X) := by
    intro sh s hs'
    unfold askMany
    rw [if_neg (by omega), if_neg hs]
    simp only [askMany.cached, hs', if_true]
  have key : ∀ (ops : List (Op F)), (∀ op ∈ ops, op = .ask ∨ op = .getResult ∨ op = .askMany n strat) →
      ∀ (sh : Shared F G) (s : Opt F M R), s.cache = some ((n.toNat, strat), X) →
      (runOps A W sh s ops).2.1.cache = some ((n.toNat, strat), X) := by
    intro ops
    induction ops with
    | nil => intro _ sh s h; exact h
    | cons op ops ih =>
      intro ho sh s h
      refine ih (fun q hq => ho q (by simp [hq])) (step A W sh s op).1 (step A W sh s op).2.1 ?_
      rcases ho op (by simp) with rfl | rfl | rfl
      · obtain ⟨r, e⟩ := askOne_frame A W sh.dims s
        simp only [step, e]; exact h
      · exact h
      · simp only [step, hit sh s h]; exact h
  exact hit _ _ (key ops hops _ _ hcache)

/-- **C34, invalidation.** What a `tell` that is not refused leaves behind does not depend on any batch
handed out before: with any other cache content the state after the `tell` – and with it every later
answer – is the same. -/
theorem C34_tell_invalidates (A : Arith F) (W : World F M R G) (dims : List (Dim F)) (s : Opt F M R)
    (x : XArg F) (y : YArg F) (fit : Bool) (c : Option ((Nat × Strategy) × List (Point F))) :
    (tell A W dims { s with cache := c } x y fit).2 = (tell A W dims s x y fit).2 ∧
    (Returns (tell A W dims s x y fit).2 →
      tell A W dims { s with cache := c } x y fit = tell A W dims s x y fit ∧
      (tell A W dims s x y fit).1.cache = none) := by
  have hrec : ∀ y', record { s with cache := c } x y' = record s x y' := by
    intro y'
    unfold record
    cases x <;> rfl
  have hcore : ∀ y' t, record s x y' = .ok t → tellCore A W dims { s with cache := c } x y' fit =
      tellCore A W dims s x y' fit := by
    intro y' t ht
    unfold tellCore
    rw [hrec, ht]
  have hcore' : ∀ y', (tellCore A W dims { s with cache := c } x y' fit).2 =
      (tellCore A W dims s x y' fit).2 := by
    intro y'
    unfold tellCore
    rw [hrec]
    cases record s x y' with
    | error e => rfl
    | ok t => rfl
  constructor
  · unfold tell
    cases hq : (do checkX dims x; checkY s.cfg.acq x y; takeLogs W s.cfg.acq x y) with
    | error e => rfl
    | ok y' => exact hcore' y'
  · rintro ⟨a, ha⟩
    rcases tell_cases A W dims s x y fit with ⟨e, he⟩ | ⟨y', h1, h2, h3, h4⟩
    · rw [he] at ha; cases ha
    · rw [h4] at ha
      obtain ⟨_, t, ht⟩ := tellCore_ok ha
      have hc : tell A W dims { s with cache := c } x y fit =
          tellCore A W dims { s with cache := c } x y' fit := by
        unfold tell
        simp only [h1, h2, h3, ok_bind]
      refine ⟨by rw [hc, h4, hcore y' t ht], ?_⟩
      rw [h4, (tellCore_frame A W dims s x y' fit ht).6]
      exact (record_frame ht).2.2.2.2.2.2.2.1

end

/-- Non-vacuity: a batch of three in the model phase is returned and cached; after a `tell` that changes
the incumbent the cache is empty.
Meets the hypotheses of `C34_batch_size`, `C34_batch_isolated`, `C34_batch_cached`. -/
example :
    let t := (runOps ratArith okWorld toyShared (toyOpt .EI)
        [.tell (.lst [.num 1]) (.num (.fin 3)) true, .tell (.lst [.num 2]) (.num (.fin 4)) true]).2.1
    (askMany ratArith okWorld toyShared t 3 .clMean).2.2 = .ok [[.num 5], [.num 5], [.num 5]] ∧
    (askMany ratArith okWorld toyShared t 3 .clMean).2.1.cache =
      some ((3, .clMean), [[.num 5], [.num 5], [.num 5]]) ∧
    (tell ratArith okWorld toyDims (askMany ratArith okWorld toyShared t 3 .clMean).2.1
      (.lst [.num 5]) (.num (.fin 1)) true).1.cache = none := by
  refine ⟨by decide +kernel, by decide +kernel, by decide +kernel⟩

end Skopt

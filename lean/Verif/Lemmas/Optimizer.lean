import Verif.Model.Optimizer
import Verif.Lemmas.Checks
import Verif.Lemmas.Generator

/-!
# Lemmas about the optimizer model: what each method can change
-/

namespace Skopt

variable {F M R G : Type}

/-- The two states agree on configuration, history, counter, design and cache. -/
structure SameCore (s t : Opt F M R) : Prop where
  cfg : s.cfg = t.cfg
  nInit : s.nInit = t.nInit
  initialSamples : s.initialSamples = t.initialSamples
  Xi : s.Xi = t.Xi
  yi : s.yi = t.yi
  cache : s.cache = t.cache

theorem SameCore.refl (s : Opt F M R) : SameCore s s := ⟨rfl, rfl, rfl, rfl, rfl, rfl⟩

theorem SameCore.trans {s t u : Opt F M R} (h : SameCore s t) (k : SameCore t u) : SameCore s u :=
  ⟨h.1.trans k.1, h.2.trans k.2, h.3.trans k.3, h.4.trans k.4, h.5.trans k.5, h.6.trans k.6⟩

section
variable [LinearOrder F]

theorem proposeAll_frame (A : Arith F) (W : World F M R G) (dims : List (Dim F)) (est : M)
    (yOpt : Flt F) (X : List (List (Val F))) (cs : List AcqFunc) (s : Opt F M R) :
    let t := (proposeAll A W dims est yOpt X cs s).1
    SameCore t s ∧ t.models = s.models ∧ t.gains = s.gains ∧ t.nextX = s.nextX := by
  induction cs generalizing s with
  | nil => exact ⟨.refl _, rfl, rfl, rfl⟩
  | cons c cs ih =>
    simp only [proposeAll]
    split
    · exact ⟨⟨rfl, rfl, rfl, rfl, rfl, rfl⟩, rfl, rfl, rfl⟩
    · next rng row _ =>
      obtain ⟨h1, h2, h3, h4⟩ := ih { s with rng := rng, nextXs := some (s.nextXs.getD [] ++ [row]) }
      exact ⟨h1.trans ⟨rfl, rfl, rfl, rfl, rfl, rfl⟩, h2, h3, h4⟩

/-- What `suggest` changes, and what it stores as the next point. -/
theorem suggest_frame (A : Arith F) (W : World F M R G) (dims : List (Dim F)) (est : M)
    (s : Opt F M R) :
    let t := (suggest A W dims est s).1
    SameCore t s ∧ t.models = s.models ∧ t.gains = s.gains ∧
      (((suggest A W dims est s).2 = .ok () ∧ ∃ r ps x, Space.inverseTransform A dims [r] = .ok ps ∧
          pyGet ps 0 = .ok x ∧ t.nextX = some x) ∨
       ((∃ e, (suggest A W dims est s).2 = .error e) ∧ t.nextX = s.nextX)) := by
  simp only [suggest]
  split
  · exact ⟨⟨rfl, rfl, rfl, rfl, rfl, rfl⟩, rfl, rfl, Or.inr ⟨⟨_, rfl⟩, rfl⟩⟩
  · next X _ =>
    split
    · exact ⟨⟨rfl, rfl, rfl, rfl, rfl, rfl⟩, rfl, rfl, Or.inr ⟨⟨_, rfl⟩, rfl⟩⟩
    · next yOpt _ =>
      split
      · next t e he =>
        have h := proposeAll_frame A W dims est yOpt X s.cfg.acq.candidates
          { s with rng := (W.draws s.rng dims s.cfg.nPoints).1, nextXs := some [] }
        rw [he] at h
        exact ⟨h.1.trans ⟨rfl, rfl, rfl, rfl, rfl, rfl⟩, h.2.1, h.2.2.1, Or.inr ⟨⟨_, rfl⟩, h.2.2.2⟩⟩
      · next t u he =>
        have h := proposeAll_frame A W dims est yOpt X s.cfg.acq.candidates
          { s with rng := (W.draws s.rng dims s.cfg.nPoints).1, nextXs := some [] }
        rw [he] at h
        have hc : SameCore t s := h.1.trans ⟨rfl, rfl, rfl, rfl, rfl, rfl⟩
        split
        · exact ⟨⟨hc.1, hc.2, hc.3, hc.4, hc.5, hc.6⟩, h.2.1, h.2.2.1, Or.inr ⟨⟨_, rfl⟩, h.2.2.2⟩⟩
        · next x hx =>
          refine ⟨⟨hc.1, hc.2, hc.3, hc.4, hc.5, hc.6⟩, h.2.1, h.2.2.1, Or.inl ⟨rfl, ?_⟩⟩
          rw [bind_eq_ok] at hx
          obtain ⟨r, _, hx⟩ := hx
          rw [bind_eq_ok] at hx
          obtain ⟨ps, h1, h2⟩ := hx
          exact ⟨r, ps, x, h1, h2, rfl⟩

/-- What `refit` changes. -/
theorem refit_frame (A : Arith F) (W : World F M R G) (dims : List (Dim F)) (s : Opt F M R) :
    let t := (refit A W dims s).1
    SameCore t s ∧
      (t.models = s.models ∨ ∃ est, pushModel s.cfg.queueSize s.models est = .ok t.models) ∧
      (t.nextX = s.nextX ∨ ∃ r ps x, Space.inverseTransform A dims [r] = .ok ps ∧
          pyGet ps 0 = .ok x ∧ t.nextX = some x) ∧
      ((refit A W dims s).2 = .ok () →
        (∃ est, pushModel s.cfg.queueSize s.models est = .ok t.models) ∧
        ∃ r ps x, Space.inverseTransform A dims [r] = .ok ps ∧ pyGet ps 0 = .ok x ∧
          t.nextX = some x) := by
  simp only [refit]
  split
  · exact ⟨.refl _, Or.inl rfl, Or.inl rfl, by simp⟩
  · next Xt _ =>
    split
    · exact ⟨⟨rfl, rfl, rfl, rfl, rfl, rfl⟩, Or.inl rfl, Or.inl rfl, by simp⟩
    · next est _ =>
      split
      · exact ⟨⟨rfl, rfl, rfl, rfl, rfl, rfl⟩, Or.inl rfl, Or.inl rfl, by simp⟩
      · next g _ =>
        split
        · exact ⟨⟨rfl, rfl, rfl, rfl, rfl, rfl⟩, Or.inl rfl, Or.inl rfl, by simp⟩
        · next ms hms =>
          have h := suggest_frame A W dims est
            { s with rng := (W.fit s.rng Xt s.yi).1, gains := g, models := ms }
          simp only at h
          obtain ⟨h1, h2, _, h4⟩ := h
          have hp : ∃ est, pushModel s.cfg.queueSize s.models est =
              .ok (suggest A W dims est
                { s with rng := (W.fit s.rng Xt s.yi).1, gains := g, models := ms }).1.models :=
            ⟨est, by rw [h2]; exact hms⟩
          have hp' : ∃ est', pushModel s.cfg.queueSize s.models est' =
              .ok (suggest A W dims est
                { s with rng := (W.fit s.rng Xt s.yi).1, gains := g, models := ms }).1.models :=
            ⟨est, by rw [h2]; exact hms⟩
          refine ⟨h1.trans ⟨rfl, rfl, rfl, rfl, rfl, rfl⟩, Or.inr hp', ?_, ?_⟩
          · rcases h4 with ⟨_, h⟩ | ⟨_, h⟩
            · exact Or.inr h
            · exact Or.inl h
          · intro hok
            rcases h4 with ⟨_, h⟩ | ⟨⟨e, he⟩, _⟩
            · exact ⟨hp', h⟩
            · rw [he] at hok; cases hok

omit [LinearOrder F] in
/-- The recorded observation and nothing else. -/
theorem record_frame {s t : Opt F M R} {x : XArg F} {y : YArg F} (h : record s x y = .ok t) :
    t.cfg = s.cfg ∧ t.initialSamples = s.initialSamples ∧ t.models = s.models ∧ t.gains = s.gains ∧
      t.nextXs = s.nextXs ∧ t.nextX = s.nextX ∧ t.rng = s.rng ∧ t.cache = none ∧
      ∃ xs ys, t.Xi = s.Xi ++ xs ∧ t.yi = s.yi ++ ys ∧ t.nInit = s.nInit - ys.length := by
  unfold record at h
  split at h
  · split at h
    · split at h <;> (injection h with h; subst h)
      · exact ⟨rfl, rfl, rfl, rfl, rfl, rfl, rfl, rfl, _, _, rfl, rfl, rfl⟩
      · exact ⟨rfl, rfl, rfl, rfl, rfl, rfl, rfl, rfl, _, _, rfl, rfl, rfl⟩
    · split at h <;> (injection h with h; subst h)
      · exact ⟨rfl, rfl, rfl, rfl, rfl, rfl, rfl, rfl, _, _, rfl, rfl, rfl⟩
      · exact ⟨rfl, rfl, rfl, rfl, rfl, rfl, rfl, rfl, _, _, rfl, rfl, rfl⟩
  · split at h
    · injection h with h
      subst h
      exact ⟨rfl, rfl, rfl, rfl, rfl, rfl, rfl, rfl, [], [], by simp, by simp, by simp⟩
    · simp at h
  · simp at h

/-- `_tell` either refuses and changes nothing, or records the observation and then possibly refits. -/
theorem tellCore_cases (A : Arith F) (W : World F M R G) (dims : List (Dim F)) (s : Opt F M R)
    (x : XArg F) (y : YArg F) (fit : Bool) :
    (∃ e, record s x y = .error e ∧ tellCore A W dims s x y fit = (s, .error e)) ∨
    (∃ t, record s x y = .ok t ∧
      ((fit = true ∧ t.nInit ≤ 0 ∧ t.cfg.hasEst = true ∧
          (tellCore A W dims s x y fit).1 = (refit A W dims t).1 ∧
          ((∃ e, (refit A W dims t).2 = .error e ∧ (tellCore A W dims s x y fit).2 = .error e) ∨
           ((refit A W dims t).2 = .ok () ∧
            (tellCore A W dims s x y fit).2 = getResult (tellCore A W dims s x y fit).1))) ∨
       (¬ (fit = true ∧ t.nInit ≤ 0 ∧ t.cfg.hasEst = true) ∧
          tellCore A W dims s x y fit = (t, getResult t)))) := by
  unfold tellCore
  cases hr : record s x y with
  | error e => exact Or.inl ⟨e, rfl, rfl⟩
  | ok t =>
    refine Or.inr ⟨t, rfl, ?_⟩
    dsimp only
    split
    · next hc =>
      simp only [Bool.and_eq_true, decide_eq_true_eq] at hc
      refine Or.inl ⟨hc.1.1, hc.1.2, hc.2, ?_⟩
      rcases hf : refit A W dims t with ⟨u, e | a⟩
      · exact ⟨rfl, Or.inl ⟨e, rfl, rfl⟩⟩
      · exact ⟨rfl, Or.inr ⟨rfl, rfl⟩⟩
    · next hc =>
      refine Or.inr ⟨?_, rfl⟩
      simpa [Bool.and_eq_true, and_assoc] using hc

/-- What `_tell` can change. -/
theorem tellCore_frame (A : Arith F) (W : World F M R G) (dims : List (Dim F)) (s : Opt F M R)
    (x : XArg F) (y : YArg F) (fit : Bool) {t : Opt F M R} (ht : record s x y = .ok t) :
    SameCore (tellCore A W dims s x y fit).1 t := by
  rcases tellCore_cases A W dims s x y fit with ⟨e, h, _⟩ | ⟨u, h, h'⟩
  · rw [h] at ht; cases ht
  · rw [h] at ht
    injection ht with ht
    subst ht
    rcases h' with ⟨_, _, _, h1, _⟩ | ⟨_, h1⟩
    · rw [h1]; exact (refit_frame A W dims u).1
    · rw [h1]; exact .refl _

/-- A successful `_tell` returns the result of the state it leaves. -/
theorem tellCore_ok {A : Arith F} {W : World F M R G} {dims : List (Dim F)} {s : Opt F M R}
    {x : XArg F} {y : YArg F} {fit : Bool} {r : Result F M}
    (h : (tellCore A W dims s x y fit).2 = .ok r) :
    getResult (tellCore A W dims s x y fit).1 = .ok r ∧ ∃ t, record s x y = .ok t := by
  rcases tellCore_cases A W dims s x y fit with ⟨e, _, h1⟩ | ⟨t, ht, h'⟩
  · rw [h1] at h; cases h
  · refine ⟨?_, t, ht⟩
    rcases h' with ⟨_, _, _, _, ⟨e, _, h2⟩ | ⟨_, h2⟩⟩ | ⟨_, h1⟩
    · rw [h2] at h; cases h
    · rw [h2] at h; exact h
    · rw [h1] at h ⊢; exact h

/-- `tell` either refuses in its checks (nothing changes) or hands over to `_tell`. -/
theorem tell_cases (A : Arith F) (W : World F M R G) (dims : List (Dim F)) (s : Opt F M R)
    (x : XArg F) (y : YArg F) (fit : Bool) :
    (∃ e, tell A W dims s x y fit = (s, .error e)) ∨
    (∃ y', checkX dims x = .ok () ∧ checkY s.cfg.acq x y = .ok () ∧
      takeLogs W s.cfg.acq x y = .ok y' ∧
      tell A W dims s x y fit = tellCore A W dims s x y' fit) := by
  unfold tell
  cases h1 : checkX dims x with
  | error e => exact Or.inl ⟨e, rfl⟩
  | ok _ =>
    cases h2 : checkY s.cfg.acq x y with
    | error e => exact Or.inl ⟨e, rfl⟩
    | ok _ =>
      cases h3 : takeLogs W s.cfg.acq x y with
      | error e => exact Or.inl ⟨e, rfl⟩
      | ok y' => exact Or.inr ⟨y', rfl, rfl, rfl, rfl⟩

/-- `_ask` changes the random state only. -/
theorem askOne_frame (A : Arith F) (W : World F M R G) (dims : List (Dim F)) (s : Opt F M R) :
    ∃ r, (askOne A W dims s).1 = { s with rng := r } := by
  unfold askOne
  split
  · split
    · exact ⟨_, rfl⟩
    · exact ⟨_, rfl⟩
  · split
    · exact ⟨_, rfl⟩
    · split <;> exact ⟨_, rfl⟩

/-- A batch `ask` changes the random state and the cache only. -/
theorem askMany_frame (A : Arith F) (W : World F M R G) (sh : Shared F G) (s : Opt F M R) (n : ℤ)
    (strat : Strategy) :
    ∃ r c, (askMany A W sh s n strat).2.1 = { s with rng := r, cache := c } := by
  unfold askMany
  split
  · exact ⟨_, _, rfl⟩
  · split
    · exact ⟨_, _, rfl⟩
    · split
      · exact ⟨_, _, rfl⟩
      · dsimp only
        split
        · exact ⟨_, _, rfl⟩
        · split <;> exact ⟨_, _, rfl⟩

theorem updateNext_frame (A : Arith F) (W : World F M R G) (sh : Shared F G) (s : Opt F M R) :
    ∃ r nx, (updateNext A W sh s).2.1 = { s with rng := r, cache := none, nextX := nx } := by
  unfold updateNext
  dsimp only
  split
  · exact ⟨_, _, rfl⟩
  · split
    · exact ⟨_, _, rfl⟩
    · split <;> exact ⟨_, _, rfl⟩

end

end Skopt

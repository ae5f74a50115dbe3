import Verif.Lemmas.OptimizerAsk

/-!
# Invariants of optimizers driven by documented calls
-/

namespace Skopt

variable {F M R G : Type} [LinearOrder F]

/-- What holds of every optimizer that was only used through documented calls. -/
structure Sound (s : Opt F M R) : Prop where
  lists : is2D s.Xi = true
  count : s.nInit = s.cfg.nInitial - s.yi.length
  aligned : s.Xi.length = s.yi.length

omit [LinearOrder F] in
theorem sound_fresh (A : Arith F) (cfg : Config) (rng : R) (pts : Option (List (Point F))) :
    Sound (Opt.fresh A cfg rng pts : Opt F M R) := ⟨rfl, by simp [Opt.fresh], rfl⟩

theorem step_sound {A : Arith F} {W : World F M R G} {sh : Shared F G} {s : Opt F M R} {c : Call F}
    (hflat : ∀ p y f, c = .one p y f → Flat p) (h : Sound s) :
    Sound (step A W sh s c.toOp).2.1 := by
  have h1 := step_is2D A W sh s c.toOp h.lists
  obtain ⟨f1, f2, xs, ys, f3, f4, f5⟩ := step_frame A W sh s c.toOp
  refine ⟨h1, ?_, ?_⟩
  · rw [f5, f1, f4, h.count, List.length_append]; push_cast; ring
  · cases c with
    | one p y fit =>
      simp only [Call.toOp, step]
      rcases tell_one A W sh.dims s (hflat p y fit rfl) y fit with ⟨e, he⟩ | ⟨y', _, _, h2, h3⟩
      · rw [he]; exact h.aligned
      · have hf := tellCore_frame A W sh.dims s (.lst p) y' fit h3
        rw [h2, hf.4, hf.5]
        simp only [record.single, List.length_append, h.aligned]
        rfl
    | batch obs fit =>
      simp only [Call.toOp, step]
      rcases tell_batch A W sh.dims s obs fit with ⟨e, he⟩ | ⟨ys, h1, _, h2, h3⟩
      · rw [he]; exact h.aligned
      · have hf := tellCore_frame A W sh.dims s _ (.seq ys) fit h3
        rw [h2, hf.4, hf.5]
        have h4 := h1.length_eq
        simp only [record.batch, List.length_append, h.aligned, List.length_map] at h4 ⊢
        omega
    | ask =>
      obtain ⟨r, e⟩ := askOne_frame A W sh.dims s
      simp only [Call.toOp, step, e]; exact h.aligned
    | askMany n strat =>
      obtain ⟨r, c, e⟩ := askMany_frame A W sh s n strat
      simp only [Call.toOp, step, e]; exact h.aligned
    | updateNext =>
      obtain ⟨r, c, e⟩ := updateNext_frame A W sh s
      simp only [Call.toOp, step, e]; exact h.aligned
    | getResult => exact h.aligned

theorem runOps_sound {A : Arith F} {W : World F M R G} {sh : Shared F G} {s : Opt F M R}
    {calls : List (Call F)} (hflat : ∀ p y f, Call.one p y f ∈ calls → Flat p) (h : Sound s) :
    Sound (runOps A W sh s (calls.map Call.toOp)).2.1 := by
  induction calls generalizing sh s with
  | nil => exact h
  | cons c cs ih =>
    exact ih (fun p y f hc => hflat p y f (by simp [hc]))
      (step_sound (fun p y f hc => hflat p y f (by simp [hc])) h)

/-- Without any assumption on the calls, the counter of remaining initial points and the shape of the
history. -/
theorem runOps_count (A : Arith F) (W : World F M R G) (sh : Shared F G) (s : Opt F M R)
    (ops : List (Op F)) (h : s.nInit = s.cfg.nInitial - s.yi.length) :
    let t := (runOps A W sh s ops).2.1
    t.nInit = s.cfg.nInitial - t.yi.length ∧ t.cfg = s.cfg ∧ t.initialSamples = s.initialSamples := by
  obtain ⟨f1, f2, xs, ys, f3, f4, f5⟩ := runOps_frame A W sh s ops
  refine ⟨?_, f1, f2⟩
  rw [f5, h, f4, List.length_append]; push_cast; ring

theorem copy_sound {A : Arith F} {W : World F M R G} {sh sh' : Shared F G} {s o : Opt F M R} {rng : R}
    (hs : Sound s) (h : Opt.copy A W sh s rng = (sh', .ok o)) :
    Sound o ∧ o.Xi = s.Xi ∧ o.yi = s.yi ∧ o.nInit = s.nInit ∧ o.initialSamples = s.initialSamples ∧
      o.cfg = { s.cfg with queueSize := none } ∧ o.cache = none := by
  have hc := copy_ok hs.lists hs.count (fun he => by
    have := hs.aligned
    rw [he] at this
    exact List.length_eq_zero_iff.1 this.symm) h
  obtain ⟨h1, h2, h3, h4, h5, h6⟩ := hc
  refine ⟨⟨by rw [h1]; exact hs.lists, ?_, by rw [h1, h2]; exact hs.aligned⟩, h1, h2, h3, h4, h5, h6⟩
  rw [h3, h2, h5]; exact hs.count

/-- One round of the loop of the constant liar. -/
theorem liarLoop_succ {A : Arith F} {W : World F M R G} {dims : List (Dim F)} {strat : Strategy}
    {n : Nat} {o o' : Opt F M R} {X : List (Point F)}
    (h : liarLoop A W dims strat (n + 1) o = (o', .ok X)) :
    ∃ r x l o₂ res Y, askOne A W dims o = ({ o with rng := r }, .ok x) ∧
      lie A W o.cfg.acq strat o.yi = .ok l ∧
      tellCore A W dims { o with rng := r } (.lst x) l true = (o₂, .ok res) ∧
      liarLoop A W dims strat n o₂ = (o', .ok Y) ∧ X = x :: Y := by
  simp only [liarLoop] at h
  split at h
  · cases h
  · next o₁ x ha =>
    obtain ⟨r, hr⟩ := askOne_frame A W dims o
    rw [ha] at hr
    simp only at hr
    subst hr
    split at h
    · cases h
    · next l hl =>
      split at h
      · cases h
      · next o₂ res ht =>
        split at h
        · cases h
        · next o₃ xs hl' =>
          simp only [Prod.mk.injEq, Except.ok.injEq] at h
          obtain ⟨h1, h2⟩ := h
          subst h1
          exact ⟨r, x, l, o₂, res, xs, ha, hl, ht, hl', h2.symm⟩

/-- A lie is a number, or a pair in the per-second modes. -/
theorem lie_shape {A : Arith F} {W : World F M R G} {acq : AcqFunc} {strat : Strategy}
    {yi : List (YArg F)} {l : YArg F} (h : lie A W acq strat yi = .ok l) :
    (acq.isPs = false ∧ ∃ v, l = .num v) ∨ (acq.isPs = true ∧ ∃ v t, l = .seq [.num v, .num t]) := by
  unfold lie at h
  cases hp : acq.isPs <;> cases he : yi.isEmpty <;>
    simp only [hp, he, Bool.false_eq_true, if_false, if_true, bind_eq_ok, Except.ok.injEq] at h
  · obtain ⟨_, _, v, _, h⟩ := h
    exact Or.inl ⟨rfl, v, h.symm⟩
  · obtain ⟨v, _, h⟩ := h
    exact Or.inl ⟨rfl, v, h.symm⟩
  · obtain ⟨_, _, v, _, _, _, t, _, h⟩ := h
    exact Or.inr ⟨rfl, v, t, h.symm⟩
  · obtain ⟨v, _, t, _, h⟩ := h
    exact Or.inr ⟨rfl, v, t, h.symm⟩

/-- Telling the lie appends one observation. -/
theorem tell_lie {A : Arith F} {W : World F M R G} {dims : List (Dim F)} {strat : Strategy}
    {o : Opt F M R} {x : Point F} {l : YArg F} {yi : List (YArg F)}
    (hx : o.cfg.acq.isPs = true → is2D x = false)
    (hl : lie A W o.cfg.acq strat yi = .ok l) :
    SameCore (tellCore A W dims o (.lst x) l true).1 (record.single o x l) := by
  apply tellCore_frame
  unfold record
  rcases lie_shape hl with ⟨hp, v, rfl⟩ | ⟨hp, v, t, rfl⟩
  · simp [hp, YArg.isSeq]
  · simp [hp, hx hp]

/-- The batch follows the initial design as long as it lasts. -/
theorem liarLoop_design {A : Arith F} {W : World F M R G} {dims : List (Dim F)} {strat : Strategy}
    {P : List (Point F)} {n : Nat} {o o' : Opt F M R} {X : List (Point F)}
    (hP : o.initialSamples = some P) (hlen : (P.length : ℤ) = o.cfg.nInitial)
    (hflat : o.cfg.acq.isPs = true → ∀ p ∈ P, Flat p)
    (hcount : o.nInit = o.cfg.nInitial - o.yi.length)
    (h : liarLoop A W dims strat n o = (o', .ok X)) :
    ∀ i < n, o.yi.length + i < P.length → X[i]? = P[o.yi.length + i]? := by
  induction n generalizing o o' X with
  | zero => intro i hi; omega
  | succ n ih =>
    obtain ⟨r, x, l, o₂, res, Y, ha, hl, ht, hl', rfl⟩ := liarLoop_succ h
    intro i hi hlt
    have hpos : 0 < o.nInit := by rw [hcount, ← hlen]; omega
    have hx : P[o.yi.length]? = some x := by
      unfold askOne at ha
      rw [if_pos (Or.inl hpos), hP] at ha
      simp only [Prod.mk.injEq] at ha
      have h2 := ha.2
      have he : (P.length : ℤ) - o.nInit = ((o.yi.length : Nat) : ℤ) := by rw [hcount, hlen]; ring
      rw [he] at h2
      have hlt' : o.yi.length < P.length := by omega
      simp only [pyGetI] at h2
      rw [if_pos (by omega), Int.toNat_natCast] at h2
      rw [pyGet_eq_ok] at h2
      exact h2
    cases i with
    | zero => rw [Nat.add_zero, hx]; rfl
    | succ i =>
      have hxP : x ∈ P := List.mem_of_getElem? hx
      have hf := tell_lie (A := A) (W := W) (dims := dims) (o := { o with rng := r })
        (x := x) (fun hp => is2D_false_of_flat (hflat hp x hxP)) hl
      rw [ht] at hf
      have hyl : o₂.yi.length = o.yi.length + 1 := by
        rw [hf.5]; simp [record.single]
      have hc : o₂.cfg = o.cfg := hf.1
      have hn : o₂.nInit = o.nInit - 1 := hf.2
      have := ih (o := o₂) (by rw [hf.3]; exact hP) (by rw [hc]; exact hlen)
        (by rw [hc]; exact hflat)
        (by rw [hn, hc, hcount, hyl]; push_cast; ring) hl' i (by omega) (by omega)
      rw [List.getElem?_cons_succ, this, hyl]
      congr 1
      omega

/-- What a batch `ask` that returns has done. -/
theorem askMany_ok {A : Arith F} {W : World F M R G} {sh : Shared F G} {s : Opt F M R} {n : ℤ}
    {strat : Strategy} {X : List (Point F)} (h : (askMany A W sh s n strat).2.2 = .ok X) :
    0 < n ∧ strat ≠ .other ∧
      ((s.cache = some ((n.toNat, strat), X) ∧ askMany A W sh s n strat = (sh, s, .ok X)) ∨
       (∃ sh₁ o o', Opt.copy A W sh { s with rng := (W.seed s.rng).1 } (W.seed s.rng).2 = (sh₁, .ok o) ∧
          liarLoop A W sh₁.dims strat n.toNat o = (o', .ok X) ∧
          askMany A W sh s n strat = (sh₁, { s with
            rng := (W.seed s.rng).1
            cache := some ((n.toNat, strat), X) }, .ok X))) := by
  unfold askMany at h ⊢
  split at h
  · cases h
  · next hn =>
    rw [if_neg hn]
    rw [not_not] at hn
    split at h
    · cases h
    · next hs =>
      rw [if_neg hs]
      refine ⟨hn, hs, ?_⟩
      split at h
      · next X' hX =>
        simp only [Except.ok.injEq] at h
        subst h
        refine Or.inl ⟨?_, rfl⟩
        unfold askMany.cached at hX
        split at hX
        · next k Y hc =>
          split at hX
          · next hk => rw [hc, hk]; injection hX with hX; rw [hX]
          · cases hX
        · cases hX
      · next hX =>
        refine Or.inr ?_
        dsimp only at h ⊢
        split at h
        · cases h
        · next sh₁ o hco =>
          split at h
          · cases h
          · next o' Y hl =>
            simp only [Except.ok.injEq] at h
            subst h
            exact ⟨sh₁, o, o', hco, hl, rfl⟩

/-- The cache only holds batches of the size they are filed under. -/
def CacheSized (s : Opt F M R) : Prop := ∀ k st X, s.cache = some ((k, st), X) → X.length = k

theorem askMany_length {A : Arith F} {W : World F M R G} {sh : Shared F G} {s : Opt F M R} {n : ℤ}
    {strat : Strategy} {X : List (Point F)} (hc : CacheSized s)
    (h : (askMany A W sh s n strat).2.2 = .ok X) : (X.length : ℤ) = n := by
  obtain ⟨hn, _, ⟨h1, _⟩ | ⟨sh₁, o, o', _, h2, _⟩⟩ := askMany_ok h
  · rw [hc _ _ _ h1]; omega
  · rw [liarLoop_length h2]; omega

/-- After a `tell` the cache is as before (refused) or empty. -/
theorem tell_cache (A : Arith F) (W : World F M R G) (dims : List (Dim F)) (s : Opt F M R)
    (x : XArg F) (y : YArg F) (fit : Bool) :
    tell A W dims s x y fit = (s, (tell A W dims s x y fit).2) ∨
      (tell A W dims s x y fit).1.cache = none := by
  rcases tell_cases A W dims s x y fit with ⟨e, h⟩ | ⟨y', _, _, _, h⟩
  · left; rw [h]
  · rw [h]
    cases hr : record s x y' with
    | error e =>
      left
      rcases tellCore_cases A W dims s x y' fit with ⟨e', _, h2⟩ | ⟨t, ht, _⟩
      · rw [h2]
      · rw [hr] at ht; cases ht
    | ok t =>
      right
      rw [(tellCore_frame A W dims s x y' fit hr).6]
      exact (record_frame hr).2.2.2.2.2.2.2.1

/-- A batch `ask` that raises leaves the cache alone. -/
theorem askMany_cache {A : Arith F} {W : World F M R G} {sh : Shared F G} {s : Opt F M R} {n : ℤ}
    {strat : Strategy} {e : PyErr} (h : (askMany A W sh s n strat).2.2 = .error e) :
    (askMany A W sh s n strat).2.1.cache = s.cache := by
  unfold askMany at h ⊢
  split
  · rfl
  · next hn =>
    rw [if_neg hn] at h
    split
    · rfl
    · next hs =>
      rw [if_neg hs] at h
      split
      · rfl
      · next hX =>
        rw [hX] at h
        dsimp only at h ⊢
        split
        · rfl
        · next sh₁ o hco =>
          rw [hco] at h
          dsimp only at h
          split
          · rfl
          · next o' Y hl => rw [hl] at h; cases h

/-- What the cache of an optimizer is made of, in terms of the calls made: after every call it is as
before, or empty, or holds the batch just returned. -/
theorem step_cache (A : Arith F) (W : World F M R G) (sh : Shared F G) (s : Opt F M R) (op : Op F) :
    let t := (step A W sh s op).2.1
    (t.cache = s.cache ∧ t.cfg = s.cfg ∧ t.initialSamples = s.initialSamples ∧ t.Xi = s.Xi ∧
        t.yi = s.yi) ∨ t.cache = none ∨
      ∃ n strat X, op = .askMany n strat ∧ (askMany A W sh s n strat).2.2 = .ok X ∧
        t.cache = some ((n.toNat, strat), X) ∧ t.cfg = s.cfg ∧
        t.initialSamples = s.initialSamples ∧ t.Xi = s.Xi ∧ t.yi = s.yi := by
  cases op with
  | ask =>
    obtain ⟨r, e⟩ := askOne_frame A W sh.dims s
    simp only [step, e]; exact Or.inl ⟨trivial, trivial, trivial, trivial, trivial⟩
  | updateNext =>
    obtain ⟨r, c, e⟩ := updateNext_frame A W sh s
    simp only [step, e]; exact Or.inr (Or.inl trivial)
  | getResult => exact Or.inl ⟨rfl, rfl, rfl, rfl, rfl⟩
  | tell x y fit =>
    simp only [step]
    rcases tell_cache A W sh.dims s x y fit with h | h
    · left
      rw [h]
      exact ⟨rfl, rfl, rfl, rfl, rfl⟩
    · exact Or.inr (Or.inl h)
  | askMany n strat =>
    simp only [step]
    obtain ⟨r, c, e⟩ := askMany_frame A W sh s n strat
    cases hr : (askMany A W sh s n strat).2.2 with
    | error er =>
      left
      have := askMany_cache hr
      rw [e] at this ⊢
      exact ⟨this, rfl, rfl, rfl, rfl⟩
    | ok X =>
      right; right
      refine ⟨n, strat, X, rfl, hr, ?_, ?_⟩
      · obtain ⟨_, _, ⟨h1, h2⟩ | ⟨sh₁, o, o', _, _, h2⟩⟩ := askMany_ok hr
        · rw [h2]; exact h1
        · rw [h2]
      · rw [e]; exact ⟨rfl, rfl, rfl, rfl⟩

theorem step_cacheSized (A : Arith F) (W : World F M R G) (sh : Shared F G) (s : Opt F M R)
    (op : Op F) (h : CacheSized s) : CacheSized (step A W sh s op).2.1 := by
  rcases step_cache A W sh s op with ⟨h1, _⟩ | h1 | ⟨n, strat, X, _, h2, h3, _⟩
  · intro k st X hX; rw [h1] at hX; exact h k st X hX
  · intro k st X hX; rw [h1] at hX; cases hX
  · intro k st Y hY
    rw [h3] at hY
    simp only [Option.some.injEq, Prod.mk.injEq] at hY
    obtain ⟨⟨rfl, rfl⟩, rfl⟩ := hY
    have := askMany_length h h2
    omega

theorem runOps_cacheSized (A : Arith F) (W : World F M R G) (sh : Shared F G) (s : Opt F M R)
    (ops : List (Op F)) (h : CacheSized s) : CacheSized (runOps A W sh s ops).2.1 := by
  induction ops generalizing sh s with
  | nil => exact h
  | cons op ops ih => exact ih _ _ (step_cacheSized A W sh s op h)

end Skopt

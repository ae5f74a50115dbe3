import Verif.Lemmas.OptimizerRun
import Mathlib.Algebra.BigOperators.Group.List.Basic

/-!
# Lemmas about copies and the constant liar
-/

namespace Skopt

variable {F M R G : Type}

theorem fltMin_iff [LinearOrder F] {xs : List (Flt F)} {m : Flt F} :
    fltMin xs = .ok m ↔ m ∈ xs ∧ ∀ y ∈ xs, m ≤ y := by
  have key : ∀ (ys : List (Flt F)) (x : Flt F),
      ys.foldl min x ∈ x :: ys ∧ ∀ y ∈ x :: ys, ys.foldl min x ≤ y := by
    intro ys
    induction ys with
    | nil => intro x; simp
    | cons y ys ih =>
      intro x
      obtain ⟨h1, h2⟩ := ih (min x y)
      rw [List.foldl_cons]
      constructor
      · rcases List.mem_cons.1 h1 with h | h
        · rw [h]
          rcases min_choice x y with h' | h' <;> rw [h'] <;> simp
        · simp [h]
      · intro z hz
        have h3 := h2 (min x y) (by simp)
        rcases List.mem_cons.1 hz with rfl | hz
        · exact h3.trans (min_le_left _ _)
        · rcases List.mem_cons.1 hz with rfl | hz
          · exact h3.trans (min_le_right _ _)
          · exact h2 z (by simp [hz])
  cases xs with
  | nil => simp [fltMin]
  | cons x xs =>
    simp only [fltMin, Except.ok.injEq]
    obtain ⟨h1, h2⟩ := key xs x
    constructor
    · rintro rfl; exact ⟨h1, h2⟩
    · rintro ⟨h3, h4⟩; exact le_antisymm (h2 m h3) (h4 _ h1)

theorem fltMax_iff [LinearOrder F] {xs : List F} {m : F} :
    fltMax (xs.map Flt.fin) = .ok (.fin m) ↔ m ∈ xs ∧ ∀ y ∈ xs, y ≤ m := by
  have key : ∀ (ys : List F) (x : F), ∃ z, (ys.map Flt.fin).foldl max (Flt.fin x) = .fin z ∧
      z ∈ x :: ys ∧ ∀ y ∈ x :: ys, y ≤ z := by
    intro ys
    induction ys with
    | nil => intro x; exact ⟨x, rfl, by simp⟩
    | cons y ys ih =>
      intro x
      have hm : max (Flt.fin x) (Flt.fin y) = Flt.fin (max x y) := by
        rcases le_total x y with h | h
        · rw [max_eq_right h, max_eq_right (Flt.fin_le_fin.2 h)]
        · rw [max_eq_left h, max_eq_left (Flt.fin_le_fin.2 h)]
      obtain ⟨z, h0, h1, h2⟩ := ih (max x y)
      refine ⟨z, by rw [List.map_cons, List.foldl_cons, hm]; exact h0, ?_, ?_⟩
      · rcases List.mem_cons.1 h1 with h | h
        · rw [h]
          rcases max_choice x y with h' | h' <;> rw [h'] <;> simp
        · simp [h]
      · intro w hw
        have h3 := h2 (max x y) (by simp)
        rcases List.mem_cons.1 hw with rfl | hw
        · exact (le_max_left _ _).trans h3
        · rcases List.mem_cons.1 hw with rfl | hw
          · exact (le_max_right _ _).trans h3
          · exact h2 w (by simp [hw])
  cases xs with
  | nil => simp [fltMax]
  | cons x xs =>
    obtain ⟨z, h0, h1, h2⟩ := key xs x
    have hn : ((Flt.fin x :: xs.map Flt.fin).any fun y => decide (y = .nan)) = false := by
      rw [List.any_eq_false]
      intro y hy
      rw [← List.map_cons (f := Flt.fin)] at hy
      obtain ⟨w, _, rfl⟩ := List.mem_map.1 hy
      simp
    simp only [List.map_cons, fltMax, hn, h0, Bool.false_eq_true, if_false, Except.ok.injEq,
      Flt.fin.injEq]
    constructor
    · rintro rfl; exact ⟨h1, h2⟩
    · rintro ⟨h3, h4⟩; exact le_antisymm (h4 _ h1) (h2 m h3)

theorem flatNums_fin (ys : List F) :
    flatNums (ys.map fun y => (.num (.fin y) : YArg F)) = .ok (ys.map Flt.fin) := by
  have h : asColumns (ys.map fun y => (.num (.fin y) : YArg F)) = .ok (.inl (ys.map Flt.fin)) := by
    unfold asColumns
    rw [if_neg (by simp [YArg.isSeq])]
    have e : mapE YArg.toFlt (ys.map fun y => (.num (.fin y) : YArg F)) = .ok (ys.map Flt.fin) := by
      induction ys with
      | nil => rfl
      | cons y ys ih => simp [mapE, YArg.toFlt, ih]
    rw [e]
    rfl
  unfold flatNums
  rw [h]
  rfl

section
variable [LinearOrder F]

/-- Every recorded point is a list (or tuple). -/
theorem step_is2D (A : Arith F) (W : World F M R G) (sh : Shared F G) (s : Opt F M R) (op : Op F)
    (h : is2D s.Xi = true) : is2D (step A W sh s op).2.1.Xi = true := by
  cases op with
  | ask =>
    obtain ⟨r, e⟩ := askOne_frame A W sh.dims s
    simp only [step, e]; exact h
  | askMany n strat =>
    obtain ⟨r, c, e⟩ := askMany_frame A W sh s n strat
    simp only [step, e]; exact h
  | updateNext =>
    obtain ⟨r, c, e⟩ := updateNext_frame A W sh s
    simp only [step, e]; exact h
  | getResult => exact h
  | tell x y fit =>
    simp only [step]
    rcases tell_cases A W sh.dims s x y fit with ⟨e, h1⟩ | ⟨y', _, _, _, h1⟩
    · rw [h1]; exact h
    · rw [h1]
      cases hr : record s x y' with
      | error e =>
        rcases tellCore_cases A W sh.dims s x y' fit with ⟨e', _, h2⟩ | ⟨t, ht, _⟩
        · rw [h2]; exact h
        · rw [hr] at ht; cases ht
      | ok t =>
        rw [(tellCore_frame A W sh.dims s x y' fit hr).4]
        have happ : ∀ xs : List (Val F), is2D xs = true → is2D (s.Xi ++ xs) = true := by
          intro xs hxs
          unfold is2D at *
          rw [List.all_append, h, hxs]
          rfl
        have hsing : ∀ xs : List (Val F), is2D (s.Xi ++ [.seq xs]) = true := fun xs => happ _ rfl
        unfold record at hr
        split at hr
        · split at hr
          · split at hr <;> (injection hr with hr; subst hr)
            · next h2 => exact happ _ h2
            · exact hsing _
          · split at hr <;> (injection hr with hr; subst hr)
            · next h2 => rw [Bool.and_eq_true] at h2; exact happ _ h2.2
            · exact hsing _
        · split at hr
          · injection hr with hr; subst hr; exact h
          · cases hr
        · cases hr

theorem runOps_is2D (A : Arith F) (W : World F M R G) (sh : Shared F G) (s : Opt F M R)
    (ops : List (Op F)) (h : is2D s.Xi = true) : is2D (runOps A W sh s ops).2.1.Xi = true := by
  induction ops generalizing sh s with
  | nil => exact h
  | cons op ops ih => exact ih _ _ (step_is2D A W sh s op h)

omit [LinearOrder F] in
/-- The outcome of the constructor, when it returns. -/
theorem init_ok {A : Arith F} {W : World F M R G} {sh sh' : Shared F G} {cfg : Config} {rng : R}
    {o : Opt F M R} (h : Opt.init A W sh cfg rng = (sh', .ok o)) :
    ∃ r pts, o = Opt.fresh A cfg r pts ∧ (sh.gen = none → pts = none) ∧
      (∀ g, sh.gen = some g → ∃ dims dims' r' g' P, pts = some P ∧
        W.generate g dims cfg.nInitial r' = (g', (dims', .ok P)) ∧
        (if cfg.isGP then Space.setTransformer sh.dims .normalize else .ok sh.dims) = .ok dims ∧
        Space.setTransformers dims' (Space.getTransformer dims) = .ok sh'.dims) := by
  unfold Opt.init at h
  split at h
  · cases h
  · next dims hd =>
    split at h
    · next hg =>
      simp only [Prod.mk.injEq, Except.ok.injEq] at h
      refine ⟨rng, none, h.2.symm, fun _ => rfl, ?_⟩
      intro g hg'
      rw [hg] at hg'
      cases hg'
    · next g hg =>
      dsimp only at h
      split at h
      · cases h
      · next g' dims' pts hgen =>
        split at h
        · cases h
        · next dims'' hd'' =>
          simp only [Prod.mk.injEq, Except.ok.injEq] at h
          obtain ⟨h1, h2⟩ := h
          subst h1
          refine ⟨_, some pts, h2.symm, fun hn => absurd (hg.symm.trans hn) (by simp), ?_⟩
          intro g₂ hg₂
          rw [hg] at hg₂
          injection hg₂ with hg₂
          subst hg₂
          exact ⟨dims, dims', _, g', pts, rfl, hgen, hd, hd''⟩

/-- What a copy has in common with the original. -/
theorem copy_ok {A : Arith F} {W : World F M R G} {sh sh' : Shared F G} {s o : Opt F M R} {rng : R}
    (h2 : is2D s.Xi = true) (hn : s.nInit = s.cfg.nInitial - s.yi.length)
    (hl : s.Xi = [] → s.yi = [])
    (h : Opt.copy A W sh s rng = (sh', .ok o)) :
    o.Xi = s.Xi ∧ o.yi = s.yi ∧ o.nInit = s.nInit ∧ o.initialSamples = s.initialSamples ∧
      o.cfg = { s.cfg with queueSize := none } ∧ o.cache = none := by
  unfold Opt.copy at h
  split at h
  · cases h
  · next sh₁ o₁ hi =>
    obtain ⟨r, pts, rfl, _, _⟩ := init_ok hi
    dsimp only at h
    split at h
    · next he =>
      simp only [Prod.mk.injEq, Except.ok.injEq] at h
      obtain ⟨_, h⟩ := h
      subst h
      rw [List.isEmpty_iff] at he
      have hy := hl he
      refine ⟨by simp [Opt.fresh, he], by simp [Opt.fresh, hy], ?_, rfl, rfl, rfl⟩
      simp [Opt.fresh, hn, hy]
    · next he =>
      split at h
      · cases h
      · next o₂ res ht =>
        simp only [Prod.mk.injEq, Except.ok.injEq] at h
        obtain ⟨_, h⟩ := h
        subst h
        generalize ho₁ : ({ (Opt.fresh A { s.cfg with queueSize := none } r pts : Opt F M R) with
          initialSamples := s.initialSamples
          gains := match s.gains with
            | some g => some g
            | none => (Opt.fresh A { s.cfg with queueSize := none } r pts : Opt F M R).gains } :
              Opt F M R) = o₁ at ht
        have hrec : record o₁ (.lst s.Xi) (.seq s.yi) = .ok (record.batch o₁ s.Xi s.yi) := by
          unfold record
          simp [h2, YArg.isSeq, YArg.items]
        have hf := tellCore_frame A W sh₁.dims o₁ (.lst s.Xi) (.seq s.yi) true hrec
        rw [ht] at hf
        subst ho₁
        refine ⟨hf.4.trans ?_, hf.5.trans ?_, hf.2.trans ?_, hf.3, hf.1, hf.6⟩
        · simp [record.batch, Opt.fresh]
        · simp [record.batch, Opt.fresh]
        · simp only [record.batch, Opt.fresh, hn]

/-- The loop of the constant liar returns as many points as it was asked for. -/
theorem liarLoop_length {A : Arith F} {W : World F M R G} {dims : List (Dim F)} {strat : Strategy}
    {n : Nat} {o o' : Opt F M R} {X : List (Point F)}
    (h : liarLoop A W dims strat n o = (o', .ok X)) : X.length = n := by
  induction n generalizing o o' X with
  | zero => simp only [liarLoop, Prod.mk.injEq, Except.ok.injEq] at h; rw [← h.2]; rfl
  | succ n ih =>
    simp only [liarLoop] at h
    split at h
    · cases h
    · split at h
      · cases h
      · split at h
        · cases h
        · split at h
          · cases h
          · next hl =>
            simp only [Prod.mk.injEq, Except.ok.injEq] at h
            rw [← h.2, List.length_cons, ih hl]

/-- The lies of the loop, outside the per-second modes: if the lie does not change when it is appended to
the history, the loop appends the same lie every time. -/
theorem liarLoop_yi {A : Arith F} {W : World F M R G} {dims : List (Dim F)} {strat : Strategy}
    {n : Nat} {o o' : Opt F M R} {X : List (Point F)} {l : Flt F} {yi : List (YArg F)}
    (hps : o.cfg.acq.isPs = false) {k : Nat}
    (hconst : ∀ k, lie A W o.cfg.acq strat (yi ++ List.replicate k (.num l)) = .ok (.num l))
    (hy : o.yi = yi ++ List.replicate k (.num l))
    (h : liarLoop A W dims strat n o = (o', .ok X)) :
    o'.yi = yi ++ List.replicate (k + n) (.num l) := by
  induction n generalizing o o' X k with
  | zero =>
    simp only [liarLoop, Prod.mk.injEq, Except.ok.injEq] at h
    rw [← h.1]
    exact hy
  | succ n ih =>
    simp only [liarLoop] at h
    split at h
    · cases h
    · next o₁ x ha =>
      obtain ⟨r, hr⟩ := askOne_frame A W dims o
      rw [ha] at hr
      simp only at hr
      subst hr
      split at h
      · cases h
      · next l' hl' =>
        simp only at hl'
        rw [hy, hconst k] at hl'
        injection hl' with hl'
        subst hl'
        split at h
        · cases h
        · next o₂ res ht =>
          have hrec : record { o with rng := r } (.lst x) (.num l) =
              .ok (record.single { o with rng := r } x (.num l)) := by
            unfold record
            simp [hps, YArg.isSeq]
          have hf := tellCore_frame A W dims { o with rng := r } (.lst x) (.num l) true hrec
          rw [ht] at hf
          split at h
          · cases h
          · next o₃ xs hl =>
            simp only [Prod.mk.injEq, Except.ok.injEq] at h
            obtain ⟨h1, _⟩ := h
            subst h1
            have hc : o₂.cfg = o.cfg := hf.1
            have hy₂ : o₂.yi = yi ++ List.replicate (k + 1) (.num l) := by
              rw [hf.5]
              simp only [record.single, hy, List.append_assoc, List.replicate_succ']
            have := ih (o := o₂) (k := k + 1) (by rw [hc]; exact hps) (by rw [hc]; exact hconst) hy₂ hl
            rw [this]
            congr 2
            omega

end

end Skopt

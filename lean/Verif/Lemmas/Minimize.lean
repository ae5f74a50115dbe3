import Verif.Spec.Minimize
import Verif.Lemmas.OptimizerRun
import Verif.Lemmas.OptimizerAsk

/-!
# Lemmas about the minimize functions
-/

namespace Skopt

variable {F M R G : Type}

theorem evalsOf_append (a b : List (Event F M)) : evalsOf (a ++ b) = evalsOf a ++ evalsOf b := by
  unfold evalsOf; rw [List.filterMap_append]

theorem evalsOf_eval_cons (x : Val F) (t : List (Event F M)) :
    evalsOf (.eval x :: t) = x :: evalsOf t := rfl

theorem evalsOf_call_cons (i : Nat) (r : Result F M) (d : Except PyErr (Option Bool))
    (t : List (Event F M)) : evalsOf (.call i r d :: t) = evalsOf t := rfl

theorem evalsOf_evals (vs : List (Val F)) : evalsOf (vs.map (Event.eval (M := M))) = vs := by
  induction vs with
  | nil => rfl
  | cons v vs ih => rw [List.map_cons, evalsOf_eval_cons, ih]

theorem evalsOf_calls (f : Nat → Callback F M → Event F M) (cbs : List (Callback F M))
    (h : ∀ i c, ∃ j r d, f i c = .call j r d) : evalsOf (cbs.mapIdx f) = [] := by
  unfold evalsOf
  rw [List.filterMap_eq_nil_iff]
  intro e he
  obtain ⟨i, hi, rfl⟩ := List.mem_mapIdx.1 he
  obtain ⟨j, r, d, hf⟩ := h i cbs[i]
  rw [hf]

/-- What one round of callbacks does. -/
theorem evalCallbacks_spec (hist : List (Result F M)) (r : Result F M) (cbs : List (Callback F M))
    (i : Nat) (stop : Bool) :
    (∀ b, (evalCallbacks hist r cbs i stop).2 = .ok b →
      (evalCallbacks hist r cbs i stop).1 = cbs.mapIdx (fun j c => Event.call (i + j) r (c hist)) ∧
      (b = true ↔ stop = true ∨ ∃ c ∈ cbs, c hist = .ok (some true)) ∧
      ∀ c ∈ cbs, ∃ d, c hist = .ok d) ∧
    (∀ e, (evalCallbacks hist r cbs i stop).2 = .error e →
      ∃ t j, (evalCallbacks hist r cbs i stop).1 = t ++ [.call j r (.error e)] ∧ evalsOf t = [] ∧
        ∀ k r' d, Event.call k r' d ∈ t → ∃ d', d = .ok d') ∧
    evalsOf (evalCallbacks hist r cbs i stop).1 = [] := by
  induction cbs generalizing i stop with
  | nil =>
    refine ⟨?_, ?_, rfl⟩
    · intro b hb
      simp only [evalCallbacks, Except.ok.injEq] at hb
      subst hb
      simp [evalCallbacks]
    · intro e he; simp [evalCallbacks] at he
  | cons c cs ih =>
    simp only [evalCallbacks]
    cases hc : c hist with
    | error e =>
      refine ⟨?_, ?_, ?_⟩
      · intro b hb; simp at hb
      · intro e' he
        simp only [Except.error.injEq] at he
        subst he
        exact ⟨[], i, by simp, rfl, by simp⟩
      · rfl
    | ok d =>
      obtain ⟨h1, h2, h3⟩ := ih (i + 1) (stop || d.getD false)
      refine ⟨?_, ?_, ?_⟩
      · intro b hb
        obtain ⟨g1, g2, g3⟩ := h1 b hb
        refine ⟨?_, ?_, ?_⟩
        · simp only [g1, List.mapIdx_cons, Nat.add_zero, hc]
          congr 1
          apply List.mapIdx_eq_mapIdx_iff.2
          intro j _
          congr 1
          omega
        · rw [g2]
          simp only [List.mem_cons, exists_eq_or_imp, hc, Bool.or_eq_true, or_assoc]
          refine or_congr_right (or_congr_left ?_)
          cases d with
          | none => simp
          | some d => simp
        · intro c' hc'
          rcases List.mem_cons.1 hc' with rfl | hc'
          · exact ⟨d, hc⟩
          · exact g3 c' hc'
      · intro e he
        obtain ⟨t, j, g1, g2, g3⟩ := h2 e he
        refine ⟨.call i r (.ok d) :: t, j, ?_, ?_, ?_⟩
        · simp only [g1, List.cons_append]
        · rw [evalsOf_call_cons, g2]
        · intro k r' d' hm
          rcases List.mem_cons.1 hm with hm | hm
          · injection hm with _ _ hm
            exact ⟨d, hm⟩
          · exact g3 k r' d' hm
      · show evalsOf (Event.call i r (.ok d) :: _) = []
        rw [evalsOf_call_cons, h3]

/-- Evaluation of the starting points. -/
theorem evalAll_spec (func : Objective F) (done xs : List (Val F)) :
    (∀ ys, (evalAll (M := M) func done xs).2 = .ok ys →
      (evalAll (M := M) func done xs).1 = xs.map Event.eval ∧ Answers func done xs ys) ∧
    (∀ e ∈ (evalAll (M := M) func done xs).1, ∃ x, e = .eval x) := by
  induction xs generalizing done with
  | nil =>
    refine ⟨?_, by simp [evalAll]⟩
    intro ys h
    simp only [evalAll, Except.ok.injEq] at h
    subst h
    exact ⟨rfl, trivial⟩
  | cons x xs ih =>
    simp only [evalAll]
    cases hf : func done x with
    | error e => exact ⟨by simp, by simp⟩
    | ok y =>
      obtain ⟨h1, h2⟩ := ih (done ++ [x])
      refine ⟨?_, ?_⟩
      · intro ys h
        simp only [bind_eq_ok] at h
        obtain ⟨ys', h3, h4⟩ := h
        injection h4 with h4
        subst h4
        obtain ⟨g1, g2⟩ := h1 ys' h3
        exact ⟨by simp only [g1, List.map_cons], hf, g2⟩
      · intro e he
        rcases List.mem_cons.1 he with rfl | he
        · exact ⟨x, rfl⟩
        · exact h2 e he

theorem answers_length {func : Objective F} : ∀ {done xs : List (Val F)} {ys : List (YArg F)},
    Answers func done xs ys → ys.length = xs.length
  | _, [], [], _ => rfl
  | _, _ :: _, _ :: _, h => by
    simp only [List.length_cons, answers_length h.2]
  | _, [], _ :: _, h => h.elim
  | _, _ :: _, [], h => h.elim

theorem answers_append {func : Objective F} : ∀ {done xs : List (Val F)} {ys : List (YArg F)}
    {xs' : List (Val F)} {ys' : List (YArg F)}, Answers func done xs ys →
    Answers func (done ++ xs) xs' ys' → Answers func done (xs ++ xs') (ys ++ ys')
  | _, [], [], _, _, _, h => by simpa using h
  | _, x :: xs, _ :: _, _, _, h, h' => ⟨h.1, answers_append h.2 (by simpa using h')⟩
  | _, [], _ :: _, _, _, h, _ => h.elim
  | _, _ :: _, [], _, _, h, _ => h.elim

theorem evalsOf_traceOf (cbs : List (Callback F M)) (hist : List (Result F M))
    (steps : List (List (Val F) × Result F M)) :
    evalsOf (traceOf cbs hist steps) = steps.flatMap Prod.fst := by
  induction steps generalizing hist with
  | nil => rfl
  | cons st steps ih =>
    obtain ⟨vs, r⟩ := st
    simp only [traceOf, evalsOf_append, evalsOf_evals, ih, List.flatMap_cons]
    rw [evalsOf_calls _ _ fun i c => ⟨i, r, _, rfl⟩]
    simp

section
variable [LinearOrder F]

/-- The steps of a loop that returns. -/
theorem minimizeLoop_ok {A : Arith F} {W : World F M R G} {dims : List (Dim F)} {func : Objective F}
    {cbs : List (Callback F M)} {n : Nat} {done : List (Val F)} {hist : List (Result F M)}
    {s : Opt F M R} {last : Option (Result F M)} {t : List (Event F M)} {o : Option (Result F M)}
    (h : minimizeLoop A W dims func cbs n done hist s last = (t, .ok o)) :
    ∃ steps : List (Point F × Result F M),
      t = traceOf cbs hist (steps.map fun st => ([.seq st.1], st.2)) ∧
      steps.length ≤ n ∧
      (∀ j, j + 1 < steps.length → ¬ Stops cbs (hist ++ (steps.take (j + 1)).map Prod.snd)) ∧
      (o = match steps.getLast? with
        | some st => some st.2
        | none => last) ∧
      (steps.length = n ∨ (steps ≠ [] ∧ Stops cbs (hist ++ steps.map Prod.snd))) := by
  induction n generalizing done hist s last t o with
  | zero =>
    simp only [minimizeLoop, Prod.mk.injEq, Except.ok.injEq] at h
    obtain ⟨rfl, rfl⟩ := h
    exact ⟨[], rfl, le_refl _, by simp, rfl, Or.inl rfl⟩
  | succ n ih =>
    simp only [minimizeLoop] at h
    split at h
    · cases h
    · next s₁ x _ =>
      split at h
      · cases h
      · next y _ =>
        split at h
        · cases h
        · next s₂ r _ =>
          obtain ⟨c1, _, _⟩ := evalCallbacks_spec (hist ++ [r]) r cbs 0 false
          split at h
          · cases h
          · next t₁ hcb =>
            rw [hcb] at c1
            obtain ⟨g1, g2, _⟩ := c1 true rfl
            simp only [Prod.mk.injEq, Except.ok.injEq] at h
            obtain ⟨rfl, rfl⟩ := h
            refine ⟨[(x, r)], ?_, by simp, by simp, by simp, Or.inr ⟨by simp, ?_⟩⟩
            · simp only at g1
              simp [traceOf, g1]
            · simpa [Stops] using g2
          · next t₁ hcb =>
            rw [hcb] at c1
            obtain ⟨g1, g2, _⟩ := c1 false rfl
            have hq : ¬ Stops cbs (hist ++ [r]) := by
              intro hs
              exact absurd (g2.2 (Or.inr hs)) (by simp)
            generalize hl : minimizeLoop A W dims func cbs n (done ++ [.seq x]) (hist ++ [r]) s₂
              (some r) = q at h
            obtain ⟨t', o'⟩ := q
            simp only [Prod.mk.injEq] at h
            obtain ⟨rfl, rfl⟩ := h
            obtain ⟨steps, i1, i2, i3, i4, i5⟩ := ih hl
            refine ⟨(x, r) :: steps, ?_, by simpa using i2, ?_, ?_, ?_⟩
            · simp only at g1
              simp [traceOf, g1, i1]
            · intro j hj
              cases j with
              | zero => simpa using hq
              | succ j =>
                have := i3 j (by simpa using hj)
                simpa using this
            · rw [i4]
              cases hst : steps.getLast? with
              | none =>
                rw [List.getLast?_eq_none_iff] at hst
                simp [hst]
              | some st =>
                rw [List.getLast?_cons, hst]
                simp
            · rcases i5 with i5 | ⟨_, i5⟩
              · exact Or.inl (by simp [i5])
              · exact Or.inr ⟨by simp, by simpa using i5⟩

/-- What the loop's final result contains. -/
theorem minimizeLoop_record {A : Arith F} {W : World F M R G} {dims : List (Dim F)}
    {func : Objective F} {cbs : List (Callback F M)} {n : Nat} {done : List (Val F)}
    {hist : List (Result F M)} {s : Opt F M R} {last : Option (Result F M)} {t : List (Event F M)}
    {r : Result F M}
    (h : minimizeLoop A W dims func cbs n done hist s last = (t, .ok (some r)))
    (hlast : ∀ r, last = some r → ∃ ms, createResult s.Xi s.yi ms = .ok r)
    (hflat : ∀ p, Val.seq p ∈ evalsOf t → Flat p) :
    ∃ ys ys' ms, Answers func done (evalsOf t) ys ∧ List.Forall₂ (OnRecord W s.cfg.acq) ys ys' ∧
      createResult (s.Xi ++ evalsOf t) (s.yi ++ ys') ms = .ok r := by
  induction n generalizing done hist s last t with
  | zero =>
    simp only [minimizeLoop, Prod.mk.injEq, Except.ok.injEq] at h
    obtain ⟨rfl, rfl⟩ := h
    obtain ⟨ms, hms⟩ := hlast r rfl
    exact ⟨[], [], ms, trivial, .nil, by simpa [evalsOf] using hms⟩
  | succ n ih =>
    simp only [minimizeLoop] at h
    split at h
    · cases h
    · next s₁ x hask =>
      obtain ⟨rng', hs1⟩ := askOne_frame A W dims s
      rw [hask] at hs1
      simp only at hs1
      split at h
      · cases h
      · next y hy =>
        split at h
        · cases h
        · next s₂ r₁ htell =>
          have hrec : ∀ (hx : Flat x), ∃ y', OnRecord W s.cfg.acq y y' ∧
              s₂.Xi = s.Xi ++ [.seq x] ∧ s₂.yi = s.yi ++ [y'] ∧ s₂.cfg = s.cfg ∧
              createResult s₂.Xi s₂.yi s₂.models = .ok r₁ := by
            intro hx
            have ht2 : (tell A W dims s₁ (.lst x) y true).1 = s₂ := by rw [htell]
            have hr2 : (tell A W dims s₁ (.lst x) y true).2 = .ok r₁ := by rw [htell]
            rcases tell_one A W dims s₁ hx y true with ⟨e, he⟩ | ⟨y', h1, _, h2, h3⟩
            · rw [he] at hr2; cases hr2
            · rw [h2] at hr2 ht2
              have hf := tellCore_frame A W dims s₁ (.lst x) y' true h3
              have hg := (tellCore_ok hr2).1
              rw [ht2] at hf hg
              refine ⟨y', ?_, ?_, ?_, ?_, hg⟩
              · rw [hs1] at h1; exact h1
              · rw [hf.4, hs1]; rfl
              · rw [hf.5, hs1]; rfl
              · rw [hf.1, hs1]; rfl
          split at h
          · cases h
          · next t₁ hcb =>
            simp only [Prod.mk.injEq, Except.ok.injEq, Option.some.injEq] at h
            obtain ⟨rfl, rfl⟩ := h
            have hn : evalsOf t₁ = [] := by
              have := (evalCallbacks_spec (hist ++ [r₁]) r₁ cbs 0 false).2.2
              rw [hcb] at this
              exact this
            rw [evalsOf_eval_cons, hn] at hflat ⊢
            obtain ⟨y', g1, g2, g3, _, g4⟩ := hrec (hflat x (by simp))
            exact ⟨[y], [y'], s₂.models, ⟨hy, trivial⟩, .cons g1 .nil, by rw [← g2, ← g3]; exact g4⟩
          · next t₁ hcb =>
            generalize hl : minimizeLoop A W dims func cbs n (done ++ [.seq x]) (hist ++ [r₁]) s₂
              (some r₁) = q at h
            obtain ⟨t', o'⟩ := q
            simp only [Prod.mk.injEq] at h
            obtain ⟨rfl, rfl⟩ := h
            have hn : evalsOf t₁ = [] := by
              have := (evalCallbacks_spec (hist ++ [r₁]) r₁ cbs 0 false).2.2
              rw [hcb] at this
              exact this
            have he : evalsOf (Event.eval (.seq x) :: (t₁ ++ t')) = .seq x :: evalsOf t' := by
              rw [evalsOf_eval_cons, evalsOf_append, hn, List.nil_append]
            rw [he] at hflat ⊢
            obtain ⟨y', g1, g2, g3, g4, g5⟩ := hrec (hflat x (by simp))
            obtain ⟨ys, ys', ms, i1, i2, i3⟩ := ih hl
              (by intro r' hr'; injection hr' with hr'; exact ⟨s₂.models, by rw [← hr']; exact g5⟩)
              (fun p hp => hflat p (by simp [hp]))
            refine ⟨y :: ys, y' :: ys', ms, ⟨hy, i1⟩, .cons g1 (by rw [← g4]; exact i2), ?_⟩
            rw [g2, g3] at i3
            simpa using i3

end

end Skopt

import Verif.Lemmas.Optimizer
import Verif.Spec.Optimizer

/-!
# Lemmas about sequences of calls
-/

namespace Skopt

variable {F M R G : Type}

theorem is2D_false_of_flat {p : Point F} (h : Flat p) : is2D p = false := by
  obtain ⟨v, hv, h⟩ := h
  rw [Bool.eq_false_iff]
  intro hc
  unfold is2D at hc
  rw [List.all_eq_true] at hc
  rw [hc v hv] at h
  cases h

theorem is2D_points (obs : List (Point F × YArg F)) :
    is2D (obs.map fun o => (.seq o.1 : Val F)) = true := by
  unfold is2D
  rw [List.all_eq_true]
  intro v hv
  obtain ⟨o, _, rfl⟩ := List.mem_map.1 hv
  rfl

theorem mapE_forall₂ {α β : Type} {f : α → Except PyErr β} {xs : List α} {ys : List β}
    (h : mapE f xs = .ok ys) : List.Forall₂ (fun x y => f x = .ok y) xs ys := by
  rw [mapE_eq_ok] at h
  exact h

theorem logTime_spec {W : World F M R G} {y y' : YArg F} (h : logTime W y = .ok y') :
    ∃ v t l, y = .seq [v, .num t] ∧ W.log t = .ok l ∧ y' = .seq [v, .num l] := by
  unfold logTime at h
  split at h
  · next v t =>
    rw [bind_eq_ok] at h
    obtain ⟨l, h1, h2⟩ := h
    injection h2 with h2
    exact ⟨v, t, l, rfl, h1, h2.symm⟩
  · cases h

section
variable [LinearOrder F]

/-- A told single observation: what is recorded if the checks pass. -/
theorem tell_one (A : Arith F) (W : World F M R G) (dims : List (Dim F)) (s : Opt F M R)
    {p : Point F} (hp : Flat p) (y : YArg F) (fit : Bool) :
    (∃ e, tell A W dims s (.lst p) y fit = (s, .error e)) ∨
    (∃ y', OnRecord W s.cfg.acq y y' ∧ checkXInSpace dims p = .ok () ∧
      tell A W dims s (.lst p) y fit = tellCore A W dims s (.lst p) y' fit ∧
      record s (.lst p) y' = .ok (record.single s p y')) := by
  have h2 := is2D_false_of_flat hp
  rcases tell_cases A W dims s (.lst p) y fit with h | ⟨y', h1, _, h3, h4⟩
  · exact Or.inl h
  · refine Or.inr ⟨y', ?_, h1, h4, ?_⟩
    · unfold OnRecord
      simp only [takeLogs, h2] at h3
      split at h3
      · next hps => rw [if_pos hps]; exact logTime_spec h3
      · next hps => rw [if_neg hps]; injection h3 with h3; exact h3.symm
    · simp [record, h2]

/-- A told batch: what is recorded if the checks pass. -/
theorem tell_batch (A : Arith F) (W : World F M R G) (dims : List (Dim F)) (s : Opt F M R)
    (obs : List (Point F × YArg F)) (fit : Bool) :
    (∃ e, tell A W dims s (.lst (obs.map fun o => .seq o.1)) (.seq (obs.map Prod.snd)) fit =
      (s, .error e)) ∨
    (∃ ys, List.Forall₂ (OnRecord W s.cfg.acq) (obs.map Prod.snd) ys ∧
      checkXInSpace dims (obs.map fun o => .seq o.1) = .ok () ∧
      tell A W dims s (.lst (obs.map fun o => .seq o.1)) (.seq (obs.map Prod.snd)) fit =
        tellCore A W dims s (.lst (obs.map fun o => .seq o.1)) (.seq ys) fit ∧
      record s (.lst (obs.map fun o => .seq o.1)) (.seq ys) =
        .ok (record.batch s (obs.map fun o => .seq o.1) ys)) := by
  have h2 := is2D_points obs
  rcases tell_cases A W dims s (.lst (obs.map fun o => .seq o.1)) (.seq (obs.map Prod.snd)) fit with
    h | ⟨y', h1, _, h3, h4⟩
  · exact Or.inl h
  · refine Or.inr ?_
    simp only [takeLogs, h2, if_true, YArg.items] at h3
    split at h3
    · next hps =>
      rw [bind_eq_ok] at h3
      obtain ⟨ys, h5, h6⟩ := h3
      injection h6 with h6
      subst h6
      refine ⟨ys, ?_, h1, h4, ?_⟩
      · refine (mapE_forall₂ h5).imp ?_
        intro a b hab
        unfold OnRecord
        rw [if_pos hps]
        exact logTime_spec hab
      · simp [record, h2, hps, YArg.items]
    · next hps =>
      injection h3 with h3
      subst h3
      refine ⟨obs.map Prod.snd, ?_, h1, h4, ?_⟩
      · refine List.forall₂_same.2 ?_
        intro y _
        unfold OnRecord
        rw [if_neg hps]
      · simp [record, h2, hps, YArg.items, YArg.isSeq]

/-- A call in documented form that returns records exactly its observations. -/
theorem step_call {A : Arith F} {W : World F M R G} {sh : Shared F G} {s : Opt F M R} {c : Call F}
    (hflat : ∀ p y f, c = .one p y f → Flat p)
    (hok : c.isTell = true → Returns (step A W sh s c.toOp).2.2) :
    let t := (step A W sh s c.toOp).2.1
    t.cfg = s.cfg ∧ t.initialSamples = s.initialSamples ∧
    t.Xi = s.Xi ++ c.obs.map (fun o => .seq o.1) ∧
      (∃ ys, t.yi = s.yi ++ ys ∧ List.Forall₂ (OnRecord W s.cfg.acq) (c.obs.map Prod.snd) ys ∧
        t.nInit = s.nInit - ys.length) ∧
      (c.isTell = true → t.cache = none) := by
  cases c with
  | one p y fit =>
    have hp : Flat p := hflat p y fit rfl
    obtain ⟨a, ha⟩ := hok rfl
    simp only [Call.toOp, step] at ha ⊢
    rcases tell_one A W sh.dims s hp y fit with ⟨e, he⟩ | ⟨y', h1, _, h2, h3⟩
    · rw [he] at ha; cases ha
    · have hf := tellCore_frame A W sh.dims s (.lst p) y' fit h3
      rw [h2]
      refine ⟨hf.1, hf.3, hf.4, ⟨[y'], hf.5, ?_, ?_⟩, fun _ => hf.6⟩
      · simpa [Call.obs] using h1
      · rw [hf.2]; rfl
  | batch obs fit =>
    obtain ⟨a, ha⟩ := hok rfl
    simp only [Call.toOp, step] at ha ⊢
    rcases tell_batch A W sh.dims s obs fit with ⟨e, he⟩ | ⟨ys, h1, _, h2, h3⟩
    · rw [he] at ha; cases ha
    · have hf := tellCore_frame A W sh.dims s _ (.seq ys) fit h3
      rw [h2]
      exact ⟨hf.1, hf.3, hf.4, ⟨ys, hf.5, h1, hf.2⟩, fun _ => hf.6⟩
  | ask =>
    obtain ⟨r, h⟩ := askOne_frame A W sh.dims s
    simp only [Call.toOp, step, h]
    exact ⟨trivial, trivial, by simp [Call.obs], ⟨[], by simp, by simp [Call.obs], by simp⟩, by simp [Call.isTell]⟩
  | askMany n strat =>
    obtain ⟨r, c, h⟩ := askMany_frame A W sh s n strat
    simp only [Call.toOp, step, h]
    exact ⟨trivial, trivial, by simp [Call.obs], ⟨[], by simp, by simp [Call.obs], by simp⟩, by simp [Call.isTell]⟩
  | updateNext =>
    obtain ⟨r, c, h⟩ := updateNext_frame A W sh s
    simp only [Call.toOp, step, h]
    exact ⟨trivial, trivial, by simp [Call.obs], ⟨[], by simp, by simp [Call.obs], by simp⟩, by simp [Call.isTell]⟩
  | getResult =>
    simp only [Call.toOp, step]
    exact ⟨trivial, trivial, by simp [Call.obs], ⟨[], by simp, by simp [Call.obs], by simp⟩, by simp [Call.isTell]⟩

/-- Every operation, in any form and with any outcome: configuration and design stay, the history is
extended at the end, and the counter goes down by the number of values recorded. -/
theorem step_frame (A : Arith F) (W : World F M R G) (sh : Shared F G) (s : Opt F M R) (op : Op F) :
    let t := (step A W sh s op).2.1
    t.cfg = s.cfg ∧ t.initialSamples = s.initialSamples ∧
      ∃ xs ys, t.Xi = s.Xi ++ xs ∧ t.yi = s.yi ++ ys ∧ t.nInit = s.nInit - ys.length := by
  cases op with
  | ask =>
    obtain ⟨r, h⟩ := askOne_frame A W sh.dims s
    simp only [step, h]
    exact ⟨trivial, trivial, [], [], by simp, by simp, by simp⟩
  | askMany n strat =>
    obtain ⟨r, c, h⟩ := askMany_frame A W sh s n strat
    simp only [step, h]
    exact ⟨trivial, trivial, [], [], by simp, by simp, by simp⟩
  | updateNext =>
    obtain ⟨r, c, h⟩ := updateNext_frame A W sh s
    simp only [step, h]
    exact ⟨trivial, trivial, [], [], by simp, by simp, by simp⟩
  | getResult =>
    simp only [step]
    exact ⟨trivial, trivial, [], [], by simp, by simp, by simp⟩
  | tell x y fit =>
    simp only [step]
    rcases tell_cases A W sh.dims s x y fit with ⟨e, h⟩ | ⟨y', _, _, _, h⟩
    · rw [h]
      exact ⟨rfl, rfl, [], [], by simp, by simp, by simp⟩
    · rw [h]
      cases hr : record s x y' with
      | error e =>
        rcases tellCore_cases A W sh.dims s x y' fit with ⟨e', _, h1⟩ | ⟨t, ht, _⟩
        · rw [h1]
          exact ⟨rfl, rfl, [], [], by simp, by simp, by simp⟩
        · rw [hr] at ht; cases ht
      | ok t =>
        have hf := tellCore_frame A W sh.dims s x y' fit hr
        obtain ⟨c, i, _, _, _, _, _, _, xs, ys, h1, h2, h3⟩ := record_frame hr
        exact ⟨hf.1.trans c, hf.3.trans i, xs, ys, hf.4.trans h1, hf.5.trans h2, hf.2.trans h3⟩

theorem runOps_frame (A : Arith F) (W : World F M R G) (sh : Shared F G) (s : Opt F M R)
    (ops : List (Op F)) :
    let t := (runOps A W sh s ops).2.1
    t.cfg = s.cfg ∧ t.initialSamples = s.initialSamples ∧
      ∃ xs ys, t.Xi = s.Xi ++ xs ∧ t.yi = s.yi ++ ys ∧ t.nInit = s.nInit - ys.length := by
  induction ops generalizing sh s with
  | nil => exact ⟨rfl, rfl, [], [], by simp [runOps], by simp [runOps], by simp [runOps]⟩
  | cons op ops ih =>
    obtain ⟨c, i, xs, ys, h1, h2, h3⟩ := step_frame A W sh s op
    obtain ⟨c', i', xs', ys', h1', h2', h3'⟩ := ih (step A W sh s op).1 (step A W sh s op).2.1
    simp only [runOps]
    refine ⟨c'.trans c, i'.trans i, xs ++ xs', ys ++ ys', ?_, ?_, ?_⟩
    · rw [h1', h1, List.append_assoc]
    · rw [h2', h2, List.append_assoc]
    · rw [h3', h3, List.length_append]; push_cast; ring

end

end Skopt

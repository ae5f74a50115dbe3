import Verif.Props.OptimizerHistory
import Verif.Lemmas.Relabel

/-!
# C129: fitting can be put off
-/

namespace Skopt

variable {F M R G : Type} [LinearOrder F]

/-! ## Specification -/

/-- Tell some observations one by one without fitting: `opt.tell(x, y, fit=False)`, skopt/optimizer/optimizer.py:455. -/
def withoutFit (obs : List (Point F × YArg F)) : List (Op F) := obs.map fun o => .tell (.lst o.1) o.2 false

/-- The points of a batch of observations as argument of `tell`, skopt/optimizer/optimizer.py:455. -/
abbrev batchX (obs : List (Point F × YArg F)) : XArg F := .lst (obs.map fun o => .seq o.1)

/-- The values of a batch of observations as argument of `tell`, skopt/optimizer/optimizer.py:455. -/
abbrev batchY (obs : List (Point F × YArg F)) : YArg F := .seq (obs.map Prod.snd)

/-! ## Helpers -/

/-- The checks at the beginning of `tell`, skopt/optimizer/optimizer.py:482-491, accept one observation and put `z` on
record. -/
def Accepted (W : World F M R G) (acq : AcqFunc) (dims : List (Dim F)) (o : Point F × YArg F) (z : YArg F) : Prop :=
  (do checkX dims (.lst o.1); checkY acq (.lst o.1) o.2; takeLogs W acq (.lst o.1) o.2) = .ok z

theorem forall₂_imp_mem {α β : Type} {P Q : α → β → Prop} : ∀ {xs : List α} {ys : List β},
    (∀ x y, x ∈ xs → P x y → Q x y) → List.Forall₂ P xs ys → List.Forall₂ Q xs ys
  | _, _, _, .nil => .nil
  | _, _, h, .cons h1 h2 =>
    .cons (h _ _ List.mem_cons_self h1) (forall₂_imp_mem (fun x y hx => h x y (List.mem_cons_of_mem _ hx)) h2)

theorem batch_accepted {W : World F M R G} {acq : AcqFunc} {dims : List (Dim F)} {obs : List (Point F × YArg F)}
    (hflat : ∀ o ∈ obs, Flat o.1) {y' : YArg F}
    (h : (do checkX dims (batchX obs); checkY acq (batchX obs) (batchY obs); takeLogs W acq (batchX obs) (batchY obs))
      = .ok y') : ∃ zs, y' = .seq zs ∧ List.Forall₂ (Accepted W acq dims) obs zs := by
  simp only [bind_eq_ok] at h
  obtain ⟨_, hx, _, hy, hl⟩ := h
  have h2d : is2D (obs.map fun o => (.seq o.1 : Val F)) = true := is2D_points obs
  have cx : ∀ o ∈ obs, checkX dims (.lst o.1) = .ok () := by
    intro o ho
    have hf := is2D_false_of_flat (hflat o ho)
    simp only [checkX, batchX, checkXInSpace, h2d, if_true, bind_eq_ok] at hx
    obtain ⟨bs, hbs, hx⟩ := hx
    split at hx
    · next hall =>
      split at hx
      · cases hx
      · next hlen =>
        have hlen' : o.1.length = dims.length := by
          by_contra hc
          apply hlen
          rw [List.any_eq_true]
          exact ⟨.seq o.1, List.mem_map_of_mem (f := fun o : Point F × YArg F => (.seq o.1 : Val F)) ho,
            decide_eq_true hc⟩
        have hfa := mapE_forall₂ hbs
        obtain ⟨k, hk⟩ := List.getElem?_of_mem ho
        have hk' : (obs.map fun o => (.seq o.1 : Val F))[k]? = some (.seq o.1) := by
          rw [List.getElem?_map, hk]; rfl
        have hlk : k < bs.length := by
          rw [← hfa.length_eq]
          exact (List.getElem?_eq_some_iff.1 hk').1
        have hb := List.Forall₂.get hfa (List.getElem?_eq_some_iff.1 hk').1 hlk
        have hbt : bs[k] = true := by
          have := List.all_eq_true.1 hall bs[k] (List.getElem_mem hlk)
          simpa using this
        obtain ⟨hk1, hk2⟩ := List.getElem?_eq_some_iff.1 hk'
        simp only [List.get_eq_getElem, hk2, hbt, Val.items] at hb
        simp [checkX, checkXInSpace, hf, hb, ok_bind, hlen']
    · cases hx
  have rest : ∃ zs, y' = .seq zs ∧ List.Forall₂ (fun o z => checkY acq (.lst o.1) o.2 = .ok () ∧
      takeLogs W acq (.lst o.1) o.2 = .ok z) obs zs := by
    by_cases hps : acq.isPs = true
    · simp only [checkY, batchY, hps, h2d, if_true] at hy
      by_cases hp : ((YArg.seq (obs.map Prod.snd)).isSeq && !(YArg.seq (obs.map Prod.snd)).items.isEmpty &&
          (YArg.seq (obs.map Prod.snd)).items.all YArg.isPair) = true
      · simp only [Bool.and_eq_true, YArg.items, List.all_eq_true] at hp
        simp only [takeLogs, batchY, hps, h2d, if_true, bind_eq_ok, YArg.items] at hl
        obtain ⟨zs, hz, hl⟩ := hl
        injection hl with hl
        refine ⟨zs, hl.symm, ?_⟩
        have hfa := mapE_forall₂ hz
        rw [List.forall₂_map_left_iff] at hfa
        refine forall₂_imp_mem ?_ hfa
        intro o z ho hoz
        have hf := is2D_false_of_flat (hflat o ho)
        have := hp.2 o.2 (List.mem_map_of_mem ho)
        simp [checkY, takeLogs, hps, hf, this, hoz]
      · rw [if_neg hp] at hy
        cases hy
    · have hps : acq.isPs = false := by simpa using hps
      simp only [checkY, batchY, hps, h2d, YArg.isSeq, Bool.and_self, if_true, Bool.false_eq_true, if_false] at hy
      by_cases hp : (YArg.seq (obs.map Prod.snd)).items.all YArg.isNumber = true
      · simp only [YArg.items, List.all_eq_true] at hp
        simp only [takeLogs, batchX, hps, Bool.false_eq_true, if_false] at hl
        injection hl with hl
        refine ⟨obs.map Prod.snd, hl.symm, ?_⟩
        rw [List.forall₂_map_right_iff, List.forall₂_same]
        intro o ho
        have hf := is2D_false_of_flat (hflat o ho)
        have := hp o.2 (List.mem_map_of_mem ho)
        simp [checkY, takeLogs, hps, hf, this]
      · rw [if_neg hp] at hy
        cases hy
  obtain ⟨zs, e, hr⟩ := rest
  refine ⟨zs, e, forall₂_imp_mem ?_ hr⟩
  intro o z ho ⟨h1, h2⟩
  simp only [Accepted, cx o ho, h1, ok_bind, h2]

theorem tell_accepted {W : World F M R G} {dims : List (Dim F)} {s : Opt F M R} {o : Point F × YArg F} {z : YArg F}
    (hflat : Flat o.1) (h : Accepted W s.cfg.acq dims o z) (A : Arith F) (fit : Bool) :
    tell A W dims s (.lst o.1) o.2 fit = tellCore A W dims s (.lst o.1) z fit ∧
      record s (.lst o.1) z = .ok (record.single s o.1 z) := by
  have hf := is2D_false_of_flat hflat
  refine ⟨?_, ?_⟩
  · unfold Accepted at h
    rw [tell, h]
  · simp [record, hf]

theorem tell_no_fit {W : World F M R G} {dims : List (Dim F)} {s : Opt F M R} {o : Point F × YArg F} {z : YArg F}
    (hflat : Flat o.1) (h : Accepted W s.cfg.acq dims o z) (A : Arith F) :
    (tell A W dims s (.lst o.1) o.2 false).1 = record.single s o.1 z := by
  obtain ⟨h1, h2⟩ := tell_accepted hflat h A false
  rw [h1, tellCore, h2]
  simp

theorem run_without_fit (A : Arith F) (W : World F M R G) (sh : Shared F G) {acq : AcqFunc}
    {obs : List (Point F × YArg F)} {zs : List (YArg F)} (h : List.Forall₂ (Accepted W acq sh.dims) obs zs) :
    (∀ o ∈ obs, Flat o.1) → ∀ s : Opt F M R, s.cfg.acq = acq → ∃ c,
      (runOps A W sh s (withoutFit obs)).1 = sh ∧
      (runOps A W sh s (withoutFit obs)).2.1 = { s with
        Xi := s.Xi ++ obs.map (fun o => .seq o.1), yi := s.yi ++ zs, nInit := s.nInit - zs.length, cache := c } := by
  induction h with
  | nil => intro _ s _; exact ⟨s.cache, by simp [withoutFit, runOps]⟩
  | @cons o z obs zs h1 _ ih =>
    intro hflat s hs
    subst hs
    have e := tell_no_fit (hflat o List.mem_cons_self) h1 A
    obtain ⟨c, e1, e2⟩ := ih (fun o ho => hflat o (List.mem_cons_of_mem _ ho)) (record.single s o.1 z) rfl
    refine ⟨c, ?_⟩
    simp only [withoutFit, List.map_cons, runOps, step]
    simp only [withoutFit] at e1 e2
    rw [e, e1, e2]
    refine ⟨rfl, ?_⟩
    have hn : s.nInit - 1 - (zs.length : ℤ) = s.nInit - ((zs.length + 1 : ℕ) : ℤ) := by push_cast; ring
    simp only [record.single, List.append_assoc, List.singleton_append, List.map_cons, List.length_cons, hn]

theorem Space.distance_ok (A : Arith F) {dims : List (Dim F)} {a b : Point F}
    (ha : List.Forall₂ Within dims a) (hb : List.Forall₂ Within dims b) : ∃ x, Space.distance A dims a b = .ok x := by
  unfold Space.distance
  generalize A.ofInt 0 = z
  induction ha generalizing b z with
  | nil => cases hb; exact ⟨_, rfl⟩
  | @cons d u ds us hd _ ih =>
    cases hb with
    | @cons _ v _ vs b1 b2 =>
      rw [← Dim.contains_true] at hd b1
      have hdist : ∃ x, d.distance A u v = .ok x := by
        cases d with
        | cat c => unfold Dim.distance; rw [hd, b1]; exact ⟨_, rfl⟩
        | real r =>
          obtain ⟨x, rfl, _⟩ := Dim.contains_true.1 hd
          obtain ⟨y, rfl, _⟩ := Dim.contains_true.1 b1
          unfold Dim.distance; rw [hd, b1]; exact ⟨_, rfl⟩
        | int r =>
          obtain ⟨x, rfl, _⟩ := Dim.contains_true.1 hd
          obtain ⟨y, rfl, _⟩ := Dim.contains_true.1 b1
          unfold Dim.distance; rw [hd, b1]; exact ⟨_, rfl⟩
      obtain ⟨x, hx⟩ := hdist
      simp only [Space.distanceFrom, hx, ok_bind]
      exact ih b2 _

theorem askOne_model (A : Arith F) (W : World F M R G) (dims : List (Dim F)) (s : Opt F M R) (hn : s.nInit ≤ 0)
    (he : s.cfg.hasEst = true) {p : Point F} (hp : s.nextX = some p) :
    (askOne A W dims s).2 = if s.models.isEmpty then .error .runtimeError else (do
      let ds ← mapE (fun xi : Val F => Space.distance A dims p xi.items) s.Xi
      if ds.isEmpty then .error .valueError else .ok p) := by
  have h0 : ¬ (0 < s.nInit ∨ s.cfg.hasEst = false) := by simp [he, hn]
  unfold askOne
  rw [if_neg h0]
  by_cases hm : s.models.isEmpty = true
  · rw [if_pos hm, if_pos hm]
  · rw [if_neg hm, if_neg hm, hp]

theorem forall₂_snoc_left {α β : Type} {r : α → β → Prop} {a : α} : ∀ {l : List α} {zs : List β},
    List.Forall₂ r (l ++ [a]) zs → ∃ zs' z, zs = zs' ++ [z] ∧ List.Forall₂ r l zs' ∧ r a z
  | [], _, .cons h .nil => ⟨[], _, rfl, .nil, h⟩
  | _ :: _, _, .cons h h' => by
    obtain ⟨zs', z, rfl, h1, h2⟩ := forall₂_snoc_left h'
    exact ⟨_ :: zs', z, rfl, .cons h h1, h2⟩

/-! ## The theorems -/

/-- **C129 (deferred fits).** Telling observations one by one without fitting, and the last one with, has exactly the
same effect as telling them in one batch: the same optimizer afterwards - history, surrogates, suggestion, gains, state
of the random numbers - and the same outcome of the call.  Only the batch has to be acceptable. -/
theorem C129_deferred_fit (A : Arith F) (W : World F M R G) (sh : Shared F G) (s : Opt F M R)
    (obs : List (Point F × YArg F)) (last : Point F × YArg F) (hflat : ∀ o ∈ obs ++ [last], Flat o.1) (fit : Bool)
    (r : Result F M) (hr : (tell A W sh.dims s (batchX (obs ++ [last])) (batchY (obs ++ [last])) fit).2 = .ok r) :
    (runOps A W sh s (withoutFit obs)).1 = sh ∧
    tell A W sh.dims (runOps A W sh s (withoutFit obs)).2.1 (.lst last.1) last.2 fit =
      tell A W sh.dims s (batchX (obs ++ [last])) (batchY (obs ++ [last])) fit := by
  have hprep : ∃ y', (do checkX sh.dims (batchX (obs ++ [last])); checkY s.cfg.acq (batchX (obs ++ [last])) (batchY (obs ++ [last])); takeLogs W s.cfg.acq (batchX (obs ++ [last])) (batchY (obs ++ [last]))) = .ok y' := by
    unfold tell at hr
    split at hr
    · cases hr
    · next y hy => exact ⟨y, hy⟩
  obtain ⟨y', hy'⟩ := hprep
  obtain ⟨zs, rfl, hz⟩ := batch_accepted hflat hy'
  obtain ⟨zs1, z, rfl, hz1, hz2⟩ := forall₂_snoc_left hz
  obtain ⟨c, e1, e2⟩ := run_without_fit A W sh hz1 (fun o ho => hflat o (List.mem_append_left _ ho)) s rfl
  refine ⟨e1, ?_⟩
  rw [e2]
  obtain ⟨t1, t2⟩ := tell_accepted (s := { s with
      Xi := s.Xi ++ obs.map (fun o => .seq o.1), yi := s.yi ++ zs1, nInit := s.nInit - zs1.length, cache := c })
    (hflat last (by simp)) hz2 A fit
  rw [t1]
  have t3 : tell A W sh.dims s (batchX (obs ++ [last])) (batchY (obs ++ [last])) fit =
      tellCore A W sh.dims s (batchX (obs ++ [last])) (.seq (zs1 ++ [z])) fit := by
    rw [tell, hy']
  rw [t3, tellCore, tellCore, t2]
  have t4 : record s (batchX (obs ++ [last])) (.seq (zs1 ++ [z])) =
      .ok (record.batch s ((obs ++ [last]).map fun o => .seq o.1) (zs1 ++ [z])) := by
    simp only [record, is2D_points, YArg.isSeq, YArg.items, Bool.and_self, if_true]
    split <;> rfl
  have t5 : record.single { s with
      Xi := s.Xi ++ obs.map (fun o => .seq o.1), yi := s.yi ++ zs1, nInit := s.nInit - zs1.length, cache := c } last.1 z =
      record.batch s ((obs ++ [last]).map fun o => .seq o.1) (zs1 ++ [z]) := by
    simp only [record.single, record.batch, List.append_assoc, List.map_append, List.map_cons, List.map_nil,
      List.length_append, List.length_cons, List.length_nil]
    congr 1
    push_cast
    ring
  rw [t4, t5]

/-- Meets the hypotheses of `C129_deferred_fit`: three observations, the first two told without fitting; one model is
fitted, on all three. -/
example :
    (∀ o ∈ exObs, Flat o.1) ∧
    (tell ratArith okWorld toyDims (toyOpt .EI) (batchX exObs) (batchY exObs) true).2.isOk = true ∧
    (tell ratArith okWorld toyDims (runOps ratArith okWorld toyShared (toyOpt .EI) (withoutFit (exObs.take 2))).2.1
      (.lst [.num 1]) (.num (.fin 7)) true).1.models = [3] ∧
    (tell ratArith okWorld toyDims (runOps ratArith okWorld toyShared (toyOpt .EI) (withoutFit (exObs.take 2))).2.1
      (.lst [.num 1]) (.num (.fin 7)) true).1.nextX =
    (tell ratArith okWorld toyDims (toyOpt .EI) (batchX exObs) (batchY exObs) true).1.nextX := by
  refine ⟨by simp [exObs, Flat, Val.isSeq], by decide +kernel, by decide +kernel, by decide +kernel⟩

/-- **C129 (no fit, no change).** `tell` with `fit=False` draws no random numbers and leaves surrogates, gains, the
options and the suggestion alone, whatever it is told and whether or not it raises; and in the model phase `ask()` gives
the same answer after telling a point as before. -/
theorem C129_no_fit (A : Arith F) (W : World F M R G) (dims : List (Dim F)) (s : Opt F M R) :
    (∀ (x : XArg F) (y : YArg F), let t := (tell A W dims s x y false).1
      t.rng = s.rng ∧ t.models = s.models ∧ t.gains = s.gains ∧ t.nextX = s.nextX ∧ t.cfg = s.cfg) ∧
    ∀ (x p : Point F) (y : YArg F), Flat x → s.nInit ≤ 0 → s.cfg.hasEst = true → s.nextX = some p →
      List.Forall₂ Within dims p → (askOne A W dims s).2 = .ok p →
      (askOne A W dims (tell A W dims s (.lst x) y false).1).2 = .ok p := by
  refine ⟨fun x y => ?_, fun x p y hx hn he hp hw ha => ?_⟩
  · have hrec : ∀ (y' : YArg F), (tellCore A W dims s x y' false).1 = s ∨
        ∃ t, record s x y' = .ok t ∧ (tellCore A W dims s x y' false).1 = t := by
      intro y'
      unfold tellCore
      cases hr : record s x y' with
      | error e => exact .inl rfl
      | ok t => exact .inr ⟨t, rfl, by simp⟩
    have hsame : ∀ (y' : YArg F) t, record s x y' = .ok t →
        t.rng = s.rng ∧ t.models = s.models ∧ t.gains = s.gains ∧ t.nextX = s.nextX ∧ t.cfg = s.cfg := by
      intro y' t ht
      unfold record at ht
      split at ht
      · split at ht
        · split at ht <;> · cases ht; exact ⟨rfl, rfl, rfl, rfl, rfl⟩
        · split at ht <;> · cases ht; exact ⟨rfl, rfl, rfl, rfl, rfl⟩
      · split at ht
        · cases ht; exact ⟨rfl, rfl, rfl, rfl, rfl⟩
        · cases ht
      · cases ht
    dsimp only
    unfold tell
    split
    · exact ⟨rfl, rfl, rfl, rfl, rfl⟩
    · next y' _ =>
      rcases hrec y' with h | ⟨t, h1, h2⟩
      · rw [h]; exact ⟨rfl, rfl, rfl, rfl, rfl⟩
      · rw [h2]; exact hsame y' t h1
  · unfold tell
    split
    · exact ha
    · next y' hy' =>
      simp only [bind_eq_ok] at hy'
      obtain ⟨_, h1, _⟩ := hy'
      have hf := is2D_false_of_flat hx
      have hwx := checkXInSpace_one_within hf h1
      have hr : record s (.lst x) y' = .ok (record.single s x y') := by simp [record, hf]
      have ht : (tellCore A W dims s (.lst x) y' false).1 = record.single s x y' := by simp [tellCore, hr]
      rw [ht]
      rw [askOne_model A W dims s hn he hp] at ha
      rw [askOne_model A W dims (record.single s x y') (by simp [record.single]; omega) he hp]
      split at ha
      · cases ha
      · next hm =>
        rw [if_neg (by exact hm)]
        simp only [bind_eq_ok] at ha ⊢
        obtain ⟨ds, hds, _⟩ := ha
        obtain ⟨z, hz⟩ := Space.distance_ok A hw hwx
        refine ⟨ds ++ [z], ?_, by simp⟩
        rw [mapE_eq_ok] at hds ⊢
        exact List.rel_append hds (.cons hz .nil)

/-- Meets the hypotheses of `C129_no_fit`: after the three observations the suggestion is not touched by a fourth one
told without fitting, while telling it with a fit would have fitted another model. -/
example :
    let s := (tell ratArith okWorld toyDims (toyOpt .EI) (batchX exObs) (batchY exObs) true).1
    let t := (tell ratArith okWorld toyDims s (.lst [.num 2]) (.num (.fin 1)) false).1
    let u := (tell ratArith okWorld toyDims s (.lst [.num 2]) (.num (.fin 1)) true).1
    s.nInit ≤ 0 ∧ s.cfg.hasEst = true ∧ (askOne ratArith okWorld toyDims s).2.toOption = s.nextX ∧
      s.nextX.isSome = true ∧ t.yi.length = 4 ∧ t.models = [3] ∧ u.models = [3, 4] ∧
      (askOne ratArith okWorld toyDims t).2.toOption = s.nextX := by
  decide +kernel

end Skopt

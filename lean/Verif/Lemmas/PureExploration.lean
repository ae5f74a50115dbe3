import Verif.Lemmas.ObjectiveUnits
import Verif.Lemmas.Minimize
import Verif.Spec.PureExploration

/-!
# Two optimizers that explore go through the same motions, whatever values they are told (C137)
-/

namespace Skopt

variable {M R G : Type} {V : Views M} {W : World ℝ M R G} {xi : ℝ} {mini : AcqMinimiser R} {dims : List (Dim ℝ)}

theorem acquisition_blind {m m' : M} (h : SameShape V m m') (y y' xi : ℝ) :
    ∃ α : ℝ, 0 < α ∧
      (∀ X, gaussianAcquisition (.one (V.pred m' X)) y' .LCB xi .inf
        = (gaussianAcquisition (.one (V.pred m X)) y .LCB xi .inf).map (List.map fun v => α * v + 0)) ∧
      (V.gradients = true → ∀ z, gaussianAcquisitionGrad (.one (V.grad m' z)) y' .LCB xi .inf
        = (gaussianAcquisitionGrad (.one (V.grad m z)) y .LCB xi .inf).map
            fun p => (α * p.1 + 0, p.2.map fun g => α * g)) := by
  obtain ⟨α, hα, hp, hg⟩ := h
  refine ⟨α, hα, fun X => ?_, fun hgr z => ?_⟩
  · simp only [gaussianAcquisition, Surrogate.single, ok_bind, hp, gaussianLcb, List.map_map, Except.map_ok']
    congr 1
    refine List.map_congr_left fun v _ => ?_
    simp
  · simp only [gaussianAcquisitionGrad, Surrogate.single, ok_bind, (hg hgr z).1, (hg hgr z).2, gaussianLcbGrad,
      List.map_map, Except.map_ok']
    congr 2
    · ring
    · refine List.map_congr_left fun v _ => ?_
      simp

theorem proposeOne_blind (hW : ReadsPredictions W V xi .inf mini) {m m' : M}
    (h : SameShape V m m') (cfg : Config)
    (hmin : cfg.lbfgs = true → V.gradients = true ∧ AffineMinimiser mini) (y y' : ℝ) (X : List (List (Val ℝ))) (rng : R) :
    proposeOne exact W cfg dims m' (.fin y') X rng .LCB
      = proposeOne exact W cfg dims m (.fin y) X rng .LCB := by
  obtain ⟨α, hα, hv, hg⟩ := acquisition_blind h y y' xi
  have hτ := affine_strictMono hα 0
  unfold proposeOne
  rw [hW.acquisition, hW.acquisition, hv X]
  cases gaussianAcquisition (.one (V.pred m X)) y .LCB xi .inf with
  | error e => rfl
  | ok vals =>
    simp only [Except.map_ok']
    have e1 : npArgmin (((vals.map fun v => α * v + 0)).map Flt.fin) = npArgmin (vals.map Flt.fin) := by
      rw [npArgmin_fin, npArgmin_fin]
      exact npArgmin_map hτ vals
    have e2 : W.argsort ((vals.map fun v => α * v + 0).map Flt.fin) = W.argsort (vals.map Flt.fin) := by
      rw [List.map_map]
      exact hW.argsort vals _ hτ
    rw [e1, e2]
    cases hlb : cfg.lbfgs with
    | false => rfl
    | true =>
      simp only [if_true]
      cases mapE (pyGet X) ((W.argsort (vals.map Flt.fin)).take cfg.nRestarts) with
      | error e => rfl
      | ok x0 =>
        simp only
        have hl : ∀ r x, mini r (fun z => gaussianAcquisitionGrad (.one (V.grad m' z)) y' .LCB xi .inf) x
            = ((mini r (fun z => gaussianAcquisitionGrad (.one (V.grad m z)) y .LCB xi .inf) x).1,
               (mini r (fun z => gaussianAcquisitionGrad (.one (V.grad m z)) y .LCB xi .inf) x).2.map
                 fun p => (p.1, α * p.2 + 0)) := by
          intro r x
          simp only [hg (hmin hlb).1]
          exact (hmin hlb).2 r _ x α 0 hα
        have hr : proposeOne.runAll W m' (.fin y') .LCB rng x0
            = proposeOne.runAll W m (.fin y) .LCB rng x0 := by
          obtain ⟨vs, f1, f2⟩ := minimizeAll_carried hW (hmin hlb).1 hl rng x0
          unfold proposeOne.runAll
          rw [f2]
          generalize proposeOne.minimizeAll W m (.fin y) .LCB rng x0 = q at f1 ⊢
          obtain ⟨r2, o2⟩ := q
          simp only at f1
          subst f1
          cases vs with
          | error e => rfl
          | ok vs =>
            simp only [Except.map_ok', List.map_map, Function.comp_def]
            have g1 : npArgmin (vs.map fun p => Flt.fin (α * p.2 + 0)) = npArgmin (vs.map fun p => Flt.fin p.2) := by
              have k1 := npArgmin_map (Flt.fin_strictMono.comp hτ) (vs.map Prod.snd)
              have k2 := npArgmin_map (Flt.fin_strictMono (F := ℝ)) (vs.map Prod.snd)
              rw [List.map_map] at k1 k2
              exact k1.trans k2.symm
            rw [g1]
            cases npArgmin (vs.map fun p => Flt.fin p.2) with
            | error e => rfl
            | ok i =>
              simp only [ok_bind, pyGet_map]
              cases pyGet vs i <;> rfl
        rw [hr]

/-- A state with other values and surrogates. -/
def Opt.with2 (s : Opt ℝ M R) (yi : List (YArg ℝ)) (ms : List M) : Opt ℝ M R :=
  { s with yi := yi, models := ms }

theorem fltMin_fin {ys : List ℝ} (hne : ys ≠ []) : ∃ y, fltMin (ys.map Flt.fin) = .ok (.fin y) := by
  obtain ⟨y, h, _⟩ := fltMin_convert (a := 1) one_pos 0 hne
  exact ⟨y, h⟩

theorem suggestEnd_blind (q : Opt ℝ M R × Except PyErr Unit) (yi : List (YArg ℝ)) (ms : List M) :
    suggestEnd W dims (q.1.with2 yi ms, q.2)
      = ((suggestEnd W dims q).1.with2 yi ms, (suggestEnd W dims q).2) := by
  obtain ⟨s, o⟩ := q
  cases o with
  | error e => rfl
  | ok u =>
    unfold suggestEnd
    simp only
    rw [show choose exact W (s.with2 yi ms) = choose exact W s from rfl]
    generalize choose exact W s = q2
    obtain ⟨rng2, row⟩ := q2
    simp only
    cases (row >>= fun r => Space.inverseTransform exact dims [r] >>= fun ps => pyGet ps 0) <;> rfl

theorem suggest_blind (hW : ReadsPredictions W V xi .inf mini) {m m' : M}
    (h : SameShape V m m') (s : Opt ℝ M R) (hs : Exploring V mini s.cfg)
    {ys ys' : List ℝ} (hys : s.yi = plainYs ys) (hne : ys ≠ []) (hne' : ys' ≠ []) (ms : List M) :
    suggest exact W dims m' (s.with2 (plainYs ys') ms)
      = ((suggest exact W dims m s).1.with2 (plainYs ys') ms, (suggest exact W dims m s).2) := by
  rw [suggest_eq, suggest_eq]
  rw [show (s.with2 (plainYs ys') ms).rng = s.rng from rfl, show (s.with2 (plainYs ys') ms).cfg = s.cfg from rfl]
  cases (Space.rvs exact dims (W.draws s.rng dims s.cfg.nPoints).2 >>= fun pts => Space.transform exact dims pts) with
  | error e => rfl
  | ok X =>
    simp only
    obtain ⟨y, y1⟩ := fltMin_fin hne
    obtain ⟨y', y2⟩ := fltMin_fin hne'
    have f1 : (flatNums s.yi >>= fun ys => fltMin ys) = .ok (.fin y) := by
      rw [hys, plainYs, flatNums_fin]
      exact y1
    have f2 : (flatNums (s.with2 (plainYs ys') ms).yi >>= fun ys => fltMin ys) = .ok (.fin y') := by
      show (flatNums (plainYs ys') >>= fun ys => fltMin ys) = _
      rw [plainYs, flatNums_fin]
      exact y2
    rw [f1, f2, hs.acq]
    simp only
    have e := proposeOne_blind (dims := dims) hW h s.cfg hs.mini y y' X (W.draws s.rng dims s.cfg.nPoints).1
    have e4 : proposeAll exact W dims m' (.fin y') X AcqFunc.LCB.candidates
        ({ s.with2 (plainYs ys') ms with
            cfg := s.cfg, rng := (W.draws s.rng dims s.cfg.nPoints).1, nextXs := some [] } : Opt ℝ M R)
        = ((proposeAll exact W dims m (.fin y) X AcqFunc.LCB.candidates
            { s with rng := (W.draws s.rng dims s.cfg.nPoints).1, nextXs := some [] }).1.with2 (plainYs ys') ms,
           (proposeAll exact W dims m (.fin y) X AcqFunc.LCB.candidates
            { s with rng := (W.draws s.rng dims s.cfg.nPoints).1, nextXs := some [] }).2) := by
      simp only [AcqFunc.candidates, proposeAll]
      rw [e]
      generalize proposeOne exact W s.cfg dims m (.fin y) X (W.draws s.rng dims s.cfg.nPoints).1 .LCB = q
      obtain ⟨r, o | o⟩ := q <;> rfl
    refine (congrArg (suggestEnd W dims) e4).trans ?_
    exact suggestEnd_blind _ _ _

/-- The two optimizers after the same calls: everything is the same but the values and the surrogates. -/
structure Blind (V : Views M) (s s' : Opt ℝ M R) : Prop where
  frame : s' = s.with2 s'.yi s'.models
  ys : ∃ ys ys' : List ℝ, s.yi = plainYs ys ∧ s'.yi = plainYs ys' ∧ ys'.length = ys.length
  models : List.Forall₂ (SameShape V) s.models s'.models
  start : s.yi = [] → s.models = []
  seqs : is2D s.Xi = true
  lens : s.Xi.length = s.yi.length

theorem Blind.cfg_eq {s s' : Opt ℝ M R} (h : Blind V s s') : s'.cfg = s.cfg := by
  rw [h.frame]; rfl

theorem Exploring.plain {cfg : Config} (h : Exploring V mini cfg) : cfg.acq.isPs = false := by rw [h.acq]; rfl

theorem plainYs_nil {ys : List ℝ} (h : plainYs ys = []) : ys = [] := List.map_eq_nil_iff.1 h

theorem plainYs_length (ys : List ℝ) : (plainYs ys).length = ys.length := by simp [plainYs]

theorem updateGains_lcb {s : Opt ℝ M R} (h : s.cfg.acq = .LCB) (m : M) :
    updateGains exact W s m = .ok s.gains := by
  unfold updateGains
  rw [h]

theorem refitEnd_blind (hW : ReadsPredictions W V xi .inf mini) {s s' : Opt ℝ M R}
    (hs : Exploring V mini s.cfg) (h : Blind V s s') (hne : s.yi ≠ []) {o o' : Except PyErr M}
    (ho : Alike (SameShape V) o o') :
    Blind V (refitEnd exact W dims s o).1 (refitEnd exact W dims s' o').1 ∧
      (refitEnd exact W dims s' o').2 = (refitEnd exact W dims s o).2 ∧
      (refitEnd exact W dims s o).1.cfg = s.cfg ∧ (refitEnd exact W dims s o).1.yi = s.yi ∧
      (refitEnd exact W dims s o).1.Xi = s.Xi := by
  cases ho with
  | error e => exact ⟨h, rfl, rfl, rfl, rfl⟩
  | @ok est est' hest =>
    obtain ⟨hfr, ⟨ys, ys', y1, y2, hl⟩, hm, hst, h2d, hlen⟩ := h
    rw [y2] at hfr
    generalize s'.models = ms' at hfr hm
    subst hfr
    have hys : ys ≠ [] := by
      rintro rfl
      exact hne y1
    have hys' : ys' ≠ [] := by
      rintro rfl
      exact hys (List.eq_nil_of_length_eq_zero hl.symm)
    unfold refitEnd
    simp only
    rw [updateGains_lcb hs.acq, updateGains_lcb (s := s.with2 (plainYs ys') ms') hs.acq]
    simp only
    have hpush := pushModel_carried s.cfg.queueSize hm hest
    rw [show (s.with2 (plainYs ys') ms').cfg = s.cfg from rfl, show (s.with2 (plainYs ys') ms').models = ms' from rfl]
    generalize pushModel s.cfg.queueSize s.models est = p at hpush ⊢
    generalize pushModel s.cfg.queueSize ms' est' = p' at hpush ⊢
    cases hpush with
    | error e =>
      exact ⟨⟨rfl, ⟨ys, ys', y1, rfl, hl⟩, hm, fun h0 => absurd h0 hne, h2d, hlen⟩, rfl, rfl, rfl, rfl⟩
    | @ok ms2 ms2' hms2 =>
      simp only
      have key := suggest_blind (dims := dims) hW hest { s with models := ms2 } hs y1 hys hys' ms2'
      obtain ⟨k1, k2, k3, k4, k5⟩ := suggest_keeps (W := W) (dims := dims) est { s with models := ms2 }
      have e1 : suggest exact W dims est' ({ s.with2 (plainYs ys') ms' with
            cfg := s.cfg, gains := s.gains, models := ms2' } : Opt ℝ M R) = _ := key
      have e2 : suggest exact W dims est' ({ s.with2 (plainYs ys') ms' with
            cfg := s.cfg, gains := (s.with2 (plainYs ys') ms').gains, models := ms2' } : Opt ℝ M R) = _ := key
      rw [e2]
      refine ⟨⟨rfl, ⟨ys, ys', k1.trans y1, rfl, hl⟩, ?_, ?_, ?_, ?_⟩, rfl, k5, k1, k4⟩
      · exact k2.symm ▸ hms2
      · intro h0; exact absurd (k1.symm.trans h0) hne
      · exact (congrArg is2D k4).trans h2d
      · exact (congrArg List.length k4).trans (hlen.trans (congrArg List.length k1).symm)

theorem Blind.with_rng {s s' : Opt ℝ M R} (h : Blind V s s') (r : R) :
    Blind V { s with rng := r } { s' with rng := r } := by
  obtain ⟨hfr, hy, hm, hst, h2d, hlen⟩ := h
  refine ⟨?_, hy, hm, hst, h2d, hlen⟩
  conv_lhs => rw [hfr]
  rfl

theorem Blind.with_cache {s s' : Opt ℝ M R} (h : Blind V s s') (k : Option ((Nat × Strategy) × List (Point ℝ))) :
    Blind V { s with cache := k } { s' with cache := k } := by
  obtain ⟨hfr, hy, hm, hst, h2d, hlen⟩ := h
  refine ⟨?_, hy, hm, hst, h2d, hlen⟩
  conv_lhs => rw [hfr]
  rfl

theorem Blind.with_next {s s' : Opt ℝ M R} (h : Blind V s s') (x : Option (Point ℝ)) :
    Blind V { s with nextX := x } { s' with nextX := x } := by
  obtain ⟨hfr, hy, hm, hst, h2d, hlen⟩ := h
  refine ⟨?_, hy, hm, hst, h2d, hlen⟩
  conv_lhs => rw [hfr]
  rfl

theorem Blind.with_rng_cache {s s' : Opt ℝ M R} (h : Blind V s s') (r : R)
    (k : Option ((Nat × Strategy) × List (Point ℝ))) :
    Blind V { s with rng := r, cache := k } { s' with rng := r, cache := k } :=
  (h.with_rng r).with_cache k

theorem Blind.with_cache_rng_next {s s' : Opt ℝ M R} (h : Blind V s s') (r : R)
    (k : Option ((Nat × Strategy) × List (Point ℝ))) (x : Option (Point ℝ)) :
    Blind V { s with cache := k, rng := r, nextX := x } { s' with cache := k, rng := r, nextX := x } :=
  ((h.with_rng r).with_cache k).with_next x

theorem refit_blind (hW : ReadsPredictions W V xi .inf mini) (hF : FitsBlind W V) {s s' : Opt ℝ M R}
    (hs : Exploring V mini s.cfg) (h : Blind V s s') :
    Blind V (refit exact W dims s).1 (refit exact W dims s').1 ∧
      (refit exact W dims s').2 = (refit exact W dims s).2 ∧
      (refit exact W dims s).1.cfg = s.cfg ∧ (refit exact W dims s).1.yi = s.yi ∧
      (refit exact W dims s).1.Xi = s.Xi := by
  have hx : s'.Xi = s.Xi := by rw [h.frame]; rfl
  have hr : s'.rng = s.rng := by rw [h.frame]; rfl
  have ht : Space.transform exact dims (s'.Xi.map Val.items) = Space.transform exact dims (s.Xi.map Val.items) := by
    rw [hx]
  rw [refit_eq, refit_eq, ht]
  cases Space.transform exact dims (s.Xi.map Val.items) with
  | error e => exact ⟨h, rfl, rfl, rfl, rfl⟩
  | ok Xt =>
    simp only
    obtain ⟨ys, ys', y1, y2, hl⟩ := h.ys
    have e1 : (W.fit s'.rng Xt s'.yi).1 = (W.fit s.rng Xt s.yi).1 := by
      rw [y1, y2, hr]; exact hF.rng s.rng Xt ys ys' hl
    rw [e1]
    by_cases hne : ys = []
    · subst hne
      have hne' : ys' = [] := List.eq_nil_of_length_eq_zero hl
      subst hne'
      obtain ⟨e, he⟩ := hF.empty s.rng Xt
      have e2 : (W.fit s.rng Xt s.yi).2 = .error e := by rw [y1]; exact he
      have e3 : (W.fit s'.rng Xt s'.yi).2 = .error e := by rw [y2, hr]; exact he
      rw [e2, e3]
      exact ⟨h.with_rng _, rfl, rfl, rfl, rfl⟩
    · have hfit : Alike (SameShape V) (W.fit s.rng Xt s.yi).2 (W.fit s'.rng Xt s'.yi).2 := by
        rw [y1, y2, hr]; exact hF.fit s.rng Xt ys ys' hl hne
      exact refitEnd_blind (dims := dims) hW (s := { s with rng := (W.fit s.rng Xt s.yi).1 }) hs (h.with_rng _)
        (by show s.yi ≠ []; rw [y1]; simpa [plainYs] using hne) hfit

/-- Results with the same evaluated points. -/
def SameIters (r r' : Result ℝ M) : Prop := r'.xIters = r.xIters ∧ r'.funcVals.length = r.funcVals.length

theorem createResult_plain (Xi : List (Val ℝ)) (ys : List ℝ) (ms : List M) (hl : Xi.length = ys.length) :
    (ys = [] ∧ createResult Xi (plainYs ys) ms = .error .valueError) ∨
      ∃ r : Result ℝ M, createResult Xi (plainYs ys) ms = .ok r ∧ r.xIters = Xi ∧ r.funcVals = ys.map Flt.fin := by
  unfold createResult plainYs
  rw [asColumns_of_nums]
  simp only [ok_bind]
  by_cases h : ys = []
  · subst h
    exact .inl ⟨rfl, rfl⟩
  · right
    obtain ⟨i, hi⟩ := npArgmin_ok (xs := ys.map Flt.fin) (by simpa using h)
    have hlt : i < ys.length := by
      have := (npArgmin_spec hi).1
      simpa using this
    rw [hi]
    simp only [ok_bind]
    have g1 : ∃ x, pyGet Xi i = .ok x := by
      unfold pyGet
      rw [List.getElem?_eq_getElem (by omega)]
      exact ⟨_, rfl⟩
    have g2 : ∃ x, pyGet (ys.map Flt.fin) i = .ok x := by
      unfold pyGet
      rw [List.getElem?_eq_getElem (by simpa using hlt)]
      exact ⟨_, rfl⟩
    obtain ⟨x, hx⟩ := g1
    obtain ⟨f, hf⟩ := g2
    rw [hx, hf]
    exact ⟨_, rfl, rfl, rfl⟩

theorem createResult_blind {s s' : Opt ℝ M R} (h : Blind V s s') :
    Alike SameIters (createResult s.Xi s.yi s.models) (createResult s'.Xi s'.yi s'.models) := by
  obtain ⟨ys, ys', y1, y2, hl⟩ := h.ys
  have hx : s'.Xi = s.Xi := by rw [h.frame]; rfl
  have hlen := h.lens
  rw [y1, plainYs_length] at hlen
  rw [hx, y1, y2]
  rcases createResult_plain s.Xi ys s.models hlen with ⟨h1, h2⟩ | ⟨r, h1, h2, h3⟩
  · rcases createResult_plain s.Xi ys' s'.models (hlen.trans hl.symm) with ⟨k1, k2⟩ | ⟨r', k1, k2, k3⟩
    · rw [h2, k2]
      exact .error _
    · exfalso
      subst h1
      have : ys' = [] := List.eq_nil_of_length_eq_zero hl
      subst this
      rw [show createResult s.Xi (plainYs []) s'.models = .error .valueError by
        unfold createResult plainYs; rw [asColumns_of_nums]; rfl] at k1
      cases k1
  · rcases createResult_plain s.Xi ys' s'.models (hlen.trans hl.symm) with ⟨k1, k2⟩ | ⟨r', k1, k2, k3⟩
    · exfalso
      subst k1
      have : ys = [] := List.eq_nil_of_length_eq_zero hl.symm
      subst this
      rw [show createResult s.Xi (plainYs []) s.models = .error .valueError by
        unfold createResult plainYs; rw [asColumns_of_nums]; rfl] at h1
      cases h1
    · rw [h1, k1]
      exact .ok ⟨k2.trans h2.symm, by rw [k3, h3]; simpa using hl⟩

theorem tellEnd_blind (hW : ReadsPredictions W V xi .inf mini) (hF : FitsBlind W V) {s s' : Opt ℝ M R}
    (hs : Exploring V mini s.cfg) (h : Blind V s s') (fit : Bool) :
    Blind V (tellEnd exact W dims s fit).1 (tellEnd exact W dims s' fit).1 ∧
      Alike SameIters (tellEnd exact W dims s fit).2 (tellEnd exact W dims s' fit).2 ∧
      (tellEnd exact W dims s fit).1.cfg = s.cfg ∧ (tellEnd exact W dims s fit).1.yi = s.yi := by
  have hn : s'.nInit = s.nInit := by rw [h.frame]; rfl
  unfold tellEnd
  rw [hn, h.cfg_eq]
  split
  · obtain ⟨r1, r2, r3, r4, r5⟩ := refit_blind (dims := dims) hW hF hs h
    rw [r2]
    cases (refit exact W dims s).2 with
    | error e => exact ⟨r1, .error e, r3, r4⟩
    | ok u => exact ⟨r1, createResult_blind r1, r3, r4⟩
  · exact ⟨h, createResult_blind h, rfl, rfl⟩

theorem Blind.single {s s' : Opt ℝ M R} (h : Blind V s s') (p : Point ℝ) (y y' : ℝ) :
    Blind V (record.single s p (.num (.fin y))) (record.single s' p (.num (.fin y'))) := by
  obtain ⟨hfr, ⟨ys, ys', y1, y2, hl⟩, hm, hst, h2d, hlen⟩ := h
  refine ⟨?_, ⟨ys ++ [y], ys' ++ [y'], ?_, ?_, ?_⟩, hm, ?_, ?_, ?_⟩
  · conv_lhs => rw [hfr]
    rfl
  · show s.yi ++ _ = _
    rw [y1]
    simp [plainYs]
  · show s'.yi ++ _ = _
    rw [y2]
    simp [plainYs]
  · simp [hl]
  · intro h0
    simp [record.single] at h0
  · show is2D (s.Xi ++ _) = true
    unfold is2D at h2d ⊢
    simp [List.all_append, h2d, Val.isSeq]
  · simp [record.single, hlen]

theorem Blind.batch {s s' : Opt ℝ M R} (h : Blind V s s') {xs : List (Val ℝ)} (hx : is2D xs = true)
    {ys ys' : List ℝ} (hl : xs.length = ys.length) (hl' : ys'.length = ys.length) :
    Blind V (record.batch s xs (plainYs ys)) (record.batch s' xs (plainYs ys')) := by
  obtain ⟨hfr, ⟨zs, zs', y1, y2, hz⟩, hm, hst, h2d, hlen⟩ := h
  refine ⟨?_, ⟨zs ++ ys, zs' ++ ys', ?_, ?_, ?_⟩, hm, ?_, ?_, ?_⟩
  · conv_lhs => rw [hfr]
    simp [record.batch, Opt.with2, plainYs, hl']
  · show s.yi ++ _ = _
    rw [y1]
    simp [plainYs]
  · show s'.yi ++ _ = _
    rw [y2]
    simp [plainYs]
  · simp [hz, hl']
  · intro h0
    have : s.yi = [] := (List.append_eq_nil_iff.1 h0).1
    exact hst this
  · show is2D (s.Xi ++ _) = true
    unfold is2D at h2d hx ⊢
    rw [List.all_append, h2d, hx]
    rfl
  · simp [record.batch, hlen, hl, plainYs]

/-- With nothing told so far, the two optimizers are the same. -/
theorem Blind.same {s s' : Opt ℝ M R} (h : Blind V s s') (h0 : s.yi = []) : s' = s := by
  obtain ⟨hfr, ⟨ys, ys', y1, y2, hl⟩, hm, hst, h2d, hlen⟩ := h
  have hys : ys = [] := plainYs_nil (y1.symm.trans h0)
  subst hys
  have hys' : ys' = [] := List.eq_nil_of_length_eq_zero hl
  subst hys'
  have m0 := hst h0
  rw [m0] at hm
  have m0' : s'.models = [] := by
    cases hm' : s'.models with
    | nil => rfl
    | cons x xs => rw [hm'] at hm; cases hm
  rw [hfr, y2, m0']
  unfold Opt.with2
  rw [← y1, ← m0]

theorem tellCore_one_blind (hW : ReadsPredictions W V xi .inf mini) (hF : FitsBlind W V) {s s' : Opt ℝ M R}
    (hs : Exploring V mini s.cfg) (h : Blind V s s') (p : Point ℝ) (y y' : ℝ) (fit : Bool) :
    Blind V (tellCore exact W dims s (.lst p) (.num (.fin y)) fit).1
        (tellCore exact W dims s' (.lst p) (.num (.fin y')) fit).1 ∧
      Alike SameIters (tellCore exact W dims s (.lst p) (.num (.fin y)) fit).2
        (tellCore exact W dims s' (.lst p) (.num (.fin y')) fit).2 ∧
      (tellCore exact W dims s (.lst p) (.num (.fin y)) fit).1.cfg = s.cfg ∧
      (tellCore exact W dims s (.lst p) (.num (.fin y)) fit).1.yi ≠ [] := by
  have hps' : s'.cfg.acq.isPs = false := by rw [h.cfg_eq]; exact hs.plain
  rw [tellCore_eq, tellCore_eq, record_number hs.plain, record_number hps']
  simp only
  obtain ⟨t1, t2, t3, t4⟩ := tellEnd_blind (dims := dims) hW hF (s := record.single s p (.num (.fin y))) hs
    (h.single p y y') fit
  refine ⟨t1, t2, t3, ?_⟩
  rw [t4]
  simp [record.single]

theorem tellCore_batch_blind (hW : ReadsPredictions W V xi .inf mini) (hF : FitsBlind W V) {s s' : Opt ℝ M R}
    (hs : Exploring V mini s.cfg) (h : Blind V s s') {xs : List (Val ℝ)} (hx : is2D xs = true)
    {ys ys' : List ℝ} (hl : xs.length = ys.length) (hl' : ys'.length = ys.length) (fit : Bool) :
    Blind V (tellCore exact W dims s (.lst xs) (.seq (plainYs ys)) fit).1
        (tellCore exact W dims s' (.lst xs) (.seq (plainYs ys')) fit).1 ∧
      Alike SameIters (tellCore exact W dims s (.lst xs) (.seq (plainYs ys)) fit).2
        (tellCore exact W dims s' (.lst xs) (.seq (plainYs ys')) fit).2 ∧
      (tellCore exact W dims s (.lst xs) (.seq (plainYs ys)) fit).1.cfg = s.cfg := by
  have hps' : s'.cfg.acq.isPs = false := by rw [h.cfg_eq]; exact hs.plain
  rw [tellCore_eq, tellCore_eq, record_batch hs.plain hx, record_batch hps' hx]
  simp only
  obtain ⟨t1, t2, t3, t4⟩ := tellEnd_blind (dims := dims) hW hF (s := record.batch s xs (plainYs ys)) hs
    (h.batch hx hl hl') fit
  exact ⟨t1, t2, t3⟩

theorem askOne_blind {s s' : Opt ℝ M R} (h : Blind V s s') :
    Blind V (askOne exact W dims s).1 (askOne exact W dims s').1 ∧
      (askOne exact W dims s').2 = (askOne exact W dims s).2 ∧
      (askOne exact W dims s).1.cfg = s.cfg ∧ (askOne exact W dims s).1.yi = s.yi := by
  have h' := h
  obtain ⟨hfr, hy, hm, hst, h2d, hlen⟩ := h
  have hmod : s'.models.isEmpty = s.models.isEmpty := by
    revert hm
    generalize s.models = l
    generalize s'.models = l'
    intro hm
    cases hm <;> rfl
  have e1 : s'.nInit = s.nInit := by rw [hfr]; rfl
  have e2 : s'.cfg = s.cfg := by rw [hfr]; rfl
  have e3 : s'.initialSamples = s.initialSamples := by rw [hfr]; rfl
  have e4 : s'.rng = s.rng := by rw [hfr]; rfl
  have e5 : s'.nextX = s.nextX := by rw [hfr]; rfl
  have e6 : s'.Xi = s.Xi := by rw [hfr]; rfl
  by_cases hi : 0 < s.nInit ∨ s.cfg.hasEst = false
  · have hi' : 0 < s'.nInit ∨ s'.cfg.hasEst = false := by rw [e1, e2]; exact hi
    cases hsm : s.initialSamples with
    | none =>
      have q : ∀ t : Opt ℝ M R, (0 < t.nInit ∨ t.cfg.hasEst = false) → t.initialSamples = none →
          askOne exact W dims t = ({ t with rng := (W.draws t.rng dims 1).1 }, do
            let pts ← Space.rvs exact dims (W.draws t.rng dims 1).2; pyGet pts 0) := by
        intro t ht hn
        simp only [askOne, if_pos ht, hn]
      rw [q s hi hsm, q s' hi' (e3.trans hsm)]
      have e7 : W.draws s'.rng dims 1 = W.draws s.rng dims 1 := by rw [e4]
      rw [e7]
      exact ⟨h'.with_rng _, rfl, rfl, rfl⟩
    | some pts =>
      have q1 : askOne exact W dims s = (s, pyGetI pts (pts.length - s.nInit)) := by
        simp only [askOne, if_pos hi, hsm]
      have q2 : askOne exact W dims s' = (s', pyGetI pts (pts.length - s.nInit)) := by
        simp only [askOne, if_pos hi', e3.trans hsm]
        rw [e1]
      rw [q1, q2]
      exact ⟨h', rfl, rfl, rfl⟩
  · have hi' : ¬ (0 < s'.nInit ∨ s'.cfg.hasEst = false) := by rw [e1, e2]; exact hi
    have q : ∀ t : Opt ℝ M R, ¬ (0 < t.nInit ∨ t.cfg.hasEst = false) → askOne exact W dims t = (t,
        if t.models.isEmpty then .error .runtimeError else match t.nextX with
          | none => .error .attributeError
          | some x => do
            let ds ← mapE (fun xi : Val ℝ => Space.distance exact dims x xi.items) t.Xi
            if ds.isEmpty then .error .valueError else .ok x) := by
      intro t ht
      simp only [askOne, if_neg ht]
      split
      · rfl
      · cases t.nextX <;> rfl
    rw [q s hi, q s' hi', hmod, e5, e6]
    exact ⟨h', rfl, rfl, rfl⟩

theorem lie_fin {acq : AcqFunc} (hps : acq.isPs = false) (strat : Strategy) {ys : List ℝ} (hne : ys ≠ []) :
    ∃ y : ℝ, lie exact W acq strat (plainYs ys) = .ok (.num (.fin y)) := by
  obtain ⟨y, h, _⟩ := lie_convert (W := W) (a := 1) (c := 0) one_pos hps strat hne
  exact ⟨y, h⟩

theorem liarLoop_blind (hW : ReadsPredictions W V xi .inf mini) (hF : FitsBlind W V) (strat : Strategy)
    (n : Nat) {o o' : Opt ℝ M R} (hs : Exploring V mini o.cfg) (h : Blind V o o') :
    (liarLoop exact W dims strat n o').2 = (liarLoop exact W dims strat n o).2 := by
  by_cases h0 : o.yi = []
  · rw [h.same h0]
  induction n generalizing o o' with
  | zero => rfl
  | succ n ih =>
    obtain ⟨a1, a2, a3, a4⟩ := askOne_blind (W := W) (dims := dims) h
    simp only [liarLoop]
    generalize askOne exact W dims o = q at a1 a2 a3 a4 ⊢
    generalize askOne exact W dims o' = q' at a1 a2 ⊢
    obtain ⟨o2, r⟩ := q
    obtain ⟨o2', r'⟩ := q'
    simp only at a1 a2 a3 a4
    subst a2
    cases r' with
    | error e => rfl
    | ok x =>
      simp only
      obtain ⟨ys, ys', y1, y2, hl⟩ := a1.ys
      have hys : ys ≠ [] := by
        rintro rfl
        exact h0 (a4.symm.trans y1)
      have hys' : ys' ≠ [] := by
        rintro rfl
        exact hys (List.eq_nil_of_length_eq_zero hl.symm)
      have hps : o2.cfg.acq.isPs = false := by rw [a3]; exact hs.plain
      rw [a1.cfg_eq, y1, y2]
      obtain ⟨l, l1⟩ := lie_fin (W := W) hps strat hys
      obtain ⟨l', l2⟩ := lie_fin (W := W) hps strat hys'
      rw [l1, l2]
      simp only
      obtain ⟨t1, t2, t3, t4⟩ := tellCore_one_blind (dims := dims) hW hF (by rw [a3]; exact hs) a1 x l l' true
      generalize tellCore exact W dims o2 (.lst x) (.num (.fin l)) true = q at t1 t2 t3 t4 ⊢
      generalize tellCore exact W dims o2' (.lst x) (.num (.fin l')) true = q' at t1 t2 ⊢
      obtain ⟨o3, r3⟩ := q
      obtain ⟨o3', r3'⟩ := q'
      simp only at t1 t2 t3 t4
      cases t2 with
      | error e => rfl
      | ok hr =>
        simp only
        have := ih (by rw [t3, a3]; exact hs) t1 t4
        generalize liarLoop exact W dims strat n o3 = q at this ⊢
        generalize liarLoop exact W dims strat n o3' = q' at this ⊢
        obtain ⟨o4, r4⟩ := q
        obtain ⟨o4', r4'⟩ := q'
        simp only at this
        subst this
        cases r4' <;> rfl

theorem copy_blind (hW : ReadsPredictions W V xi .inf mini) (hF : FitsBlind W V) (sh : Shared ℝ G)
    {s s' : Opt ℝ M R} (hs : Exploring V mini s.cfg) (h : Blind V s s') (rng : R) :
    (Opt.copy exact W sh s' rng).1 = (Opt.copy exact W sh s rng).1 ∧
      Alike (fun o o' => Blind V o o' ∧ o.cfg = { s.cfg with queueSize := none })
        (Opt.copy exact W sh s rng).2 (Opt.copy exact W sh s' rng).2 := by
  rw [copy_eq, copy_eq, h.cfg_eq]
  rcases hi : (Opt.init exact W sh { s.cfg with queueSize := none } rng : Shared ℝ G × Except PyErr (Opt ℝ M R))
    with ⟨sh2, e | o⟩
  · exact ⟨rfl, .error e⟩
  · simp only []
    obtain ⟨r, pts, rfl⟩ := init_isFresh exact W sh _ rng hi
    have hx : s'.Xi = s.Xi := by rw [h.frame]; rfl
    have hini : s'.initialSamples = s.initialSamples := by rw [h.frame]; rfl
    have hgains : s'.gains = s.gains := by rw [h.frame]; rfl
    rw [hx]
    by_cases h0 : s.yi = []
    · have hX : s.Xi = [] := List.eq_nil_of_length_eq_zero (by rw [h.lens, h0]; rfl)
      rw [h.same h0, hX]
      rw [if_pos (by rfl)]
      exact ⟨rfl, .ok ⟨⟨rfl, ⟨[], [], rfl, rfl, rfl⟩, .nil, fun _ => rfl, rfl, rfl⟩, rfl⟩⟩
    · have hX : s.Xi.isEmpty = false := by
        cases hXi : s.Xi with
        | cons _ _ => rfl
        | nil =>
          have := h.lens
          rw [hXi] at this
          exact absurd (List.eq_nil_of_length_eq_zero this.symm) h0
      rw [hX]
      simp only [Bool.false_eq_true, if_false]
      obtain ⟨ys, ys', y1, y2, hl⟩ := h.ys
      rw [tellCore_eq, tellCore_eq, record_batch (by exact hs.plain) h.seqs, record_batch (by exact hs.plain) h.seqs]
      simp only
      have hmoved : Blind V
          (record.batch (copyBase s (Opt.fresh exact { s.cfg with queueSize := none } r pts)) s.Xi s.yi)
          (record.batch (copyBase s' (Opt.fresh exact { s.cfg with queueSize := none } r pts)) s.Xi s'.yi) := by
        refine ⟨?_, ⟨ys, ys', y1, y2, hl⟩, .nil, ?_, h.seqs, h.lens⟩
        · have hl : s'.yi.length = s.yi.length := by rw [y1, y2]; simpa [plainYs] using hl
          unfold record.batch Opt.with2 copyBase
          rw [hl, hini, hgains]
        · intro hh; exact absurd hh h0
      obtain ⟨t1, t2, t3, t4⟩ := tellEnd_blind (dims := sh2.dims) hW hF (by exact ⟨hs.acq, hs.mini⟩) hmoved true
      generalize tellEnd exact W sh2.dims (record.batch (copyBase s _) s.Xi s.yi) true = q at t1 t2 t3 t4 ⊢
      generalize tellEnd exact W sh2.dims (record.batch (copyBase s' _) s.Xi s'.yi) true = q' at t1 t2 ⊢
      obtain ⟨o3, r3⟩ := q
      obtain ⟨o3', r3'⟩ := q'
      simp only at t1 t2 t3 t4
      cases t2 with
      | error e => exact ⟨rfl, .error e⟩
      | ok _ => exact ⟨rfl, .ok ⟨t1, t3⟩⟩

theorem askMany_blind (hW : ReadsPredictions W V xi .inf mini) (hF : FitsBlind W V) (sh : Shared ℝ G)
    {s s' : Opt ℝ M R} (hs : Exploring V mini s.cfg) (h : Blind V s s') (n : ℤ) (strat : Strategy) :
    (askMany exact W sh s' n strat).1 = (askMany exact W sh s n strat).1 ∧
      Blind V (askMany exact W sh s n strat).2.1 (askMany exact W sh s' n strat).2.1 ∧
      (askMany exact W sh s' n strat).2.2 = (askMany exact W sh s n strat).2.2 ∧
      (askMany exact W sh s n strat).2.1.cfg = s.cfg := by
  have hr : s'.rng = s.rng := by rw [h.frame]; rfl
  have hca : askMany.cached s' n.toNat strat = askMany.cached s n.toNat strat := by
    rw [h.frame]; rfl
  unfold askMany
  split
  · exact ⟨rfl, h, rfl, rfl⟩
  · split
    · exact ⟨rfl, h, rfl, rfl⟩
    · rw [hca]
      cases askMany.cached s n.toNat strat with
      | some X => exact ⟨rfl, h, rfl, rfl⟩
      | none =>
        simp only
        rw [hr]
        have key := copy_blind hW hF sh (s := { s with rng := (W.seed s.rng).1 }) hs (h.with_rng (W.seed s.rng).1)
          (W.seed s.rng).2
        generalize Opt.copy exact W sh { s with rng := (W.seed s.rng).1 } (W.seed s.rng).2 = q at key ⊢
        generalize Opt.copy exact W sh { s' with rng := (W.seed s.rng).1 } (W.seed s.rng).2 = q' at key ⊢
        obtain ⟨sh2, o⟩ := q
        obtain ⟨sh2', o'⟩ := q'
        obtain ⟨k1, k2⟩ := key
        simp only at k1 k2
        subst k1
        cases k2 with
        | error e => exact ⟨rfl, h.with_rng _, rfl, rfl⟩
        | @ok o o' ho =>
          simp only
          have hl := liarLoop_blind (dims := sh2'.dims) hW hF strat n.toNat (by
            rw [ho.2]; exact ⟨hs.acq, hs.mini⟩) ho.1
          generalize liarLoop exact W sh2'.dims strat n.toNat o = q at hl ⊢
          generalize liarLoop exact W sh2'.dims strat n.toNat o' = q' at hl ⊢
          obtain ⟨o4, r4⟩ := q
          obtain ⟨o4', r4'⟩ := q'
          simp only at hl
          subst hl
          cases r4' with
          | error e => exact ⟨rfl, h.with_rng _, rfl, rfl⟩
          | ok X => exact ⟨rfl, h.with_rng_cache _ _, rfl, rfl⟩

theorem updateNext_blind (hW : ReadsPredictions W V xi .inf mini) (hF : FitsBlind W V) (sh : Shared ℝ G)
    {s s' : Opt ℝ M R} (hs : Exploring V mini s.cfg) (h : Blind V s s') :
    (updateNext exact W sh s').1 = (updateNext exact W sh s).1 ∧
      Blind V (updateNext exact W sh s).2.1 (updateNext exact W sh s').2.1 ∧
      (updateNext exact W sh s').2.2 = (updateNext exact W sh s).2.2 ∧
      (updateNext exact W sh s).2.1.cfg = s.cfg := by
  have hr : s'.rng = s.rng := by rw [h.frame]; rfl
  have hn : s'.nextX = s.nextX := by rw [h.frame]; rfl
  have hc := h.with_cache none
  have key := copy_blind hW hF sh (s := { s with cache := none }) hs hc s.rng
  cases hx : s.nextX with
  | none =>
    rw [updateNext_none exact W sh hx, updateNext_none exact W sh (hn.trans hx)]
    exact ⟨rfl, hc, rfl, rfl⟩
  | some x =>
    rw [updateNext_some exact W sh hx, updateNext_some exact W sh (hn.trans hx), hr]
    generalize Opt.copy exact W sh { s with cache := none } s.rng = q at key ⊢
    rw [show Opt.copy exact W sh { s' with cache := none, rng := s.rng } s.rng
      = Opt.copy exact W sh { s' with cache := none } s.rng by rw [← hr]]
    generalize Opt.copy exact W sh { s' with cache := none } s.rng = q' at key ⊢
    obtain ⟨sh2, o⟩ := q
    obtain ⟨sh2', o'⟩ := q'
    obtain ⟨k1, k2⟩ := key
    simp only at k1 k2
    subst k1
    cases k2 with
    | error e => exact ⟨rfl, h.with_rng_cache s.rng none, rfl, rfl⟩
    | @ok o o' ho =>
      simp only
      have h1 : o'.nextX = o.nextX := by rw [ho.1.frame]; rfl
      have h2 : o'.rng = o.rng := by rw [ho.1.frame]; rfl
      rw [h1, h2]
      cases o.nextX with
      | none => exact ⟨rfl, h.with_rng_cache _ _, rfl, rfl⟩
      | some x => exact ⟨rfl, h.with_cache_rng_next _ _ _, rfl, rfl⟩

theorem tell_one_blind (hW : ReadsPredictions W V xi .inf mini) (hF : FitsBlind W V) {s s' : Opt ℝ M R}
    (hs : Exploring V mini s.cfg) (h : Blind V s s') (p : Point ℝ) (y y' : ℝ) (fit : Bool) :
    Blind V (tell exact W dims s (.lst p) (.num (.fin y)) fit).1
        (tell exact W dims s' (.lst p) (.num (.fin y')) fit).1 ∧
      Alike SameIters (tell exact W dims s (.lst p) (.num (.fin y)) fit).2
        (tell exact W dims s' (.lst p) (.num (.fin y')) fit).2 ∧
      (tell exact W dims s (.lst p) (.num (.fin y)) fit).1.cfg = s.cfg := by
  have hps' : s'.cfg.acq.isPs = false := by rw [h.cfg_eq]; exact hs.plain
  rw [tell_eq_of_plain hs.plain, tell_eq_of_plain hps', h.cfg_eq, checkY_number _ _ y' y]
  cases (checkX dims (.lst p) >>= fun _ => checkY s.cfg.acq (.lst p) (.num (.fin y))) with
  | error e => exact ⟨h, .error e, rfl⟩
  | ok u =>
    obtain ⟨t1, t2, t3, _⟩ := tellCore_one_blind (dims := dims) hW hF hs h p y y' fit
    exact ⟨t1, t2, t3⟩

theorem tell_batch_blind (hW : ReadsPredictions W V xi .inf mini) (hF : FitsBlind W V) {s s' : Opt ℝ M R}
    (hs : Exploring V mini s.cfg) (h : Blind V s s') {xs : List (Val ℝ)} (hx : is2D xs = true)
    {ys ys' : List ℝ} (hl : xs.length = ys.length) (hl' : ys'.length = ys.length) (fit : Bool) :
    Blind V (tell exact W dims s (.lst xs) (.seq (plainYs ys)) fit).1
        (tell exact W dims s' (.lst xs) (.seq (plainYs ys')) fit).1 ∧
      Alike SameIters (tell exact W dims s (.lst xs) (.seq (plainYs ys)) fit).2
        (tell exact W dims s' (.lst xs) (.seq (plainYs ys')) fit).2 ∧
      (tell exact W dims s (.lst xs) (.seq (plainYs ys)) fit).1.cfg = s.cfg := by
  have hps' : s'.cfg.acq.isPs = false := by rw [h.cfg_eq]; exact hs.plain
  rw [tell_eq_of_plain hs.plain, tell_eq_of_plain hps', h.cfg_eq, checkY_batch hs.plain _ ys' ys]
  cases (checkX dims (.lst xs) >>= fun _ => checkY s.cfg.acq (.lst xs) (.seq (plainYs ys))) with
  | error e => exact ⟨h, .error e, rfl⟩
  | ok u => exact tellCore_batch_blind (dims := dims) hW hF hs h hx hl hl' fit

theorem sameObs_split {obs obs' : List (Point ℝ × YArg ℝ)} (h : List.Forall₂ SameObs obs obs') :
    ∃ ys ys' : List ℝ, obs.map Prod.snd = plainYs ys ∧ obs'.map Prod.snd = plainYs ys' ∧ ys'.length = ys.length ∧
      obs'.map (fun o => (.seq o.1 : Val ℝ)) = obs.map (fun o => (.seq o.1 : Val ℝ)) := by
  induction h with
  | nil => exact ⟨[], [], rfl, rfl, rfl, rfl⟩
  | @cons o o' obs obs' h1 _ ih =>
    obtain ⟨ys, ys', y1, y2, hl, hx⟩ := ih
    obtain ⟨hp, v, v', hv, hv'⟩ := h1
    refine ⟨v :: ys, v' :: ys', ?_, ?_, ?_, ?_⟩
    · rw [List.map_cons, y1, hv]; rfl
    · rw [List.map_cons, y2, hv']; rfl
    · simp [hl]
    · rw [List.map_cons, List.map_cons, hx, hp]

theorem step_blind (hW : ReadsPredictions W V xi .inf mini) (hF : FitsBlind W V) (sh : Shared ℝ G)
    {s s' : Opt ℝ M R} (hs : Exploring V mini s.cfg) (h : Blind V s s') {call call' : Call ℝ}
    (hcall : SameCall call call') :
    (step exact W sh s' call'.toOp).1 = (step exact W sh s call.toOp).1 ∧
      Blind V (step exact W sh s call.toOp).2.1 (step exact W sh s' call'.toOp).2.1 ∧
      Alike SamePoints (step exact W sh s call.toOp).2.2 (step exact W sh s' call'.toOp).2.2 ∧
      (step exact W sh s call.toOp).2.1.cfg = s.cfg := by
  have told : ∀ (x : XArg ℝ) (y y' : YArg ℝ) (fit : Bool),
      (Blind V (tell exact W sh.dims s x y fit).1 (tell exact W sh.dims s' x y' fit).1 ∧
        Alike SameIters (tell exact W sh.dims s x y fit).2 (tell exact W sh.dims s' x y' fit).2 ∧
        (tell exact W sh.dims s x y fit).1.cfg = s.cfg) →
      (step exact W sh s' (.tell x y' fit)).1 = (step exact W sh s (.tell x y fit)).1 ∧
      Blind V (step exact W sh s (.tell x y fit)).2.1 (step exact W sh s' (.tell x y' fit)).2.1 ∧
      Alike SamePoints (step exact W sh s (.tell x y fit)).2.2
        (step exact W sh s' (.tell x y' fit)).2.2 ∧
      (step exact W sh s (.tell x y fit)).2.1.cfg = s.cfg := by
    intro x y y' fit ht
    simp only [step]
    generalize tell exact W sh.dims s x y fit = q at ht ⊢
    generalize tell exact W sh.dims s' x y' fit = q' at ht ⊢
    obtain ⟨s2, r⟩ := q
    obtain ⟨s2', r'⟩ := q'
    obtain ⟨h1, h2, h3⟩ := ht
    simp only at h1 h2 h3
    cases h2 with
    | error e => exact ⟨by trivial, h1, .error e, h3⟩
    | ok hr => exact ⟨by trivial, h1, .ok (.result hr.1 hr.2), h3⟩
  cases hcall with
  | one p v v' fit => exact told (.lst p) _ _ fit (tell_one_blind hW hF hs h p v v' fit)
  | @batch obs obs' hobs fit =>
    obtain ⟨ys, ys', y1, y2, hl, hpts⟩ := sameObs_split hobs
    simp only [Call.toOp]
    rw [hpts, y1, y2]
    refine told _ (.seq (plainYs ys)) (.seq (plainYs ys')) fit ?_
    have h2d : is2D (obs.map fun o => (.seq o.1 : Val ℝ)) = true := by
      simp [is2D, Val.isSeq]
    have hl' : (obs.map fun o => (.seq o.1 : Val ℝ)).length = ys.length := by
      have := congrArg List.length y1
      simpa [plainYs] using this
    exact tell_batch_blind hW hF hs h h2d hl' hl fit
  | ask =>
    obtain ⟨a1, a2, a3, a4⟩ := askOne_blind (W := W) (dims := sh.dims) h
    simp only [Call.toOp, step]
    generalize askOne exact W sh.dims s = q at a1 a2 a3 a4 ⊢
    generalize askOne exact W sh.dims s' = q' at a1 a2 ⊢
    obtain ⟨o2, r⟩ := q
    obtain ⟨o2', r'⟩ := q'
    simp only at a1 a2 a3 a4
    subst a2
    cases r' with
    | error e => exact ⟨by trivial, a1, .error e, a3⟩
    | ok p => exact ⟨by trivial, a1, .ok (.point p), a3⟩
  | askMany n strat =>
    obtain ⟨a1, a2, a3, a4⟩ := askMany_blind hW hF sh hs h n strat
    simp only [Call.toOp, step]
    generalize askMany exact W sh s n strat = q at a1 a2 a3 a4 ⊢
    generalize askMany exact W sh s' n strat = q' at a1 a2 a3 ⊢
    obtain ⟨sh2, o2, r⟩ := q
    obtain ⟨sh2', o2', r'⟩ := q'
    simp only at a1 a2 a3 a4
    subst a1 a3
    cases r' with
    | error e => exact ⟨rfl, a2, .error e, a4⟩
    | ok p => exact ⟨rfl, a2, .ok (.points p), a4⟩
  | updateNext =>
    obtain ⟨a1, a2, a3, a4⟩ := updateNext_blind hW hF sh hs h
    simp only [Call.toOp, step]
    generalize updateNext exact W sh s = q at a1 a2 a3 a4 ⊢
    generalize updateNext exact W sh s' = q' at a1 a2 a3 ⊢
    obtain ⟨sh2, o2, r⟩ := q
    obtain ⟨sh2', o2', r'⟩ := q'
    simp only at a1 a2 a3 a4
    subst a1 a3
    cases r' with
    | error e => exact ⟨rfl, a2, .error e, a4⟩
    | ok p => exact ⟨rfl, a2, .ok .none, a4⟩
  | getResult =>
    simp only [Call.toOp, step, getResult]
    have := createResult_blind h
    generalize createResult s.Xi s.yi s.models = q at this ⊢
    generalize createResult s'.Xi s'.yi s'.models = q' at this ⊢
    cases this with
    | error e => exact ⟨by trivial, h, .error e, by trivial⟩
    | ok hr => exact ⟨by trivial, h, .ok (.result hr.1 hr.2), by trivial⟩

theorem runOps_blind (hW : ReadsPredictions W V xi .inf mini) (hF : FitsBlind W V) {calls calls' : List (Call ℝ)}
    (hcalls : List.Forall₂ SameCall calls calls') (sh : Shared ℝ G) {s s' : Opt ℝ M R} (hs : Exploring V mini s.cfg)
    (h : Blind V s s') :
    List.Forall₂ (Alike SamePoints) (runOps exact W sh s (calls.map Call.toOp)).2.2
      (runOps exact W sh s' (calls'.map Call.toOp)).2.2 := by
  induction hcalls generalizing sh s s' with
  | nil => exact .nil
  | @cons call call' calls calls' hc _ ih =>
    obtain ⟨a1, a2, a3, a4⟩ := step_blind hW hF sh hs h hc
    simp only [List.map_cons, runOps]
    generalize step exact W sh s call.toOp = q at a1 a2 a3 a4 ⊢
    generalize step exact W sh s' call'.toOp = q' at a1 a2 a3 ⊢
    obtain ⟨sh2, o2, r⟩ := q
    obtain ⟨sh2', o2', r'⟩ := q'
    simp only at a1 a2 a3 a4
    subst a1
    exact .cons a3 (ih sh2' (by rw [a4]; exact hs) a2)

theorem fresh_blind (cfg : Config) (r : R) (pts : Option (List (Point ℝ))) :
    Blind V (Opt.fresh exact cfg r pts : Opt ℝ M R) (Opt.fresh exact cfg r pts) :=
  ⟨rfl, ⟨[], [], rfl, rfl, rfl⟩, .nil, fun _ => rfl, rfl, rfl⟩

/-! ### Whole runs -/

theorem minimizeLoop_blind (hW : ReadsPredictions W V xi .inf mini) (hF : FitsBlind W V) (func func' : Objective ℝ)
    (hf : ∀ done p, ∃ v : ℝ, func done p = .ok (.num (.fin v))) (hf' : ∀ done p, ∃ v : ℝ, func' done p = .ok (.num (.fin v)))
    {cbs cbs' : List (Callback ℝ M)} (hc : ∀ c ∈ cbs, ∀ h, c h = .ok none) (hc' : ∀ c ∈ cbs', ∀ h, c h = .ok none)
    (n : Nat) (done : List (Val ℝ)) (hist hist' : List (Result ℝ M)) {s s' : Opt ℝ M R} (hs : Exploring V mini s.cfg)
    (h : Blind V s s') {last last' : Option (Result ℝ M)}
    (hl : Option.Rel SameIters last last') :
    evalsOf (minimizeLoop exact W dims func' cbs' n done hist' s' last').1
        = evalsOf (minimizeLoop exact W dims func cbs n done hist s last).1 ∧
      Alike (Option.Rel SameIters) (minimizeLoop exact W dims func cbs n done hist s last).2
        (minimizeLoop exact W dims func' cbs' n done hist' s' last').2 := by
  have cb : ∀ (hist : List (Result ℝ M)) (r : Result ℝ M) (cs : List (Callback ℝ M)) (i : Nat),
      (∀ c ∈ cs, ∀ h, c h = .ok none) → ∃ t, evalCallbacks hist r cs i false = (t, .ok false) ∧ evalsOf t = [] := by
    intro hist r cs
    induction cs with
    | nil => exact fun i _ => ⟨[], rfl, rfl⟩
    | cons c cs ih =>
      intro i h
      obtain ⟨t, e1, e2⟩ := ih (i + 1) fun c hc => h c (List.mem_cons_of_mem _ hc)
      refine ⟨.call i r (.ok none) :: t, ?_, ?_⟩
      · simp only [evalCallbacks, h c List.mem_cons_self, Option.getD_none, Bool.or_false, e1]
      · simpa [evalsOf] using e2
  induction n generalizing done hist hist' s s' last last' with
  | zero => exact ⟨rfl, .ok hl⟩
  | succ n ih =>
    obtain ⟨a1, a2, a3, a4⟩ := askOne_blind (W := W) (dims := dims) h
    simp only [minimizeLoop]
    generalize askOne exact W dims s = q at a1 a2 a3 a4 ⊢
    generalize askOne exact W dims s' = q' at a1 a2 ⊢
    obtain ⟨o2, r⟩ := q
    obtain ⟨o2', r'⟩ := q'
    simp only at a1 a2 a3 a4
    subst a2
    cases r' with
    | error e => exact ⟨rfl, .error e⟩
    | ok x =>
      obtain ⟨v, hv⟩ := hf done (.seq x)
      obtain ⟨v', hv'⟩ := hf' done (.seq x)
      simp only [hv, hv']
      have a3' : Exploring V mini o2.cfg := by rw [a3]; exact hs
      obtain ⟨t1, t2, t3⟩ := tell_one_blind (dims := dims) hW hF a3' a1 x v v' true
      generalize tell exact W dims o2 (.lst x) (.num (.fin v)) true = q at t1 t2 t3 ⊢
      generalize tell exact W dims o2' (.lst x) (.num (.fin v')) true = q' at t1 t2 ⊢
      obtain ⟨o3, r3⟩ := q
      obtain ⟨o3', r3'⟩ := q'
      simp only at t1 t2 t3
      cases t2 with
      | error e => exact ⟨rfl, .error e⟩
      | @ok r r' hr =>
        obtain ⟨t, e1, e2⟩ := cb (hist ++ [r]) r cbs 0 hc
        obtain ⟨t', e1', e2'⟩ := cb (hist' ++ [r']) r' cbs' 0 hc'
        simp only [e1, e1']
        have key := ih (done ++ [.seq x]) (hist ++ [r]) (hist' ++ [r']) (by rw [t3]; exact a3') t1 (.some hr)
        generalize minimizeLoop exact W dims func cbs n (done ++ [.seq x]) (hist ++ [r]) o3 (some r) = q at key ⊢
        generalize minimizeLoop exact W dims func' cbs' n (done ++ [.seq x]) (hist' ++ [r']) o3' (some r') = q' at key ⊢
        refine ⟨?_, key.2⟩
        show evalsOf (.eval (.seq x) :: (t' ++ q'.1)) = evalsOf (.eval (.seq x) :: (t ++ q.1))
        have c1 : ∀ u : List (Event ℝ M), evalsOf (.eval (.seq x) :: u) = .seq x :: evalsOf u := fun u => rfl
        rw [c1, c1, evalsOf_append, evalsOf_append, e2, e2', key.1]

end Skopt

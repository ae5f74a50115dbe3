import Verif.Lemmas.Relabel
import Verif.Lemmas.OptimizerAsk
import Verif.Lemmas.LiveRun
import Verif.Lemmas.Units
import Verif.Props.OptimizerCopy
import Verif.Spec.ObjectiveUnits

/-!
# Two optimizers whose objectives differ by unit and zero point go through the same motions (C106)
-/

namespace Skopt

variable {M R G : Type}

/-! ### Order -/

theorem argBest_go_map {α β : Type} (b : α → α → Bool) (b' : β → β → Bool) (f : α → β)
    (hf : ∀ x y, b' (f x) (f y) = b x y) (x : α) (i k : Nat) (xs : List α) :
    argBest.go b' (f x) i k (xs.map f) = argBest.go b x i k xs := by
  induction xs generalizing x i k with
  | nil => rfl
  | cons y ys ih =>
    simp only [List.map_cons, argBest.go, hf]
    split <;> exact ih _ _ _

theorem npArgmin_map {α β : Type} [LinearOrder α] [LinearOrder β] {f : α → β} (hf : StrictMono f) (xs : List α) :
    npArgmin (xs.map f) = npArgmin xs := by
  cases xs with
  | nil => rfl
  | cons x xs =>
    simp only [npArgmin, List.map_cons, argBest]
    rw [argBest_go_map (fun a b => decide (a < b)) (fun a b => decide (a < b)) f]
    intro x y
    exact decide_eq_decide.2 hf.lt_iff_lt

theorem Flt.fin_strictMono {F : Type} [LinearOrder F] : StrictMono (Flt.fin : F → Flt F) :=
  fun _ _ h => Flt.fin_lt_fin.2 h

theorem npArgmin_fin {F : Type} [LinearOrder F] (xs : List F) : npArgmin (xs.map Flt.fin) = npArgmin xs :=
  npArgmin_map Flt.fin_strictMono xs

theorem affine_strictMono {a : ℝ} (ha : 0 < a) (c : ℝ) : StrictMono fun y : ℝ => a * y + c := by
  intro x y h
  have := mul_lt_mul_of_pos_left h ha
  show a * x + c < a * y + c
  linarith

/-! ### Acquisition values -/

variable {V : Views M} {a c : ℝ}

/-- Which acquisition functions do not depend on the zero point (`a = 1`) or also not on the unit. -/
def UnitFreeAcq (a : ℝ) (cand : AcqFunc) : Prop :=
  cand = .LCB ∨ a = 1 ∧ (cand = .EI ∨ cand = .PI)

theorem shifted_gap (y xi c : ℝ) (v : ℝ) : 1 * y + c - xi - (1 * v + c) = y - xi - v := by ring

theorem maskSelect_map {α β : Type} (f : α → β) (ms : List Bool) (xs : List α) :
    maskSelect ms (xs.map f) = (maskSelect ms xs).map f := by
  induction ms generalizing xs with
  | nil => cases xs <;> rfl
  | cons m ms ih =>
    cases xs with
    | nil => cases m <;> rfl
    | cons x xs => cases m <;> simp [maskSelect, ih]

theorem acquisition_carried {m m' : M} (ha : 0 < a) (h : Carried V a c m m') {cand : AcqFunc}
    (hc : UnitFreeAcq a cand) (y xi : ℝ) (kappa : Kappa) :
    ∃ α β : ℝ, 0 < α ∧ (cand ≠ .LCB → α = 1 ∧ β = 0) ∧
      (∀ X, gaussianAcquisition (.one (V.pred m' X)) (a * y + c) cand xi kappa
        = (gaussianAcquisition (.one (V.pred m X)) y cand xi kappa).map (List.map fun v => α * v + β)) ∧
      (V.gradients = true → ∀ z, gaussianAcquisitionGrad (.one (V.grad m' z)) (a * y + c) cand xi kappa
        = (gaussianAcquisitionGrad (.one (V.grad m z)) y cand xi kappa).map
            fun p => (α * p.1 + β, p.2.map fun g => α * g)) := by
  rcases hc with rfl | ⟨rfl, hc⟩
  · cases h with
    | affine hp hg =>
      cases kappa with
      | inf =>
        refine ⟨a, 0, ha, fun h => absurd rfl h, fun X => ?_, fun hgr z => ?_⟩
        · simp only [gaussianAcquisition, Surrogate.single, ok_bind, hp, gaussianLcb, List.map_map, Except.map_ok']
          congr 1
          refine List.map_congr_left fun v _ => ?_
          simp
        · simp only [gaussianAcquisitionGrad, Surrogate.single, ok_bind, hg hgr, gaussianLcbGrad, List.map_map,
            Except.map_ok']
          congr 2
          · ring
          · refine List.map_congr_left fun v _ => ?_
            simp
      | num k =>
        refine ⟨a, c, ha, fun h => absurd rfl h, fun X => ?_, fun hgr z => ?_⟩
        · simp only [gaussianAcquisition, Surrogate.single, ok_bind, hp, gaussianLcb, Except.map_ok',
            List.map_zipWith, List.zipWith_map]
          congr 2
          funext u v
          ring
        · simp only [gaussianAcquisitionGrad, Surrogate.single, ok_bind, hg hgr, gaussianLcbGrad, Except.map_ok',
            List.map_zipWith, List.zipWith_map]
          congr 2
          · ring
          · congr 1
            funext u v
            ring
    | flat k0 hl hp hl' hg =>
      cases kappa with
      | inf =>
        refine ⟨1, 0, one_pos, fun h => absurd rfl h, fun X => ?_, fun hgr z => ?_⟩
        · simp only [gaussianAcquisition, Surrogate.single, ok_bind, hp, gaussianLcb, List.map_map, Except.map_ok']
          congr 1
          refine List.map_congr_left fun v _ => ?_
          simp
        · simp only [gaussianAcquisitionGrad, Surrogate.single, ok_bind, hg hgr, gaussianLcbGrad, List.map_map,
            Except.map_ok']
          congr 2
          · ring
          · refine List.map_congr_left fun v _ => ?_
            simp
      | num k =>
        refine ⟨1, a * k0 + c - k0, one_pos, fun h => absurd rfl h, fun X => ?_, fun hgr z => ?_⟩
        · simp only [gaussianAcquisition, Surrogate.single, ok_bind, hp, gaussianLcb, Except.map_ok',
            List.map_zipWith]
          congr 1
          have hX := hl X
          generalize (V.pred m X).mu = mu at hX ⊢
          generalize (V.pred m X).std = std
          induction mu generalizing std with
          | nil => rfl
          | cons v mu ih =>
            cases std with
            | nil => rfl
            | cons w std =>
              simp only [List.map_cons, List.zipWith_cons_cons]
              rw [ih (fun u hu => hX u (List.mem_cons_of_mem _ hu)), hX v List.mem_cons_self]
              congr 1
              ring
        · simp only [gaussianAcquisitionGrad, Surrogate.single, ok_bind, hg hgr, gaussianLcbGrad, Except.map_ok',
            List.map_zipWith, hl' hgr]
          congr 2
          · ring
          · congr 1
            funext u v
            ring
  · have hp : ∀ X, V.pred m' X = { V.pred m X with mu := (V.pred m X).mu.map fun v => 1 * v + c } := by
      intro X
      cases h with
      | affine hp hg => rw [hp]; simp
      | flat k hl hp hl' hg =>
        rw [hp]
        have : (V.pred m X).mu.map (fun _ => 1 * k + c) = (V.pred m X).mu.map fun v => 1 * v + c :=
          List.map_congr_left fun v hv => by rw [hl X v hv]
        simp only [this]
    have hg : V.gradients = true → ∀ z, V.grad m' z = { V.grad m z with mu := 1 * (V.grad m z).mu + c } := by
      intro hgr z
      cases h with
      | affine hp hg => rw [hg hgr]; simp
      | flat k hl hp hl' hg => rw [hg hgr, hl' hgr]
    have e1 : ∀ X, gaussianEi (V.pred m' X) (1 * y + c) xi = gaussianEi (V.pred m X) y xi := by
      intro X
      rw [hp]
      unfold gaussianEi
      simp only [maskSelect_map, List.map_map, Function.comp_def, shifted_gap]
    have e2 : ∀ X, gaussianPi (V.pred m' X) (1 * y + c) xi = gaussianPi (V.pred m X) y xi := by
      intro X
      rw [hp]
      unfold gaussianPi
      simp only [maskSelect_map, List.map_map, Function.comp_def, shifted_gap]
    have e3 : V.gradients = true → ∀ z, gaussianEiGrad (V.grad m' z) (1 * y + c) xi = gaussianEiGrad (V.grad m z) y xi := by
      intro hgr z
      rw [hg hgr]
      unfold gaussianEiGrad
      simp only [shifted_gap]
    have e4 : V.gradients = true → ∀ z, gaussianPiGrad (V.grad m' z) (1 * y + c) xi = gaussianPiGrad (V.grad m z) y xi := by
      intro hgr z
      rw [hg hgr]
      unfold gaussianPiGrad
      simp only [shifted_gap]
    refine ⟨1, 0, one_pos, fun _ => ⟨rfl, rfl⟩, ?_, ?_⟩
    · intro X
      have : (List.map fun v : ℝ => 1 * v + 0) = id := by funext l; simp
      rw [this, Except_map_id]
      rcases hc with rfl | rfl
      · simp only [gaussianAcquisition, Surrogate.single, ok_bind, e1]
      · simp only [gaussianAcquisition, Surrogate.single, ok_bind, e2]
    · intro hgr z
      have : (fun p : ℝ × List ℝ => (1 * p.1 + 0, p.2.map fun g => 1 * g)) = id := by funext l; simp
      rw [this, Except_map_id]
      rcases hc with rfl | rfl
      · simp only [gaussianAcquisitionGrad, Surrogate.single, ok_bind, e3 hgr]
      · simp only [gaussianAcquisitionGrad, Surrogate.single, ok_bind, e4 hgr]

/-! ### The simulation -/

variable {W : World ℝ M R G} {xi : ℝ} {kappa : Kappa} {mini : AcqMinimiser R} {dims : List (Dim ℝ)}

/-- Values as they are told. -/
def plainYs (ys : List ℝ) : List (YArg ℝ) := ys.map fun y => .num (.fin y)

theorem minimizeAll_carried (hW : ReadsPredictions W V xi kappa mini) (hgr : V.gradients = true) {m m' : M} {y y' α β : ℝ} {cand : AcqFunc}
    (hl : ∀ r x, mini r (fun z => gaussianAcquisitionGrad (.one (V.grad m' z)) y' cand xi kappa) x
      = ((mini r (fun z => gaussianAcquisitionGrad (.one (V.grad m z)) y cand xi kappa) x).1,
         (mini r (fun z => gaussianAcquisitionGrad (.one (V.grad m z)) y cand xi kappa) x).2.map
           fun p => (p.1, α * p.2 + β)))
    (r : R) (xs : List (List (Val ℝ))) :
    ∃ vs : Except PyErr (List (List (Val ℝ) × ℝ)),
      (proposeOne.minimizeAll W m (.fin y) cand r xs).2 = vs.map (List.map fun p => (p.1, Flt.fin p.2)) ∧
      proposeOne.minimizeAll W m' (.fin y') cand r xs
        = ((proposeOne.minimizeAll W m (.fin y) cand r xs).1,
           vs.map (List.map fun p => (p.1, Flt.fin (α * p.2 + β)))) := by
  induction xs generalizing r with
  | nil => exact ⟨.ok [], rfl, rfl⟩
  | cons x xs ih =>
    have h1 := hW.lbfgs hgr r m y cand x
    have h2 := hW.lbfgs hgr r m' y' cand x
    rw [hl] at h2
    generalize mini r (fun z => gaussianAcquisitionGrad (.one (V.grad m z)) y cand xi kappa) x = q at h1 h2
    obtain ⟨r1, o⟩ := q
    cases o with
    | error e =>
      simp only [Except.map_error'] at h1 h2
      refine ⟨.error e, ?_, ?_⟩
      · simp only [proposeOne.minimizeAll, h1]
        rfl
      · simp only [proposeOne.minimizeAll, h1, h2]
        rfl
    | ok p =>
      simp only [Except.map_ok'] at h1 h2
      obtain ⟨vs, e1, e2⟩ := ih r1
      simp only [proposeOne.minimizeAll, h1, h2]
      rw [e2]
      generalize proposeOne.minimizeAll W m (.fin y) cand r1 xs = q' at e1 ⊢
      obtain ⟨r2, o2⟩ := q'
      simp only at e1
      subst e1
      cases vs with
      | error e => exact ⟨.error e, rfl, rfl⟩
      | ok vs => exact ⟨.ok (p :: vs), rfl, rfl⟩

theorem proposeOne_carried (hW : ReadsPredictions W V xi kappa mini) (ha : 0 < a) {m m' : M}
    (h : Carried V a c m m') {cand : AcqFunc} (hc : UnitFreeAcq a cand) (cfg : Config)
    (hmin : cfg.lbfgs = true → V.gradients = true ∧ (cand = .LCB → AffineMinimiser mini)) (y : ℝ) (X : List (List (Val ℝ))) (rng : R) :
    proposeOne exact W cfg dims m' (.fin (a * y + c)) X rng cand
      = proposeOne exact W cfg dims m (.fin y) X rng cand := by
  obtain ⟨α, β, hα, hlcb, hv, hg⟩ := acquisition_carried ha h hc y xi kappa
  have hτ := affine_strictMono hα β
  unfold proposeOne
  rw [hW.acquisition, hW.acquisition, hv X]
  cases gaussianAcquisition (.one (V.pred m X)) y cand xi kappa with
  | error e => rfl
  | ok vals =>
    simp only [Except.map_ok']
    have e1 : npArgmin (((vals.map fun v => α * v + β)).map Flt.fin) = npArgmin (vals.map Flt.fin) := by
      rw [npArgmin_fin, npArgmin_fin]
      exact npArgmin_map hτ vals
    have e2 : W.argsort ((vals.map fun v => α * v + β).map Flt.fin) = W.argsort (vals.map Flt.fin) := by
      rw [List.map_map]
      exact hW.argsort vals _ hτ
    rw [e1, e2]
    cases hlb : cfg.lbfgs with
    | false => rfl
    | true =>
      simp only [if_true]
      cases mapE (pyGet X) ((W.argsort (vals.map Flt.fin)).take cfg.nRestarts) with
      | error e => rfl
      | ok x0 =>
        simp only
        have hl : ∀ r x, mini r (fun z => gaussianAcquisitionGrad (.one (V.grad m' z)) (a * y + c) cand xi kappa) x
            = ((mini r (fun z => gaussianAcquisitionGrad (.one (V.grad m z)) y cand xi kappa) x).1,
               (mini r (fun z => gaussianAcquisitionGrad (.one (V.grad m z)) y cand xi kappa) x).2.map
                 fun p => (p.1, α * p.2 + β)) := by
          intro r x
          simp only [hg (hmin hlb).1]
          by_cases hcl : cand = .LCB
          · exact (hmin hlb).2 hcl r _ x α β hα
          · obtain ⟨rfl, rfl⟩ := hlcb hcl
            have e3 : (fun p : ℝ × List ℝ => (1 * p.1 + 0, p.2.map fun g => 1 * g)) = id := by funext l; simp
            have e4 : (fun p : List (Val ℝ) × ℝ => (p.1, 1 * p.2 + 0)) = id := by funext l; simp
            simp only [e3, e4, Except_map_id]
        have hr : proposeOne.runAll W m' (.fin (a * y + c)) cand rng x0
            = proposeOne.runAll W m (.fin y) cand rng x0 := by
          obtain ⟨vs, f1, f2⟩ := minimizeAll_carried hW (hmin hlb).1 hl rng x0
          unfold proposeOne.runAll
          rw [f2]
          generalize proposeOne.minimizeAll W m (.fin y) cand rng x0 = q at f1 ⊢
          obtain ⟨r2, o2⟩ := q
          simp only at f1
          subst f1
          cases vs with
          | error e => rfl
          | ok vs =>
            simp only [Except.map_ok', List.map_map, Function.comp_def]
            have g1 : npArgmin (vs.map fun p => Flt.fin (α * p.2 + β)) = npArgmin (vs.map fun p => Flt.fin p.2) := by
              have k1 := npArgmin_map (Flt.fin_strictMono.comp hτ) (vs.map Prod.snd)
              have k2 := npArgmin_map (Flt.fin_strictMono (F := ℝ)) (vs.map Prod.snd)
              rw [List.map_map] at k1 k2
              exact k1.trans k2.symm
            rw [g1]
            cases npArgmin (vs.map fun p => Flt.fin p.2) with
            | error e => rfl
            | ok i =>
              simp only [ok_bind, pyGet_map]
              cases pyGet vs i <;> rfl
        rw [hr]

/-- A state with other values, surrogates and gains. -/
def Opt.with3 (s : Opt ℝ M R) (yi : List (YArg ℝ)) (ms : List M) (g : Option (List ℝ)) : Opt ℝ M R :=
  { s with yi := yi, models := ms, gains := g }

theorem proposeAll_carried (hW : ReadsPredictions W V xi kappa mini) (ha : 0 < a) {m m' : M}
    (h : Carried V a c m m') (cs : List AcqFunc) (hc : ∀ cand ∈ cs, UnitFreeAcq a cand) (s : Opt ℝ M R)
    (hmin : s.cfg.lbfgs = true → V.gradients = true ∧ (.LCB ∈ cs → AffineMinimiser mini)) (y : ℝ) (X : List (List (Val ℝ)))
    (yi : List (YArg ℝ)) (ms : List M) (g : Option (List ℝ)) :
    proposeAll exact W dims m' (.fin (a * y + c)) X cs (s.with3 yi ms g)
      = ((proposeAll exact W dims m (.fin y) X cs s).1.with3 yi ms g,
         (proposeAll exact W dims m (.fin y) X cs s).2) := by
  induction cs generalizing s with
  | nil => rfl
  | cons cand cs ih =>
    simp only [proposeAll]
    have e := proposeOne_carried (dims := dims) hW ha h (hc cand List.mem_cons_self) s.cfg
      (fun hl => ⟨(hmin hl).1, fun he => (hmin hl).2 (he ▸ List.mem_cons_self)⟩) y X s.rng
    rw [show (s.with3 yi ms g).cfg = s.cfg from rfl, show (s.with3 yi ms g).rng = s.rng from rfl, e]
    generalize proposeOne exact W s.cfg dims m (.fin y) X s.rng cand = q
    obtain ⟨rng, o⟩ := q
    cases o with
    | error e => rfl
    | ok row =>
      exact ih (fun cand hm => hc cand (List.mem_cons_of_mem _ hm))
        { s with rng := rng, nextXs := some (s.nextXs.getD [] ++ [row]) }
        (fun hl => ⟨(hmin hl).1, fun hm => (hmin hl).2 (List.mem_cons_of_mem _ hm)⟩)

theorem foldl_max_shift (k : ℝ) (xs : List ℝ) (x : ℝ) :
    (xs.map fun g => g - k).foldl max (x - k) = xs.foldl max x - k := by
  induction xs generalizing x with
  | nil => rfl
  | cons y ys ih =>
    simp only [List.map_cons, List.foldl_cons]
    rw [max_sub_sub_right, ih]

theorem hedgeProbs_shift (k : ℝ) (exp : ℝ → ℝ) (eta : ℝ) (g : List ℝ) :
    hedgeProbs exact exp eta (g.map fun v => v - k) = hedgeProbs exact exp eta g := by
  cases g with
  | nil => rfl
  | cons x xs =>
    unfold hedgeProbs
    have e : (((x :: xs).map fun v => v - k).foldl max (((x :: xs).map fun v => v - k).headD (exact.ofInt 0)))
        = (x :: xs).foldl max ((x :: xs).headD (exact.ofInt 0)) - k := by
      rw [← foldl_max_shift]
      rfl
    rw [e]
    simp only [List.map_map]
    have e2 : ((fun v => exp (exact.mul eta (exact.sub v ((x :: xs).foldl max ((x :: xs).headD (exact.ofInt 0)) - k))))
        ∘ fun v => v - k) = fun v => exp (exact.mul eta (exact.sub v
          ((x :: xs).foldl max ((x :: xs).headD (exact.ofInt 0))))) := by
      funext v
      show exp (eta * (v - k - (_ - k))) = exp (eta * (v - _))
      congr 2
      ring
    rw [e2]

theorem fltMin_convert (ha : 0 < a) (c : ℝ) {ys : List ℝ} (hne : ys ≠ []) :
    ∃ y, fltMin (ys.map Flt.fin) = .ok (.fin y) ∧
      fltMin ((ys.map fun y => a * y + c).map Flt.fin) = .ok (.fin (a * y + c)) := by
  cases ys with
  | nil => exact absurd rfl hne
  | cons x xs =>
    have h : ∃ m, fltMin ((x :: xs).map Flt.fin) = .ok m := ⟨_, rfl⟩
    obtain ⟨m, hm⟩ := h
    have hm' := fltMin_iff.1 hm
    obtain ⟨y, hy, rfl⟩ := List.mem_map.1 hm'.1
    refine ⟨y, hm, fltMin_iff.2 ⟨List.mem_map_of_mem (List.mem_map_of_mem hy), ?_⟩⟩
    intro z hz
    obtain ⟨z', hz', rfl⟩ := List.mem_map.1 hz
    obtain ⟨w, hw, rfl⟩ := List.mem_map.1 hz'
    have := Flt.fin_le_fin.1 (hm'.2 _ (List.mem_map_of_mem hw))
    exact Flt.fin_le_fin.2 ((affine_strictMono ha c).monotone this)

theorem proposeAll_keeps (m : M) (yOpt : Flt ℝ) (X : List (List (Val ℝ))) (cs : List AcqFunc) (s : Opt ℝ M R) :
    (proposeAll exact W dims m yOpt X cs s).1.gains = s.gains ∧
    (proposeAll exact W dims m yOpt X cs s).1.cfg = s.cfg := by
  induction cs generalizing s with
  | nil => exact ⟨rfl, rfl⟩
  | cons c cs ih =>
    simp only [proposeAll]
    rcases proposeOne exact W s.cfg dims m yOpt X s.rng c with ⟨rng, _ | row⟩
    · exact ⟨rfl, rfl⟩
    · exact ih _

theorem choose_carried (s : Opt ℝ M R) (yi : List (YArg ℝ)) (ms : List M) (k : ℝ) :
    choose exact W (s.with3 yi ms (s.gains.map (List.map fun v => v - k))) = choose exact W s := by
  unfold choose
  rw [show (s.with3 yi ms (s.gains.map (List.map fun v => v - k))).cfg = s.cfg from rfl,
    show (s.with3 yi ms (s.gains.map (List.map fun v => v - k))).gains = s.gains.map (List.map fun v => v - k) from rfl,
    show (s.with3 yi ms (s.gains.map (List.map fun v => v - k))).nextXs = s.nextXs from rfl,
    show (s.with3 yi ms (s.gains.map (List.map fun v => v - k))).rng = s.rng from rfl]
  cases s.cfg.acq with
  | gpHedge =>
    cases s.gains with
    | none => rfl
    | some g => simp only [Option.map_some, hedgeProbs_shift]
  | _ => rfl

/-- The last part of `suggest`: choose among the proposals and decode (optimizer.py:596-608). -/
noncomputable def suggestEnd (W : World ℝ M R G) (dims : List (Dim ℝ)) (q : Opt ℝ M R × Except PyErr Unit) :
    Opt ℝ M R × Except PyErr Unit :=
  match q with
  | (s, .error e) => (s, .error e)
  | (s, .ok _) =>
    let (rng, row) := choose exact W s
    let s := { s with rng := rng }
    match (do let r ← row; let ps ← Space.inverseTransform exact dims [r]; pyGet ps 0) with
    | .error e => (s, .error e)
    | .ok x => ({ s with nextX := some x }, .ok ())

theorem suggest_eq (m : M) (s : Opt ℝ M R) : suggest exact W dims m s
    = match (Space.rvs exact dims (W.draws s.rng dims s.cfg.nPoints).2 >>= fun pts =>
        Space.transform exact dims pts) with
      | .error e => ({ s with rng := (W.draws s.rng dims s.cfg.nPoints).1 }, .error e)
      | .ok X =>
        match (flatNums s.yi >>= fun ys => fltMin ys) with
        | .error e => ({ s with rng := (W.draws s.rng dims s.cfg.nPoints).1, nextXs := some [] }, .error e)
        | .ok yOpt => suggestEnd W dims (proposeAll exact W dims m yOpt X s.cfg.acq.candidates
            { s with rng := (W.draws s.rng dims s.cfg.nPoints).1, nextXs := some [] }) := by
  unfold suggest
  simp only
  cases (Space.rvs exact dims (W.draws s.rng dims s.cfg.nPoints).2 >>= fun pts => Space.transform exact dims pts) with
  | error e => rfl
  | ok X =>
    simp only
    cases (flatNums s.yi >>= fun ys => fltMin ys) with
    | error e => rfl
    | ok yOpt =>
      simp only
      generalize proposeAll exact W dims m yOpt X s.cfg.acq.candidates
        { s with rng := (W.draws s.rng dims s.cfg.nPoints).1, nextXs := some [] } = q
      obtain ⟨s2, _ | _⟩ := q
      · rfl
      · simp only [suggestEnd]
        generalize choose exact W s2 = q3
        obtain ⟨r3, row⟩ := q3
        simp only
        cases (row >>= fun r => Space.inverseTransform exact dims [r] >>= fun ps => pyGet ps 0) <;> rfl

theorem suggestEnd_carried (q : Opt ℝ M R × Except PyErr Unit) (yi : List (YArg ℝ)) (ms : List M) (k : ℝ) :
    suggestEnd W dims (q.1.with3 yi ms (q.1.gains.map (List.map fun v => v - k)), q.2)
      = ((suggestEnd W dims q).1.with3 yi ms (q.1.gains.map (List.map fun v => v - k)), (suggestEnd W dims q).2) := by
  obtain ⟨s, o⟩ := q
  cases o with
  | error e => rfl
  | ok u =>
    unfold suggestEnd
    simp only
    rw [choose_carried]
    generalize choose exact W s = q2
    obtain ⟨rng2, row⟩ := q2
    simp only
    cases (row >>= fun r => Space.inverseTransform exact dims [r] >>= fun ps => pyGet ps 0) <;> rfl

theorem suggest_carried (hW : ReadsPredictions W V xi kappa mini) (ha : 0 < a) {m m' : M}
    (h : Carried V a c m m') (s : Opt ℝ M R) (hc : ∀ cand ∈ s.cfg.acq.candidates, UnitFreeAcq a cand)
    (hmin : s.cfg.lbfgs = true → V.gradients = true ∧ (.LCB ∈ s.cfg.acq.candidates → AffineMinimiser mini))
    {ys : List ℝ} (hys : s.yi = plainYs ys) (hne : ys ≠ []) (ms : List M) (k : ℝ) :
    suggest exact W dims m' (s.with3 (plainYs (ys.map fun y => a * y + c)) ms (s.gains.map (List.map fun v => v - k)))
      = ((suggest exact W dims m s).1.with3 (plainYs (ys.map fun y => a * y + c)) ms
          (s.gains.map (List.map fun v => v - k)), (suggest exact W dims m s).2) := by
  rw [suggest_eq, suggest_eq]
  rw [show (s.with3 (plainYs (ys.map fun y => a * y + c)) ms (s.gains.map (List.map fun v => v - k))).rng
      = s.rng from rfl,
    show (s.with3 (plainYs (ys.map fun y => a * y + c)) ms (s.gains.map (List.map fun v => v - k))).cfg
      = s.cfg from rfl]
  cases (Space.rvs exact dims (W.draws s.rng dims s.cfg.nPoints).2 >>= fun pts => Space.transform exact dims pts) with
  | error e => rfl
  | ok X =>
    simp only
    obtain ⟨y, y1, y2⟩ := fltMin_convert ha c hne
    have f1 : (flatNums s.yi >>= fun ys => fltMin ys) = .ok (.fin y) := by
      rw [hys, plainYs, flatNums_fin]
      exact y1
    have f2 : (flatNums (s.with3 (plainYs (ys.map fun y => a * y + c)) ms
        (s.gains.map (List.map fun v => v - k))).yi >>= fun ys => fltMin ys) = .ok (.fin (a * y + c)) := by
      show (flatNums (plainYs (ys.map fun y => a * y + c)) >>= fun ys => fltMin ys) = _
      rw [plainYs, flatNums_fin]
      exact y2
    rw [f1, f2]
    simp only
    have e4 := proposeAll_carried (dims := dims) hW ha h s.cfg.acq.candidates hc
      { s with rng := (W.draws s.rng dims s.cfg.nPoints).1, nextXs := some [] } hmin y X
      (plainYs (ys.map fun y => a * y + c)) ms (s.gains.map (List.map fun v => v - k))
    have e5 := proposeAll_keeps (W := W) (dims := dims) m (.fin y) X s.cfg.acq.candidates
      { s with rng := (W.draws s.rng dims s.cfg.nPoints).1, nextXs := some [] }
    refine (congrArg (suggestEnd W dims) e4).trans ?_
    have e6 := suggestEnd_carried (W := W) (dims := dims) (proposeAll exact W dims m (.fin y) X s.cfg.acq.candidates
      { s with rng := (W.draws s.rng dims s.cfg.nPoints).1, nextXs := some [] })
      (plainYs (ys.map fun y => a * y + c)) ms k
    rw [e5.1] at e6
    exact e6

/-- The two optimizers after the same calls: everything is the same but the values, the surrogates and the gains,
which are converted. -/
structure Moved (V : Views M) (a c : ℝ) (s s' : Opt ℝ M R) : Prop where
  frame : s' = s.with3 s'.yi s'.models s'.gains
  ys : ∃ ys : List ℝ, s.yi = plainYs ys ∧ s'.yi = plainYs (ys.map fun y => a * y + c)
  models : List.Forall₂ (Carried V a c) s.models s'.models
  gains : ∃ k, s'.gains = s.gains.map (List.map fun v => v - k)
  start : s.yi = [] → s.models = [] ∧ s'.gains = s.gains
  seqs : is2D s.Xi = true
  plain : s.cfg.acq.isPs = false
  lens : s.Xi.length = s.yi.length

theorem suggest_keeps (m : M) (s : Opt ℝ M R) :
    (suggest exact W dims m s).1.yi = s.yi ∧ (suggest exact W dims m s).1.models = s.models ∧
    (suggest exact W dims m s).1.gains = s.gains ∧ (suggest exact W dims m s).1.Xi = s.Xi ∧
    (suggest exact W dims m s).1.cfg = s.cfg := by
  have hp : ∀ (cs : List AcqFunc) (yOpt : Flt ℝ) X (s : Opt ℝ M R), ∃ r x,
      (proposeAll exact W dims m yOpt X cs s).1 = { s with rng := r, nextXs := x } := by
    intro cs yOpt X
    induction cs with
    | nil => exact fun s => ⟨_, _, rfl⟩
    | cons c cs ih =>
      intro s
      simp only [proposeAll]
      rcases proposeOne exact W s.cfg dims m yOpt X s.rng c with ⟨rng, _ | row⟩
      · exact ⟨_, _, rfl⟩
      · obtain ⟨r, x, e⟩ := ih { s with rng := rng, nextXs := some (s.nextXs.getD [] ++ [row]) }
        exact ⟨r, x, e⟩
  rw [suggest_eq]
  split
  · exact ⟨rfl, rfl, rfl, rfl, rfl⟩
  · split
    · exact ⟨rfl, rfl, rfl, rfl, rfl⟩
    · next X _ _ yOpt _ =>
      obtain ⟨r, x, e⟩ := hp s.cfg.acq.candidates yOpt X
        { s with rng := (W.draws s.rng dims s.cfg.nPoints).1, nextXs := some [] }
      generalize proposeAll exact W dims m yOpt X s.cfg.acq.candidates
        { s with rng := (W.draws s.rng dims s.cfg.nPoints).1, nextXs := some [] } = q at e
      obtain ⟨s2, o⟩ := q
      simp only at e
      subst e
      cases o with
      | error e => exact ⟨rfl, rfl, rfl, rfl, rfl⟩
      | ok u =>
        unfold suggestEnd
        simp only
        split <;> exact ⟨rfl, rfl, rfl, rfl, rfl⟩

theorem Sensible.candidates {cfg : Config} (h : Sensible V a mini cfg) (hp : cfg.acq.isPs = false) :
    ∀ cand ∈ cfg.acq.candidates, UnitFreeAcq a cand := by
  intro cand hc
  rcases h.unit with h1 | h1
  · cases ha : cfg.acq <;> rw [ha] at hc hp <;> simp [AcqFunc.candidates, AcqFunc.isPs] at hc hp
    · rcases hc with rfl | rfl | rfl
      · exact .inr ⟨h1, .inl rfl⟩
      · exact .inl rfl
      · exact .inr ⟨h1, .inr rfl⟩
    · exact .inr ⟨h1, .inl hc⟩
    · exact .inl hc
    · exact .inr ⟨h1, .inr hc⟩
  · rw [h1] at hc
    simp [AcqFunc.candidates] at hc
    exact .inl hc

theorem updateGains_carried (hW : ReadsPredictions W V xi kappa mini) {s : Opt ℝ M R} (hs : Sensible V a mini s.cfg)
    {m m' : M} (h : Carried V a c m m') (yi : List (YArg ℝ)) (ms : List M) (k : ℝ) :
    ∃ k', updateGains exact W (s.with3 yi ms (s.gains.map (List.map fun v => v - k))) m'
      = (updateGains exact W s m).map (Option.map (List.map fun v => v - k')) := by
  unfold updateGains
  rw [show (s.with3 yi ms (s.gains.map (List.map fun v => v - k))).cfg = s.cfg from rfl,
    show (s.with3 yi ms (s.gains.map (List.map fun v => v - k))).nextXs = s.nextXs from rfl,
    show (s.with3 yi ms (s.gains.map (List.map fun v => v - k))).gains = s.gains.map (List.map fun v => v - k) from rfl]
  by_cases hh : s.cfg.acq = .gpHedge
  · have h1 : a = 1 := by
      rcases hs.unit with h1 | h1
      · exact h1
      · rw [hh] at h1; cases h1
    subst h1
    rw [hh]
    cases s.nextXs with
    | none => exact ⟨k, rfl⟩
    | some xs =>
      cases s.gains with
      | none => exact ⟨k, rfl⟩
      | some g =>
        refine ⟨k + c, ?_⟩
        have hmu : (V.pred m' xs).mu = (V.pred m xs).mu.map fun v => v + c := by
          cases h with
          | affine hp hg => rw [hp]; simp
          | flat q hl hp hl' hg =>
            rw [hp]
            exact List.map_congr_left fun v hv => by rw [hl xs v hv]; ring
        simp only [Option.map_some]
        cases hx : xs.isEmpty with
        | true => rfl
        | false =>
          simp only [Bool.false_eq_true, if_false, ok_bind, hW.predict, hmu, List.length_map]
          generalize (V.pred m xs).mu = p
          split
          · next hl =>
            obtain ⟨v, rfl⟩ := List.length_eq_one_iff.1 hl
            simp only [List.map_cons, List.headD_cons, List.map_nil, Except.map_ok', Option.map_some,
              List.map_map]
            congr 2
            refine List.map_congr_left fun w _ => ?_
            show w - k - (v + c) = w - v - (k + c)
            ring
          · split
            · rfl
            · simp only [Except.map_ok', Option.map_some, List.map_zipWith, List.zipWith_map]
              congr 3
              funext u w
              show u - k - (w + c) = u - w - (k + c)
              ring
  · refine ⟨k, ?_⟩
    cases ha : s.cfg.acq <;> first | exact absurd ha hh | rfl

theorem pushModel_carried {r : M → M → Prop} (qs : Option ℤ) {ms ms' : List M} (h : List.Forall₂ r ms ms') {m m' : M}
    (hm : r m m') : Alike (List.Forall₂ r) (pushModel qs ms m) (pushModel qs ms' m') := by
  unfold pushModel
  cases qs with
  | none => exact .ok (List.rel_append h (.cons hm .nil))
  | some k =>
    simp only [h.length_eq]
    split
    · exact .ok (List.rel_append h (.cons hm .nil))
    · cases h with
      | nil => exact .error _
      | cons h1 h2 => exact .ok (List.rel_append h2 (.cons hm .nil))

/-- What `refit` does after `fit`.  (optimizer.py:536-608) -/
def refitEnd {F : Type} [LinearOrder F] (A : Arith F) (W : World F M R G) (dims : List (Dim F)) (s : Opt F M R)
    (o : Except PyErr M) : Opt F M R × Except PyErr Unit :=
  match o with
  | .error e => (s, .error e)
  | .ok est =>
    match updateGains A W s est with
    | .error e => (s, .error e)
    | .ok g =>
      match pushModel s.cfg.queueSize s.models est with
      | .error e => ({ s with gains := g }, .error e)
      | .ok ms => suggest A W dims est { s with gains := g, models := ms }

theorem refit_eq {F : Type} [LinearOrder F] (A : Arith F) (W : World F M R G) (dims : List (Dim F)) (s : Opt F M R) :
    refit A W dims s
    = match Space.transform A dims (s.Xi.map Val.items) with
      | .error e => (s, .error e)
      | .ok Xt => refitEnd A W dims { s with rng := (W.fit s.rng Xt s.yi).1 } (W.fit s.rng Xt s.yi).2 := by
  unfold refit refitEnd
  cases Space.transform A dims (s.Xi.map Val.items) with
  | error e => rfl
  | ok Xt => rfl

/-- One state and outcome of the two runs. -/
structure MovedStep {α β : Type} (V : Views M) (a c : ℝ) (r : α → β → Prop) (q : Opt ℝ M R × Except PyErr α)
    (q' : Opt ℝ M R × Except PyErr β) : Prop where
  state : Moved V a c q.1 q'.1
  out : Alike r q.2 q'.2
  cfg : q'.1.cfg = q.1.cfg

theorem Alike.refl {α : Type} {r : α → α → Prop} (hr : ∀ x, r x x) (o : Except PyErr α) : Alike r o o := by
  cases o with
  | error e => exact .error e
  | ok x => exact .ok (hr x)

theorem Moved.cfg_eq {s s' : Opt ℝ M R} (h : Moved V a c s s') : s'.cfg = s.cfg := by
  rw [h.frame]; rfl

theorem refitEnd_moved (hW : ReadsPredictions W V xi kappa mini) {s s' : Opt ℝ M R}
    (hs : Sensible V a mini s.cfg) (h : Moved V a c s s') (hne : s.yi ≠ []) {o o' : Except PyErr M}
    (ho : Alike (Carried V a c) o o') :
    Moved V a c (refitEnd exact W dims s o).1 (refitEnd exact W dims s' o').1 ∧
      (refitEnd exact W dims s' o').2 = (refitEnd exact W dims s o).2 ∧
      (refitEnd exact W dims s o).1.cfg = s.cfg ∧ (refitEnd exact W dims s o).1.yi = s.yi ∧
      (refitEnd exact W dims s o).1.Xi = s.Xi := by
  cases ho with
  | error e => exact ⟨h, rfl, rfl, rfl, rfl⟩
  | @ok est est' hest =>
    obtain ⟨hfr, ⟨ys, y1, y2⟩, hm, ⟨k, hk⟩, hst, h2d, hps, hlen⟩ := h
    rw [y2, hk] at hfr
    generalize s'.models = ms' at hfr hm
    subst hfr
    have hys : ys ≠ [] := by
      rintro rfl
      exact hne y1
    obtain ⟨k', hk'⟩ := updateGains_carried (c := c) hW hs hest (plainYs (ys.map fun y => a * y + c)) ms' k
    unfold refitEnd
    simp only
    rw [hk']
    cases updateGains exact W s est with
    | error e => exact ⟨⟨rfl, ⟨ys, y1, rfl⟩, hm, ⟨k, rfl⟩, hst, h2d, hps, hlen⟩, rfl, rfl, rfl, rfl⟩
    | ok g =>
      simp only [Except.map_ok']
      have hpush := pushModel_carried s.cfg.queueSize hm hest
      rw [show (s.with3 (plainYs (ys.map fun y => a * y + c)) ms' (s.gains.map (List.map fun v => v - k))).cfg
          = s.cfg from rfl,
        show (s.with3 (plainYs (ys.map fun y => a * y + c)) ms' (s.gains.map (List.map fun v => v - k))).models
          = ms' from rfl]
      generalize pushModel s.cfg.queueSize s.models est = p at hpush ⊢
      generalize pushModel s.cfg.queueSize ms' est' = p' at hpush ⊢
      cases hpush with
      | error e =>
        exact ⟨⟨rfl, ⟨ys, y1, rfl⟩, hm, ⟨k', rfl⟩, fun h0 => absurd h0 hne, h2d, hps, hlen⟩, rfl, rfl, rfl, rfl⟩
      | @ok ms2 ms2' hms2 =>
        simp only
        have key := suggest_carried (dims := dims) hW hs.pos hest
          { s with gains := g, models := ms2 } (hs.candidates hps) hs.mini y1 hys ms2' k'
        obtain ⟨k1, k2, k3, k4, k5⟩ := suggest_keeps (W := W) (dims := dims) est { s with gains := g, models := ms2 }
        have e1 : suggest exact W dims est' ({ s.with3 (plainYs (ys.map fun y => a * y + c)) ms'
            (s.gains.map (List.map fun v => v - k)) with
              cfg := s.cfg, gains := g.map (List.map fun v => v - k'), models := ms2' } : Opt ℝ M R) = _ := key
        rw [e1]
        refine ⟨⟨rfl, ⟨ys, k1.trans y1, rfl⟩, ?_, ⟨k', ?_⟩, ?_, ?_, ?_, ?_⟩, rfl, k5, k1, k4⟩
        · rw [k2]; exact hms2
        · rw [k3]; rfl
        · intro h0; rw [k1] at h0; exact absurd h0 hne
        · rw [k4]; exact h2d
        · rw [k5]; exact hps
        · rw [k4, k1]; exact hlen

theorem refit_moved (hW : ReadsPredictions W V xi kappa mini) (hF : FitsConverted W V a c) {s s' : Opt ℝ M R}
    (hs : Sensible V a mini s.cfg) (h : Moved V a c s s') :
    Moved V a c (refit exact W dims s).1 (refit exact W dims s').1 ∧
      (refit exact W dims s').2 = (refit exact W dims s).2 ∧
      (refit exact W dims s).1.cfg = s.cfg ∧ (refit exact W dims s).1.yi = s.yi ∧
      (refit exact W dims s).1.Xi = s.Xi := by
  have hx : s'.Xi = s.Xi := by rw [h.frame]; rfl
  have hr : s'.rng = s.rng := by rw [h.frame]; rfl
  have ht : Space.transform exact dims (s'.Xi.map Val.items) = Space.transform exact dims (s.Xi.map Val.items) := by
    rw [hx]
  rw [refit_eq, refit_eq, ht]
  cases Space.transform exact dims (s.Xi.map Val.items) with
  | error e => exact ⟨h, rfl, rfl, rfl, rfl⟩
  | ok Xt =>
    simp only
    have move : ∀ r : R, Moved V a c { s with rng := r } { s' with rng := r } := by
      intro r
      obtain ⟨hfr, h1, h2, h3, h4, h5, h6, h7⟩ := h
      refine ⟨?_, h1, h2, h3, h4, h5, h6, h7⟩
      conv_lhs => rw [hfr]
      rfl
    obtain ⟨ys, y1, y2⟩ := h.ys
    have e1 : (W.fit s'.rng Xt s'.yi).1 = (W.fit s.rng Xt s.yi).1 := by
      rw [y1, y2, hr]; exact hF.rng s.rng Xt ys
    rw [e1]
    by_cases hne : ys = []
    · subst hne
      obtain ⟨e, he⟩ := hF.empty s.rng Xt
      have e2 : (W.fit s.rng Xt s.yi).2 = .error e := by rw [y1]; exact he
      have e3 : (W.fit s'.rng Xt s'.yi).2 = .error e := by rw [y2, hr]; exact he
      rw [e2, e3]
      exact ⟨move _, rfl, rfl, rfl, rfl⟩
    · have hfit : Alike (Carried V a c) (W.fit s.rng Xt s.yi).2 (W.fit s'.rng Xt s'.yi).2 := by
        rw [y1, y2, hr]; exact hF.fit s.rng Xt ys hne
      exact refitEnd_moved (dims := dims) hW (s := { s with rng := (W.fit s.rng Xt s.yi).1 }) hs (move _)
        (by show s.yi ≠ []; rw [y1]; simpa [plainYs] using hne) hfit

theorem createResult_moved (ha : 0 < a) (Xi : List (Val ℝ)) (ys : List ℝ) {ms ms' : List M}
    (hm : List.Forall₂ (Carried V a c) ms ms') :
    Alike (Result.Converted V a c) (createResult Xi (plainYs ys) ms)
      (createResult Xi (plainYs (ys.map fun y => a * y + c)) ms') := by
  unfold createResult plainYs
  rw [asColumns_of_nums, asColumns_of_nums]
  simp only [ok_bind]
  have e : npArgmin ((ys.map fun y => a * y + c).map Flt.fin) = npArgmin (ys.map Flt.fin) := by
    rw [npArgmin_fin, npArgmin_fin]
    exact npArgmin_map (affine_strictMono ha c) ys
  have e2 : (ys.map fun y => a * y + c).map Flt.fin = (ys.map Flt.fin).map (Flt.convert a c) := by
    simp only [List.map_map]
    rfl
  rw [e, e2]
  cases npArgmin (ys.map Flt.fin) with
  | error e => simp only [error_bind]; exact .error e
  | ok i =>
    simp only [ok_bind]
    cases pyGet Xi i with
    | error e => simp only [error_bind]; exact .error e
    | ok x =>
      simp only [ok_bind, pyGet_map]
      cases pyGet ys i with
      | error e => exact Alike.error e
      | ok f =>
        refine Alike.ok ?_
        exact ⟨rfl, rfl, rfl, rfl, rfl, hm⟩

/-! ### `tell` -/

/-- What `_tell` does after recording.  (optimizer.py:529-615) -/
def tellEnd {F : Type} [LinearOrder F] (A : Arith F) (W : World F M R G) (dims : List (Dim F)) (s : Opt F M R)
    (fit : Bool) : Opt F M R × Except PyErr (Result F M) :=
  if fit && decide (s.nInit ≤ 0) && s.cfg.hasEst then
    match (refit A W dims s).2 with
    | .error e => ((refit A W dims s).1, .error e)
    | .ok _ => ((refit A W dims s).1, createResult (refit A W dims s).1.Xi (refit A W dims s).1.yi
        (refit A W dims s).1.models)
  else (s, createResult s.Xi s.yi s.models)

theorem tellCore_eq {F : Type} [LinearOrder F] (A : Arith F) (W : World F M R G) (dims : List (Dim F))
    (s : Opt F M R) (x : XArg F) (y : YArg F) (fit : Bool) :
    tellCore A W dims s x y fit = match record s x y with
      | .error e => (s, .error e)
      | .ok s => tellEnd A W dims s fit := by
  unfold tellCore tellEnd
  cases record s x y with
  | error e => rfl
  | ok s =>
    simp only
    split
    · rcases refit A W dims s with ⟨s2, _ | u⟩ <;> rfl
    · rfl

theorem tellEnd_moved (hW : ReadsPredictions W V xi kappa mini) (hF : FitsConverted W V a c) {s s' : Opt ℝ M R}
    (hs : Sensible V a mini s.cfg) (h : Moved V a c s s') (fit : Bool) :
    Moved V a c (tellEnd exact W dims s fit).1 (tellEnd exact W dims s' fit).1 ∧
      Alike (Result.Converted V a c) (tellEnd exact W dims s fit).2 (tellEnd exact W dims s' fit).2 ∧
      (tellEnd exact W dims s fit).1.cfg = s.cfg ∧ (tellEnd exact W dims s fit).1.yi = s.yi := by
  have result : ∀ {s s' : Opt ℝ M R}, Moved V a c s s' →
      Alike (Result.Converted V a c) (createResult s.Xi s.yi s.models) (createResult s'.Xi s'.yi s'.models) := by
    intro s s' h
    obtain ⟨ys, y1, y2⟩ := h.ys
    have hx : s'.Xi = s.Xi := by rw [h.frame]; rfl
    rw [hx, y1, y2]
    exact createResult_moved hs.pos s.Xi ys h.models
  have hn : s'.nInit = s.nInit := by rw [h.frame]; rfl
  unfold tellEnd
  rw [hn, h.cfg_eq]
  split
  · obtain ⟨r1, r2, r3, r4, r5⟩ := refit_moved (dims := dims) hW hF hs h
    rw [r2]
    cases (refit exact W dims s).2 with
    | error e => exact ⟨r1, .error e, r3, r4⟩
    | ok u => exact ⟨r1, result r1, r3, r4⟩
  · exact ⟨h, result h, rfl, rfl⟩

theorem Moved.single {s s' : Opt ℝ M R} (h : Moved V a c s s') (p : Point ℝ) (y : ℝ) :
    Moved V a c (record.single s p (.num (.fin y))) (record.single s' p (.num (.fin (a * y + c)))) := by
  obtain ⟨hfr, ⟨ys, y1, y2⟩, hm, hk, hst, h2d, hps, hlen⟩ := h
  refine ⟨?_, ⟨ys ++ [y], ?_, ?_⟩, hm, hk, ?_, ?_, hps, ?_⟩
  · conv_lhs => rw [hfr]
    rfl
  · show s.yi ++ _ = _
    rw [y1]
    simp [plainYs]
  · show s'.yi ++ _ = _
    rw [y2]
    simp [plainYs]
  · intro h0
    simp [record.single] at h0
  · show is2D (s.Xi ++ _) = true
    unfold is2D at h2d ⊢
    simp [List.all_append, h2d, Val.isSeq]
  · simp [record.single, hlen]

theorem record_number {s : Opt ℝ M R} (hps : s.cfg.acq.isPs = false) (p : Point ℝ) (y : ℝ) :
    record s (.lst p) (.num (.fin y)) = .ok (record.single s p (.num (.fin y))) := by
  simp [record, hps, YArg.isSeq]

theorem record_batch {s : Opt ℝ M R} (hps : s.cfg.acq.isPs = false) {xs : List (Val ℝ)} (h : is2D xs = true)
    (ys : List (YArg ℝ)) : record s (.lst xs) (.seq ys) = .ok (record.batch s xs ys) := by
  simp [record, hps, YArg.isSeq, h, YArg.items]

theorem Moved.batch {s s' : Opt ℝ M R} (h : Moved V a c s s') {xs : List (Val ℝ)} (hx : is2D xs = true)
    {ys : List ℝ} (hl : xs.length = ys.length) :
    Moved V a c (record.batch s xs (plainYs ys)) (record.batch s' xs (plainYs (ys.map fun y => a * y + c))) := by
  obtain ⟨hfr, ⟨zs, y1, y2⟩, hm, hk, hst, h2d, hps, hlen⟩ := h
  refine ⟨?_, ⟨zs ++ ys, ?_, ?_⟩, hm, hk, ?_, ?_, hps, ?_⟩
  · conv_lhs => rw [hfr]
    simp [record.batch, Opt.with3, plainYs]
  · show s.yi ++ _ = _
    rw [y1]
    simp [plainYs]
  · show s'.yi ++ _ = _
    rw [y2]
    simp [plainYs]
  · intro h0
    have : s.yi = [] := (List.append_eq_nil_iff.1 h0).1
    exact hst this
  · show is2D (s.Xi ++ _) = true
    unfold is2D at h2d hx ⊢
    rw [List.all_append, h2d, hx]
    rfl
  · simp [record.batch, hlen, hl, plainYs]

/-- With nothing told so far, the two optimizers are the same. -/
theorem Moved.same {s s' : Opt ℝ M R} (h : Moved V a c s s') (h0 : s.yi = []) : s' = s := by
  obtain ⟨hfr, ⟨ys, y1, y2⟩, hm, hk, hst, h2d, hps, hlen⟩ := h
  have hys : ys = [] := by
    rw [h0] at y1
    cases ys with
    | nil => rfl
    | cons x xs => cases y1
  obtain ⟨m0, g0⟩ := hst h0
  rw [m0] at hm
  have m0' : s'.models = [] := by
    cases hm' : s'.models with
    | nil => rfl
    | cons x xs => rw [hm'] at hm; cases hm
  rw [hfr, y2, hys, m0', g0]
  unfold Opt.with3
  have : plainYs (List.map (fun y => a * y + c) []) = s.yi := by rw [h0]; rfl
  rw [this, ← m0]

theorem tellCore_one_moved (hW : ReadsPredictions W V xi kappa mini) (hF : FitsConverted W V a c) {s s' : Opt ℝ M R}
    (hs : Sensible V a mini s.cfg) (h : Moved V a c s s') (p : Point ℝ) (y : ℝ) (fit : Bool) :
    Moved V a c (tellCore exact W dims s (.lst p) (.num (.fin y)) fit).1
        (tellCore exact W dims s' (.lst p) (.num (.fin (a * y + c))) fit).1 ∧
      Alike (Result.Converted V a c) (tellCore exact W dims s (.lst p) (.num (.fin y)) fit).2
        (tellCore exact W dims s' (.lst p) (.num (.fin (a * y + c))) fit).2 ∧
      (tellCore exact W dims s (.lst p) (.num (.fin y)) fit).1.cfg = s.cfg ∧
      (tellCore exact W dims s (.lst p) (.num (.fin y)) fit).1.yi ≠ [] := by
  have hps' : s'.cfg.acq.isPs = false := by rw [h.cfg_eq]; exact h.plain
  rw [tellCore_eq, tellCore_eq, record_number h.plain, record_number hps']
  simp only
  obtain ⟨t1, t2, t3, t4⟩ := tellEnd_moved (dims := dims) hW hF (s := record.single s p (.num (.fin y))) hs
    (h.single p y) fit
  refine ⟨t1, t2, t3, ?_⟩
  rw [t4]
  simp [record.single]

theorem tellCore_batch_moved (hW : ReadsPredictions W V xi kappa mini) (hF : FitsConverted W V a c) {s s' : Opt ℝ M R}
    (hs : Sensible V a mini s.cfg) (h : Moved V a c s s') {xs : List (Val ℝ)} (hx : is2D xs = true)
    {ys : List ℝ} (hl : xs.length = ys.length) (fit : Bool) :
    Moved V a c (tellCore exact W dims s (.lst xs) (.seq (plainYs ys)) fit).1
        (tellCore exact W dims s' (.lst xs) (.seq (plainYs (ys.map fun y => a * y + c))) fit).1 ∧
      Alike (Result.Converted V a c) (tellCore exact W dims s (.lst xs) (.seq (plainYs ys)) fit).2
        (tellCore exact W dims s' (.lst xs) (.seq (plainYs (ys.map fun y => a * y + c))) fit).2 ∧
      (tellCore exact W dims s (.lst xs) (.seq (plainYs ys)) fit).1.cfg = s.cfg := by
  have hps' : s'.cfg.acq.isPs = false := by rw [h.cfg_eq]; exact h.plain
  rw [tellCore_eq, tellCore_eq, record_batch h.plain hx, record_batch hps' hx]
  simp only
  obtain ⟨t1, t2, t3, t4⟩ := tellEnd_moved (dims := dims) hW hF (s := record.batch s xs (plainYs ys)) hs
    (h.batch hx hl) fit
  exact ⟨t1, t2, t3⟩

theorem checkY_number (acq : AcqFunc) (x : XArg ℝ) (y y' : ℝ) :
    checkY acq x (.num (.fin y) : YArg ℝ) = checkY acq x (.num (.fin y')) := by
  cases x <;> simp [checkY, YArg.isSeq, YArg.isPair, YArg.isNumber]

theorem checkY_batch {acq : AcqFunc} (hps : acq.isPs = false) (x : XArg ℝ) (ys ys' : List ℝ) :
    checkY acq x (.seq (plainYs ys) : YArg ℝ) = checkY acq x (.seq (plainYs ys')) := by
  have e : ∀ ys : List ℝ, (plainYs ys).all YArg.isNumber = true := by
    intro ys
    simp [plainYs, YArg.isNumber]
  cases x <;> simp [checkY, YArg.isSeq, YArg.isPair, YArg.isNumber, YArg.items, e, hps]

theorem tell_eq_of_plain {s : Opt ℝ M R} (hps : s.cfg.acq.isPs = false) (x : XArg ℝ) (y : YArg ℝ) (fit : Bool) :
    tell exact W dims s x y fit = match (checkX dims x >>= fun _ => checkY s.cfg.acq x y) with
      | .error e => (s, .error e)
      | .ok _ => tellCore exact W dims s x y fit := by
  have hl : takeLogs W s.cfg.acq x y = .ok y := by
    unfold takeLogs
    cases x <;> simp [hps]
  unfold tell
  rw [hl]
  cases checkX dims x with
  | error e => rfl
  | ok u =>
    simp only [ok_bind]
    cases checkY s.cfg.acq x y with
    | error e => rfl
    | ok u => rfl

/-! ### `ask` -/

theorem askOne_moved {s s' : Opt ℝ M R} (h : Moved V a c s s') :
    Moved V a c (askOne exact W dims s).1 (askOne exact W dims s').1 ∧
      (askOne exact W dims s').2 = (askOne exact W dims s).2 ∧
      (askOne exact W dims s).1.cfg = s.cfg ∧ (askOne exact W dims s).1.yi = s.yi := by
  have h' := h
  obtain ⟨hfr, hy, hm, hk, hst, h2d, hps, hlen⟩ := h
  have hmod : s'.models.isEmpty = s.models.isEmpty := by
    revert hm
    generalize s.models = l
    generalize s'.models = l'
    intro hm
    cases hm <;> rfl
  have e1 : s'.nInit = s.nInit := by rw [hfr]; rfl
  have e2 : s'.cfg = s.cfg := by rw [hfr]; rfl
  have e3 : s'.initialSamples = s.initialSamples := by rw [hfr]; rfl
  have e4 : s'.rng = s.rng := by rw [hfr]; rfl
  have e5 : s'.nextX = s.nextX := by rw [hfr]; rfl
  have e6 : s'.Xi = s.Xi := by rw [hfr]; rfl
  have move : ∀ r : R, Moved V a c { s with rng := r } { s' with rng := r } := by
    intro r
    refine ⟨?_, hy, hm, hk, hst, h2d, hps, hlen⟩
    conv_lhs => rw [hfr]
    rfl
  by_cases hi : 0 < s.nInit ∨ s.cfg.hasEst = false
  · have hi' : 0 < s'.nInit ∨ s'.cfg.hasEst = false := by rw [e1, e2]; exact hi
    cases hsm : s.initialSamples with
    | none =>
      have q : ∀ t : Opt ℝ M R, (0 < t.nInit ∨ t.cfg.hasEst = false) → t.initialSamples = none →
          askOne exact W dims t = ({ t with rng := (W.draws t.rng dims 1).1 }, do
            let pts ← Space.rvs exact dims (W.draws t.rng dims 1).2; pyGet pts 0) := by
        intro t ht hn
        simp only [askOne, if_pos ht, hn]
      rw [q s hi hsm, q s' hi' (e3.trans hsm)]
      have e7 : W.draws s'.rng dims 1 = W.draws s.rng dims 1 := by rw [e4]
      rw [e7]
      exact ⟨move _, rfl, rfl, rfl⟩
    | some pts =>
      have q1 : askOne exact W dims s = (s, pyGetI pts (pts.length - s.nInit)) := by
        simp only [askOne, if_pos hi, hsm]
      have q2 : askOne exact W dims s' = (s', pyGetI pts (pts.length - s.nInit)) := by
        simp only [askOne, if_pos hi', e3.trans hsm]
        rw [e1]
      rw [q1, q2]
      exact ⟨h', rfl, rfl, rfl⟩
  · have hi' : ¬ (0 < s'.nInit ∨ s'.cfg.hasEst = false) := by rw [e1, e2]; exact hi
    have q : ∀ t : Opt ℝ M R, ¬ (0 < t.nInit ∨ t.cfg.hasEst = false) → askOne exact W dims t = (t,
        if t.models.isEmpty then .error .runtimeError else match t.nextX with
          | none => .error .attributeError
          | some x => do
            let ds ← mapE (fun xi : Val ℝ => Space.distance exact dims x xi.items) t.Xi
            if ds.isEmpty then .error .valueError else .ok x) := by
      intro t ht
      simp only [askOne, if_neg ht]
      split
      · rfl
      · cases t.nextX <;> rfl
    rw [q s hi, q s' hi', hmod, e5, e6]
    exact ⟨h', rfl, rfl, rfl⟩

theorem fltMax_convert (ha : 0 < a) (c : ℝ) {ys : List ℝ} (hne : ys ≠ []) :
    ∃ y, fltMax (ys.map Flt.fin) = .ok (.fin y) ∧
      fltMax ((ys.map fun y => a * y + c).map Flt.fin) = .ok (.fin (a * y + c)) := by
  obtain ⟨y, hy, hmax⟩ : ∃ y ∈ ys, ∀ z ∈ ys, z ≤ y := by
    clear ha
    induction ys with
    | nil => exact absurd rfl hne
    | cons x xs ih =>
      by_cases hx : xs = []
      · subst hx
        exact ⟨x, by simp, by simp⟩
      · obtain ⟨y, hy, hm⟩ := ih hx
        rcases le_total x y with hxy | hxy
        · exact ⟨y, List.mem_cons_of_mem _ hy, by simpa [hxy] using hm⟩
        · exact ⟨x, by simp, by simpa using fun z hz => (hm z hz).trans hxy⟩
  refine ⟨y, fltMax_iff.2 ⟨hy, hmax⟩, fltMax_iff.2 ⟨List.mem_map_of_mem hy, ?_⟩⟩
  intro z hz
  obtain ⟨w, hw, rfl⟩ := List.mem_map.1 hz
  exact (affine_strictMono ha c).monotone (hmax w hw)

theorem lie_convert (ha : 0 < a) {acq : AcqFunc} (hps : acq.isPs = false) (strat : Strategy) {ys : List ℝ}
    (hne : ys ≠ []) :
    ∃ y : ℝ, lie exact W acq strat (plainYs ys) = .ok (.num (.fin y)) ∧
      lie exact W acq strat (plainYs (ys.map fun y => a * y + c)) = .ok (.num (.fin (a * y + c))) := by
  have key : ∀ zs : List ℝ, zs ≠ [] → lie exact W acq strat (plainYs zs)
      = (strat.aggregate exact (zs.map Flt.fin)).map fun v => .num v := by
    intro zs hz
    unfold lie
    have h1 : (plainYs zs).isEmpty = false := by
      cases zs with
      | nil => exact absurd rfl hz
      | cons _ _ => rfl
    rw [h1, hps]
    simp only [Bool.false_eq_true, if_false]
    rw [plainYs, flatNums_fin]
    cases h : strat.aggregate exact (zs.map Flt.fin) with
    | error e => simp [h]; rfl
    | ok v => simp [h]; rfl
  have hne' : (ys.map fun y => a * y + c) ≠ [] := by simpa using hne
  rw [key _ hne, key _ hne']
  have hmean : ∃ y : ℝ, fltMean exact (ys.map Flt.fin) = .fin y ∧
      fltMean exact ((ys.map fun y => a * y + c).map Flt.fin) = .fin (a * y + c) := by
    refine ⟨_, fltMean_exact hne, ?_⟩
    rw [fltMean_exact hne']
    have hl : (ys.length : ℝ) ≠ 0 := by
      simpa using hne
    have hsum : (ys.map fun y => a * y + c).sum = a * ys.sum + c * ys.length := by
      clear hne hne' hl
      induction ys with
      | nil => simp
      | cons y ys ih => simp only [List.map_cons, List.sum_cons, ih, List.length_cons]; push_cast; ring
    rw [hsum, List.length_map]
    congr 1
    field_simp
  cases strat with
  | clMin =>
    obtain ⟨y, y1, y2⟩ := fltMin_convert ha c hne
    refine ⟨y, ?_, ?_⟩
    · simp only [Strategy.aggregate, y1]; rfl
    · simp only [Strategy.aggregate, y2]; rfl
  | clMean =>
    obtain ⟨y, y1, y2⟩ := hmean
    refine ⟨y, ?_, ?_⟩
    · simp only [Strategy.aggregate, y1]; rfl
    · simp only [Strategy.aggregate, y2]; rfl
  | clMax =>
    obtain ⟨y, y1, y2⟩ := fltMax_convert ha c hne
    refine ⟨y, ?_, ?_⟩
    · simp only [Strategy.aggregate, y1]; rfl
    · simp only [Strategy.aggregate, y2]; rfl
  | other =>
    obtain ⟨y, y1, y2⟩ := fltMax_convert ha c hne
    refine ⟨y, ?_, ?_⟩
    · simp only [Strategy.aggregate, y1]; rfl
    · simp only [Strategy.aggregate, y2]; rfl

theorem liarLoop_moved (hW : ReadsPredictions W V xi kappa mini) (hF : FitsConverted W V a c) (strat : Strategy)
    (n : Nat) {o o' : Opt ℝ M R} (hs : Sensible V a mini o.cfg) (h : Moved V a c o o') :
    (liarLoop exact W dims strat n o').2 = (liarLoop exact W dims strat n o).2 := by
  by_cases h0 : o.yi = []
  · rw [h.same h0]
  induction n generalizing o o' with
  | zero => rfl
  | succ n ih =>
    obtain ⟨a1, a2, a3, a4⟩ := askOne_moved (W := W) (dims := dims) h
    simp only [liarLoop]
    generalize askOne exact W dims o = q at a1 a2 a3 a4 ⊢
    generalize askOne exact W dims o' = q' at a1 a2 ⊢
    obtain ⟨o2, r⟩ := q
    obtain ⟨o2', r'⟩ := q'
    simp only at a1 a2 a3 a4
    subst a2
    cases r' with
    | error e => rfl
    | ok x =>
      simp only
      obtain ⟨ys, y1, y2⟩ := a1.ys
      have hys : ys ≠ [] := by
        rintro rfl
        exact h0 (a4.symm.trans y1)
      rw [a1.cfg_eq, y1, y2]
      obtain ⟨l, l1, l2⟩ := lie_convert (W := W) (c := c) hs.pos a1.plain strat hys
      rw [l1, l2]
      simp only
      obtain ⟨t1, t2, t3, t4⟩ := tellCore_one_moved (dims := dims) hW hF (by rw [a3]; exact hs) a1 x l true
      generalize tellCore exact W dims o2 (.lst x) (.num (.fin l)) true = q at t1 t2 t3 t4 ⊢
      generalize tellCore exact W dims o2' (.lst x) (.num (.fin (a * l + c))) true = q' at t1 t2 ⊢
      obtain ⟨o3, r3⟩ := q
      obtain ⟨o3', r3'⟩ := q'
      simp only at t1 t2 t3 t4
      cases t2 with
      | error e => rfl
      | ok hr =>
        simp only
        have := ih (by rw [t3, a3]; exact hs) t1 t4
        generalize liarLoop exact W dims strat n o3 = q at this ⊢
        generalize liarLoop exact W dims strat n o3' = q' at this ⊢
        obtain ⟨o4, r4⟩ := q
        obtain ⟨o4', r4'⟩ := q'
        simp only at this
        subst this
        cases r4' <;> rfl

/-! ### Construction, copies and the public methods -/

theorem init_isFresh {F : Type} (A : Arith F) (W : World F M R G) (sh : Shared F G) (cfg : Config) (rng : R)
    {sh2 : Shared F G} {o : Opt F M R} (h : Opt.init A W sh cfg rng = (sh2, .ok o)) :
    ∃ r pts, o = Opt.fresh A cfg r pts := by
  unfold Opt.init at h
  split at h
  · cases h
  · split at h
    · cases h; exact ⟨_, _, rfl⟩
    · simp only at h
      split at h
      · cases h
      · split at h
        · cases h
        · cases h; exact ⟨_, _, rfl⟩

/-- The copy before it is told the history.  (optimizer.py:307-328) -/
def copyBase {F : Type} (s o : Opt F M R) : Opt F M R :=
  { o with
    initialSamples := s.initialSamples
    gains := match s.gains with
      | some g => some g
      | none => o.gains }

theorem copy_eq {F : Type} [LinearOrder F] (A : Arith F) (W : World F M R G) (sh : Shared F G) (s : Opt F M R)
    (rng : R) : Opt.copy A W sh s rng = match (Opt.init A W sh { s.cfg with queueSize := none } rng :
        Shared F G × Except PyErr (Opt F M R)) with
      | (sh, .error e) => (sh, .error e)
      | (sh, .ok o) => if s.Xi.isEmpty then (sh, .ok (copyBase s o))
        else match (tellCore A W sh.dims (copyBase s o) (.lst s.Xi) (.seq s.yi) true).2 with
          | .error e => (sh, .error e)
          | .ok _ => (sh, .ok (tellCore A W sh.dims (copyBase s o) (.lst s.Xi) (.seq s.yi) true).1) := by
  unfold Opt.copy copyBase
  rcases (Opt.init A W sh { s.cfg with queueSize := none } rng : Shared F G × Except PyErr (Opt F M R))
    with ⟨sh2, e | o⟩
  · rfl
  · simp only
    split
    · rfl
    · generalize tellCore A W sh2.dims _ (.lst s.Xi) (.seq s.yi) true = q
      rcases q with ⟨o2, e | x⟩ <;> rfl

theorem copy_moved (hW : ReadsPredictions W V xi kappa mini) (hF : FitsConverted W V a c) (sh : Shared ℝ G)
    {s s' : Opt ℝ M R} (hs : Sensible V a mini s.cfg) (h : Moved V a c s s') (rng : R) :
    (Opt.copy exact W sh s' rng).1 = (Opt.copy exact W sh s rng).1 ∧
      Alike (fun o o' => Moved V a c o o' ∧ o.cfg = { s.cfg with queueSize := none })
        (Opt.copy exact W sh s rng).2 (Opt.copy exact W sh s' rng).2 := by
  rw [copy_eq, copy_eq, h.cfg_eq]
  rcases hi : (Opt.init exact W sh { s.cfg with queueSize := none } rng : Shared ℝ G × Except PyErr (Opt ℝ M R))
    with ⟨sh2, e | o⟩
  · exact ⟨rfl, .error e⟩
  · simp only []
    obtain ⟨r, pts, rfl⟩ := init_isFresh exact W sh _ rng hi
    have hx : s'.Xi = s.Xi := by rw [h.frame]; rfl
    have hini : s'.initialSamples = s.initialSamples := by rw [h.frame]; rfl
    rw [hx]
    by_cases h0 : s.yi = []
    · have hX : s.Xi = [] := List.eq_nil_of_length_eq_zero (by rw [h.lens, h0]; rfl)
      rw [h.same h0, hX]
      rw [if_pos (by rfl)]
      refine ⟨rfl, .ok ⟨⟨rfl, ⟨[], rfl, rfl⟩, .nil, ⟨0, ?_⟩, fun _ => ⟨rfl, rfl⟩, rfl, h.plain, rfl⟩, rfl⟩⟩
      simp
    · have hX : s.Xi.isEmpty = false := by
        cases hXi : s.Xi with
        | cons _ _ => rfl
        | nil =>
          have := h.lens
          rw [hXi] at this
          exact absurd (List.eq_nil_of_length_eq_zero this.symm) h0
      rw [hX]
      simp only [Bool.false_eq_true, if_false]
      obtain ⟨ys, y1, y2⟩ := h.ys
      obtain ⟨k, hk⟩ := h.gains
      rw [tellCore_eq, tellCore_eq, record_batch (by exact h.plain) h.seqs, record_batch (by exact h.plain) h.seqs]
      simp only
      have hmoved : Moved V a c
          (record.batch (copyBase s (Opt.fresh exact { s.cfg with queueSize := none } r pts)) s.Xi s.yi)
          (record.batch (copyBase s' (Opt.fresh exact { s.cfg with queueSize := none } r pts)) s.Xi s'.yi) := by
        refine ⟨?_, ⟨ys, y1, y2⟩, .nil, ?_, ?_, h.seqs, h.plain, h.lens⟩
        · have hl : s'.yi.length = s.yi.length := by rw [y1, y2]; simp [plainYs]
          unfold record.batch Opt.with3 copyBase
          rw [hl, hini]
        · unfold record.batch copyBase
          simp only
          rw [hk]
          cases s.gains with
          | some g => exact ⟨k, rfl⟩
          | none => refine ⟨0, ?_⟩; simp
        · intro hh; exact absurd hh h0
      obtain ⟨t1, t2, t3, t4⟩ := tellEnd_moved (dims := sh2.dims) hW hF (by exact ⟨hs.pos, hs.unit, hs.mini⟩) hmoved true
      generalize tellEnd exact W sh2.dims (record.batch (copyBase s _) s.Xi s.yi) true = q at t1 t2 t3 t4 ⊢
      generalize tellEnd exact W sh2.dims (record.batch (copyBase s' _) s.Xi s'.yi) true = q' at t1 t2 ⊢
      obtain ⟨o3, r3⟩ := q
      obtain ⟨o3', r3'⟩ := q'
      simp only at t1 t2 t3 t4
      cases t2 with
      | error e => exact ⟨rfl, .error e⟩
      | ok _ => exact ⟨rfl, .ok ⟨t1, t3⟩⟩

theorem Moved.with_rng {s s' : Opt ℝ M R} (h : Moved V a c s s') (r : R) :
    Moved V a c { s with rng := r } { s' with rng := r } := by
  obtain ⟨hfr, hy, hm, hk, hst, h2d, hps, hlen⟩ := h
  refine ⟨?_, hy, hm, hk, hst, h2d, hps, hlen⟩
  conv_lhs => rw [hfr]
  rfl

theorem Moved.with_cache {s s' : Opt ℝ M R} (h : Moved V a c s s') (k : Option ((Nat × Strategy) × List (Point ℝ))) :
    Moved V a c { s with cache := k } { s' with cache := k } := by
  obtain ⟨hfr, hy, hm, hk, hst, h2d, hps, hlen⟩ := h
  refine ⟨?_, hy, hm, hk, hst, h2d, hps, hlen⟩
  conv_lhs => rw [hfr]
  rfl

theorem Moved.with_next {s s' : Opt ℝ M R} (h : Moved V a c s s') (x : Option (Point ℝ)) :
    Moved V a c { s with nextX := x } { s' with nextX := x } := by
  obtain ⟨hfr, hy, hm, hk, hst, h2d, hps, hlen⟩ := h
  refine ⟨?_, hy, hm, hk, hst, h2d, hps, hlen⟩
  conv_lhs => rw [hfr]
  rfl

theorem Moved.with_rng_cache {s s' : Opt ℝ M R} (h : Moved V a c s s') (r : R)
    (k : Option ((Nat × Strategy) × List (Point ℝ))) :
    Moved V a c { s with rng := r, cache := k } { s' with rng := r, cache := k } :=
  (h.with_rng r).with_cache k

theorem Moved.with_cache_rng_next {s s' : Opt ℝ M R} (h : Moved V a c s s') (r : R)
    (k : Option ((Nat × Strategy) × List (Point ℝ))) (x : Option (Point ℝ)) :
    Moved V a c { s with cache := k, rng := r, nextX := x } { s' with cache := k, rng := r, nextX := x } :=
  ((h.with_rng r).with_cache k).with_next x

theorem updateNext_none {F : Type} [LinearOrder F] (A : Arith F) (W : World F M R G) (sh : Shared F G)
    {s : Opt F M R} (h : s.nextX = none) : updateNext A W sh s = (sh, { s with cache := none }, .ok ()) := by
  unfold updateNext
  simp only [h]

theorem updateNext_some {F : Type} [LinearOrder F] (A : Arith F) (W : World F M R G) (sh : Shared F G)
    {s : Opt F M R} {y : Point F} (h : s.nextX = some y) :
    updateNext A W sh s = match Opt.copy A W sh { s with cache := none } s.rng with
      | (sh, .error e) => (sh, { s with cache := none }, .error e)
      | (sh, .ok o) => match o.nextX with
        | none => (sh, { s with cache := none, rng := o.rng }, .error .attributeError)
        | some x => (sh, { s with cache := none, rng := o.rng, nextX := some x }, .ok ()) := by
  unfold updateNext
  simp only [h]
  generalize Opt.copy A W sh _ s.rng = q
  rcases q with ⟨sh2, e | o⟩
  · rfl
  · simp only
    cases o.nextX <;> rfl

theorem askMany_moved (hW : ReadsPredictions W V xi kappa mini) (hF : FitsConverted W V a c) (sh : Shared ℝ G)
    {s s' : Opt ℝ M R} (hs : Sensible V a mini s.cfg) (h : Moved V a c s s') (n : ℤ) (strat : Strategy) :
    (askMany exact W sh s' n strat).1 = (askMany exact W sh s n strat).1 ∧
      Moved V a c (askMany exact W sh s n strat).2.1 (askMany exact W sh s' n strat).2.1 ∧
      (askMany exact W sh s' n strat).2.2 = (askMany exact W sh s n strat).2.2 ∧
      (askMany exact W sh s n strat).2.1.cfg = s.cfg := by
  have hr : s'.rng = s.rng := by rw [h.frame]; rfl
  have hca : askMany.cached s' n.toNat strat = askMany.cached s n.toNat strat := by
    rw [h.frame]; rfl
  unfold askMany
  split
  · exact ⟨rfl, h, rfl, rfl⟩
  · split
    · exact ⟨rfl, h, rfl, rfl⟩
    · rw [hca]
      cases askMany.cached s n.toNat strat with
      | some X => exact ⟨rfl, h, rfl, rfl⟩
      | none =>
        simp only
        rw [hr]
        have key := copy_moved hW hF sh (s := { s with rng := (W.seed s.rng).1 }) hs (h.with_rng (W.seed s.rng).1)
          (W.seed s.rng).2
        generalize Opt.copy exact W sh { s with rng := (W.seed s.rng).1 } (W.seed s.rng).2 = q at key ⊢
        generalize Opt.copy exact W sh { s' with rng := (W.seed s.rng).1 } (W.seed s.rng).2 = q' at key ⊢
        obtain ⟨sh2, o⟩ := q
        obtain ⟨sh2', o'⟩ := q'
        obtain ⟨k1, k2⟩ := key
        simp only at k1 k2
        subst k1
        cases k2 with
        | error e => exact ⟨rfl, h.with_rng _, rfl, rfl⟩
        | @ok o o' ho =>
          simp only
          have hl := liarLoop_moved (dims := sh2'.dims) hW hF strat n.toNat (by
            rw [ho.2]; exact ⟨hs.pos, hs.unit, hs.mini⟩) ho.1
          generalize liarLoop exact W sh2'.dims strat n.toNat o = q at hl ⊢
          generalize liarLoop exact W sh2'.dims strat n.toNat o' = q' at hl ⊢
          obtain ⟨o4, r4⟩ := q
          obtain ⟨o4', r4'⟩ := q'
          simp only at hl
          subst hl
          cases r4' with
          | error e => exact ⟨rfl, h.with_rng _, rfl, rfl⟩
          | ok X => exact ⟨rfl, h.with_rng_cache _ _, rfl, rfl⟩

theorem updateNext_moved (hW : ReadsPredictions W V xi kappa mini) (hF : FitsConverted W V a c) (sh : Shared ℝ G)
    {s s' : Opt ℝ M R} (hs : Sensible V a mini s.cfg) (h : Moved V a c s s') :
    (updateNext exact W sh s').1 = (updateNext exact W sh s).1 ∧
      Moved V a c (updateNext exact W sh s).2.1 (updateNext exact W sh s').2.1 ∧
      (updateNext exact W sh s').2.2 = (updateNext exact W sh s).2.2 ∧
      (updateNext exact W sh s).2.1.cfg = s.cfg := by
  have hr : s'.rng = s.rng := by rw [h.frame]; rfl
  have hn : s'.nextX = s.nextX := by rw [h.frame]; rfl
  have hc := h.with_cache none
  have key := copy_moved hW hF sh (s := { s with cache := none }) hs hc s.rng
  cases hx : s.nextX with
  | none =>
    rw [updateNext_none exact W sh hx, updateNext_none exact W sh (hn.trans hx)]
    exact ⟨rfl, hc, rfl, rfl⟩
  | some x =>
    rw [updateNext_some exact W sh hx, updateNext_some exact W sh (hn.trans hx), hr]
    generalize Opt.copy exact W sh { s with cache := none } s.rng = q at key ⊢
    rw [show Opt.copy exact W sh { s' with cache := none, rng := s.rng } s.rng
      = Opt.copy exact W sh { s' with cache := none } s.rng by rw [← hr]]
    generalize Opt.copy exact W sh { s' with cache := none } s.rng = q' at key ⊢
    obtain ⟨sh2, o⟩ := q
    obtain ⟨sh2', o'⟩ := q'
    obtain ⟨k1, k2⟩ := key
    simp only at k1 k2
    subst k1
    cases k2 with
    | error e => exact ⟨rfl, h.with_rng_cache s.rng none, rfl, rfl⟩
    | @ok o o' ho =>
      simp only
      have h1 : o'.nextX = o.nextX := by rw [ho.1.frame]; rfl
      have h2 : o'.rng = o.rng := by rw [ho.1.frame]; rfl
      rw [h1, h2]
      cases o.nextX with
      | none => exact ⟨rfl, h.with_rng_cache _ _, rfl, rfl⟩
      | some x => exact ⟨rfl, h.with_cache_rng_next _ _ _, rfl, rfl⟩

theorem step_moved (hW : ReadsPredictions W V xi kappa mini) (hF : FitsConverted W V a c) (sh : Shared ℝ G)
    {s s' : Opt ℝ M R} (hs : Sensible V a mini s.cfg) (h : Moved V a c s s') (call : Call ℝ) (hcall : call.Finite) :
    (step exact W sh s' (call.convert a c).toOp).1 = (step exact W sh s call.toOp).1 ∧
      Moved V a c (step exact W sh s call.toOp).2.1 (step exact W sh s' (call.convert a c).toOp).2.1 ∧
      Alike (Out.Converted V a c) (step exact W sh s call.toOp).2.2
        (step exact W sh s' (call.convert a c).toOp).2.2 ∧
      (step exact W sh s call.toOp).2.1.cfg = s.cfg := by
  have told : ∀ (x : XArg ℝ) (y y' : YArg ℝ) (fit : Bool),
      (Moved V a c (tell exact W sh.dims s x y fit).1 (tell exact W sh.dims s' x y' fit).1 ∧
        Alike (Result.Converted V a c) (tell exact W sh.dims s x y fit).2 (tell exact W sh.dims s' x y' fit).2 ∧
        (tell exact W sh.dims s x y fit).1.cfg = s.cfg) →
      (step exact W sh s' (.tell x y' fit)).1 = (step exact W sh s (.tell x y fit)).1 ∧
      Moved V a c (step exact W sh s (.tell x y fit)).2.1 (step exact W sh s' (.tell x y' fit)).2.1 ∧
      Alike (Out.Converted V a c) (step exact W sh s (.tell x y fit)).2.2
        (step exact W sh s' (.tell x y' fit)).2.2 ∧
      (step exact W sh s (.tell x y fit)).2.1.cfg = s.cfg := by
    intro x y y' fit ht
    simp only [step]
    generalize tell exact W sh.dims s x y fit = q at ht ⊢
    generalize tell exact W sh.dims s' x y' fit = q' at ht ⊢
    obtain ⟨s2, r⟩ := q
    obtain ⟨s2', r'⟩ := q'
    obtain ⟨h1, h2, h3⟩ := ht
    simp only at h1 h2 h3
    cases h2 with
    | error e => exact ⟨by trivial, h1, .error e, h3⟩
    | ok hr => exact ⟨by trivial, h1, .ok (.result hr), h3⟩
  have hps' : s'.cfg.acq.isPs = false := by rw [h.cfg_eq]; exact h.plain
  cases call with
  | one p y fit =>
    obtain ⟨v, rfl⟩ := hcall
    refine told (.lst p) (.num (.fin v)) (.num (.fin (a * v + c))) fit ?_
    rw [tell_eq_of_plain h.plain, tell_eq_of_plain hps', h.cfg_eq, checkY_number _ _ (a * v + c) v]
    cases (checkX sh.dims (.lst p) >>= fun _ => checkY s.cfg.acq (.lst p) (.num (.fin v))) with
    | error e => exact ⟨h, .error e, rfl⟩
    | ok u =>
      obtain ⟨t1, t2, t3, _⟩ := tellCore_one_moved (dims := sh.dims) hW hF hs h p v fit
      exact ⟨t1, t2, t3⟩
  | batch obs fit =>
    have hobs : ∃ ys : List ℝ, obs.map Prod.snd = plainYs ys ∧
        (obs.map fun o => ((o.1, o.2.convert a c) : Point ℝ × YArg ℝ)).map Prod.snd = plainYs (ys.map fun y => a * y + c) := by
      clear told
      induction obs with
      | nil => exact ⟨[], rfl, rfl⟩
      | cons o obs ih =>
        obtain ⟨ys, y1, y2⟩ := ih fun o ho => hcall o (List.mem_cons_of_mem _ ho)
        obtain ⟨v, hv⟩ := hcall o (List.mem_cons_self ..)
        obtain ⟨p, y⟩ := o
        simp only at hv
        subst hv
        refine ⟨v :: ys, ?_, ?_⟩
        · rw [List.map_cons, y1]; rfl
        · rw [List.map_cons, List.map_cons, y2]; rfl
    obtain ⟨ys, y1, y2⟩ := hobs
    have hpts : (obs.map fun o => ((o.1, o.2.convert a c) : Point ℝ × YArg ℝ)).map (fun o => (.seq o.1 : Val ℝ)) = obs.map fun o => .seq o.1 := by
      rw [List.map_map]
      rfl
    simp only [Call.convert, Call.toOp]
    rw [hpts, y1, y2]
    refine told _ (.seq (plainYs ys)) (.seq (plainYs (ys.map fun y => a * y + c))) fit ?_
    rw [tell_eq_of_plain h.plain, tell_eq_of_plain hps', h.cfg_eq,
      checkY_batch h.plain _ (ys.map fun y => a * y + c) ys]
    cases (checkX sh.dims (.lst (obs.map fun o => .seq o.1)) >>= fun _ =>
        checkY s.cfg.acq (.lst (obs.map fun o => .seq o.1)) (.seq (plainYs ys))) with
    | error e => exact ⟨h, .error e, rfl⟩
    | ok u =>
      have h2d : is2D (obs.map fun o => (.seq o.1 : Val ℝ)) = true := by
        simp [is2D, Val.isSeq]
      have hl : (obs.map fun o => (.seq o.1 : Val ℝ)).length = ys.length := by
        have := congrArg List.length y1
        simpa [plainYs] using this
      exact tellCore_batch_moved (dims := sh.dims) hW hF hs h h2d hl fit
  | ask =>
    obtain ⟨a1, a2, a3, a4⟩ := askOne_moved (W := W) (dims := sh.dims) h
    simp only [Call.convert, Call.toOp, step]
    generalize askOne exact W sh.dims s = q at a1 a2 a3 a4 ⊢
    generalize askOne exact W sh.dims s' = q' at a1 a2 ⊢
    obtain ⟨o2, r⟩ := q
    obtain ⟨o2', r'⟩ := q'
    simp only at a1 a2 a3 a4
    subst a2
    cases r' with
    | error e => exact ⟨by trivial, a1, .error e, a3⟩
    | ok p => exact ⟨by trivial, a1, .ok (.point p), a3⟩
  | askMany n strat =>
    obtain ⟨a1, a2, a3, a4⟩ := askMany_moved hW hF sh hs h n strat
    simp only [Call.convert, Call.toOp, step]
    generalize askMany exact W sh s n strat = q at a1 a2 a3 a4 ⊢
    generalize askMany exact W sh s' n strat = q' at a1 a2 a3 ⊢
    obtain ⟨sh2, o2, r⟩ := q
    obtain ⟨sh2', o2', r'⟩ := q'
    simp only at a1 a2 a3 a4
    subst a1 a3
    cases r' with
    | error e => exact ⟨rfl, a2, .error e, a4⟩
    | ok p => exact ⟨rfl, a2, .ok (.points p), a4⟩
  | updateNext =>
    obtain ⟨a1, a2, a3, a4⟩ := updateNext_moved hW hF sh hs h
    simp only [Call.convert, Call.toOp, step]
    generalize updateNext exact W sh s = q at a1 a2 a3 a4 ⊢
    generalize updateNext exact W sh s' = q' at a1 a2 a3 ⊢
    obtain ⟨sh2, o2, r⟩ := q
    obtain ⟨sh2', o2', r'⟩ := q'
    simp only at a1 a2 a3 a4
    subst a1 a3
    cases r' with
    | error e => exact ⟨rfl, a2, .error e, a4⟩
    | ok p => exact ⟨rfl, a2, .ok .none, a4⟩
  | getResult =>
    simp only [Call.convert, Call.toOp, step, getResult]
    have hx : s'.Xi = s.Xi := by rw [h.frame]; rfl
    obtain ⟨ys, y1, y2⟩ := h.ys
    have := createResult_moved (V := V) (c := c) hs.pos s.Xi ys h.models
    rw [hx, y1, y2]
    generalize createResult s.Xi (plainYs ys) s.models = q at this ⊢
    generalize createResult s.Xi (plainYs (ys.map fun y => a * y + c)) s'.models = q' at this ⊢
    cases this with
    | error e => exact ⟨by trivial, h, .error e, by trivial⟩
    | ok hr => exact ⟨by trivial, h, .ok (.result hr), by trivial⟩

theorem runOps_moved (hW : ReadsPredictions W V xi kappa mini) (hF : FitsConverted W V a c) (calls : List (Call ℝ))
    (hcalls : ∀ call ∈ calls, call.Finite) (sh : Shared ℝ G) {s s' : Opt ℝ M R} (hs : Sensible V a mini s.cfg)
    (h : Moved V a c s s') :
    List.Forall₂ (Alike (Out.Converted V a c)) (runOps exact W sh s (calls.map Call.toOp)).2.2
      (runOps exact W sh s' ((calls.map (Call.convert a c)).map Call.toOp)).2.2 := by
  induction calls generalizing sh s s' with
  | nil => exact .nil
  | cons call calls ih =>
    obtain ⟨a1, a2, a3, a4⟩ := step_moved hW hF sh hs h call (hcalls call (List.mem_cons_self ..))
    simp only [List.map_cons, runOps]
    generalize step exact W sh s call.toOp = q at a1 a2 a3 a4 ⊢
    generalize step exact W sh s' (call.convert a c).toOp = q' at a1 a2 a3 ⊢
    obtain ⟨sh2, o2, r⟩ := q
    obtain ⟨sh2', o2', r'⟩ := q'
    simp only at a1 a2 a3 a4
    subst a1
    exact .cons a3 (ih (fun call hc => hcalls call (List.mem_cons_of_mem _ hc)) sh2' (by rw [a4]; exact hs) a2)

theorem session_moved (hW : ReadsPredictions W V xi kappa mini) (hF : FitsConverted W V a c) (gen : Option G)
    {cfg : Config} (hs : Sensible V a mini cfg) (hps : cfg.acq.isPs = false) (rng : R) (calls : List (Call ℝ))
    (hcalls : ∀ call ∈ calls, call.Finite) :
    Alike (List.Forall₂ (Alike (Out.Converted V a c))) (session exact W dims gen cfg rng calls)
      (session exact W dims gen cfg rng (calls.map (Call.convert a c))) := by
  unfold session
  rcases hi : (Opt.init exact W ⟨dims, gen⟩ cfg rng : Shared ℝ G × Except PyErr (Opt ℝ M R)) with ⟨sh2, e | o⟩
  · exact .error e
  · obtain ⟨r, pts, rfl⟩ := init_isFresh exact W _ _ rng hi
    refine .ok (runOps_moved hW hF calls hcalls sh2 hs
      ⟨rfl, ⟨[], rfl, rfl⟩, .nil, ⟨0, ?_⟩, fun _ => ⟨rfl, rfl⟩, rfl, hps, rfl⟩)
    simp

end Skopt

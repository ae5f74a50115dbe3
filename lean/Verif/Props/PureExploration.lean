import Verif.Lemmas.PureExploration
import Verif.Props.ObjectiveUnits
import Verif.Props.Minimize

/-!
# Pure exploration does not look at the values (C137)

With `acq_func="LCB"` and `kappa="inf"` the next point is where the surrogate is most uncertain (C118).  A Gaussian process
with fixed hyperparameters is uncertain where there are few observations, whatever was observed there.  So the whole
search is determined by the seed and the space: the objective values are not looked at.
-/

namespace Skopt

variable {M R G : Type} {d : Nat}

/-! ## Gaussian processes with fixed hyperparameters -/

theorem targetStd_pos (ys : List ℝ) : 0 < targetStd ys := by
  unfold targetStd
  split
  · exact one_pos
  · next h => exact lt_of_le_of_ne (Real.sqrt_nonneg _) (Ne.symm h)

/-- scikit-learn's `optimizer=None`: the hyperparameters are not fitted to the values. -/
def FixedHyper (sk : GpChoice R d) : Prop :=
  ∀ r rows (zs zs' : List ℝ), zs'.length = zs.length → sk r rows zs' = sk r rows zs

theorem gp_sameShape (rows : List (Fin d → ℝ)) (ys ys' : List ℝ)
    (k : Kernel d × Matrix (Fin rows.length) (Fin rows.length) ℝ) :
    SameShape (gpViews d false) ⟨rows.length, gpOf rows ys k⟩ ⟨rows.length, gpOf rows ys' k⟩ := by
  have h1 := targetStd_pos ys
  have h2 := targetStd_pos ys'
  refine ⟨targetStd ys' / targetStd ys, div_pos h2 h1, fun X => ?_, fun h => by cases h⟩
  simp only [gpViews, List.map_map]
  refine List.map_congr_left fun row _ => ?_
  simp only [Function.comp]
  unfold Gp.std
  rw [rawVar_congr (g := gpOf rows ys k) (g' := gpOf rows ys' k) rfl rfl rfl]
  show √(_ * targetStd ys' ^ 2) = targetStd ys' / targetStd ys * √(_ * targetStd ys ^ 2)
  have e : ∀ v : ℝ, √(v * targetStd ys' ^ 2) = targetStd ys' / targetStd ys * √(v * targetStd ys ^ 2) := by
    intro v
    rw [mul_comm v, mul_comm v, Real.sqrt_mul (sq_nonneg _), Real.sqrt_mul (sq_nonneg _), Real.sqrt_sq h1.le,
      Real.sqrt_sq h2.le]
    field_simp
  exact e _

theorem gp_fitsBlind (base : World ℝ M R G) (sk : GpChoice R d) (hsk : FixedHyper sk) (xi : ℝ) (kappa : Kappa)
    (mini : AcqMinimiser R) : FitsBlind (gpWorld base sk xi kappa mini) (gpViews d false) := by
  refine ⟨?_, ?_, ?_⟩
  · intro r X
    rcases gpInput_nums (d := d) X [] [] rfl with ⟨e, h, _⟩ | ⟨_, _, h⟩
    · refine ⟨e, ?_⟩
      simp only [gpWorld]
      rw [show gpInput d X [] = .error e from h]
    · exact absurd rfl h
  · intro r X ys ys' hl
    rcases gpInput_nums (d := d) X ys ys' hl with ⟨e, h1, h2⟩ | ⟨h1, h2, hne⟩
    · simp only [gpWorld, h1, h2]
    · simp only [gpWorld, h1, h2]
      rw [hsk r _ (standardised ys) (standardised ys') (by simpa [standardised] using hl)]
  · intro r X ys ys' hl hne
    rcases gpInput_nums (d := d) X ys ys' hl with ⟨e, h1, h2⟩ | ⟨h1, h2, _⟩
    · simp only [gpWorld, h1, h2]
      exact .error e
    · simp only [gpWorld, h1, h2]
      rw [hsk r _ (standardised ys) (standardised ys') (by simpa [standardised] using hl)]
      cases (sk r (X.map (gpVec d)) (standardised ys)).2 with
      | error e => exact .error e
      | ok k => exact .ok (gp_sameShape _ ys ys' k)

/-! ## The search -/

/-- **C137.** Take any surrogate whose uncertainty depends on the points evaluated, but (up to the unit) not on the values
found there.  With `acq_func="LCB"` and `kappa="inf"`, any sequence of calls of an optimizer and the same sequence with any
other (finite) values told have the same answers as far as points are concerned: the same exceptions, the same points asked
for (one at a time or in batches with any of the lies), and results with the same `x_iters`.  If the acquisition function is
minimised with L-BFGS, its minimisers must not depend on the unit. -/
theorem C137_same_points {W : World ℝ M R G} {V : Views M} {xi : ℝ} {mini : AcqMinimiser R}
    (hW : ReadsPredictions W V xi .inf mini) (hF : FitsBlind W V) (dims : List (Dim ℝ)) (gen : Option G) {cfg : Config}
    (hs : Exploring V mini cfg) (rng : R) {calls calls' : List (Call ℝ)} (hcalls : List.Forall₂ SameCall calls calls') :
    Alike (List.Forall₂ (Alike SamePoints)) (session exact W dims gen cfg rng calls)
      (session exact W dims gen cfg rng calls') := by
  unfold session
  rcases hi : (Opt.init exact W ⟨dims, gen⟩ cfg rng : Shared ℝ G × Except PyErr (Opt ℝ M R)) with ⟨sh2, e | o⟩
  · exact .error e
  · obtain ⟨r, pts, rfl⟩ := init_isFresh exact W _ _ rng hi
    exact .ok (runOps_blind hW hF hcalls sh2 hs (fresh_blind cfg r pts))

theorem evalAll_numbers (func : Objective ℝ) (hf : ∀ done p, ∃ v : ℝ, func done p = .ok (.num (.fin v)))
    (xs done : List (Val ℝ)) : ∃ (t : List (Event ℝ M)) (ys : List ℝ),
      evalAll func done xs = (t, .ok (plainYs ys)) ∧ evalsOf t = xs ∧ ys.length = xs.length := by
  induction xs generalizing done with
  | nil => exact ⟨[], [], rfl, rfl, rfl⟩
  | cons x xs ih =>
    obtain ⟨t, ys, e1, e2, e3⟩ := ih (done ++ [x])
    obtain ⟨v, hv⟩ := hf done x
    refine ⟨.eval x :: t, v :: ys, ?_, ?_, by simp [e3]⟩
    · simp only [evalAll, hv, e1]
      rfl
    · show x :: evalsOf t = _
      rw [e2]

theorem silent_callbacks (hist : List (Result ℝ M)) (r : Result ℝ M) (verbose : Bool) :
    ∃ t : List (Event ℝ M), evalCallbacks hist r (if verbose then [] ++ [verboseCallback] else []) 0 false
      = (t, .ok false) ∧ evalsOf t = [] := by
  cases verbose
  · exact ⟨[], rfl, rfl⟩
  · exact ⟨[.call 0 r (.ok none)], rfl, rfl⟩

/-- **C137, minimisations.** Under the same conditions two minimisations of any two objectives (with or without starting
points) evaluate the same points in the same order, end with the same exception or none, and report the same `x_iters`. -/
theorem C137_minimize {W : World ℝ M R G} {V : Views M} {xi : ℝ} {mini : AcqMinimiser R}
    (hW : ReadsPredictions W V xi .inf mini) (hF : FitsBlind W V) (sh : Shared ℝ G) (func func' : Objective ℝ)
    (hf : ∀ done p, ∃ v : ℝ, func done p = .ok (.num (.fin v)))
    (hf' : ∀ done p, ∃ v : ℝ, func' done p = .ok (.num (.fin v))) (m : MinArgs ℝ M)
    (hacq : m.opt.acq = some .LCB)
    (hopt : m.opt.optimizer = .sampling ∨ V.gradients = true ∧ AffineMinimiser mini)
    (hx0 : m.x0 = .none ∨ ∃ ps : List (Point ℝ), m.x0 = .list (ps.map .seq)) (hy0 : m.y0 = .none)
    (hcb : m.callback = .none) (rng : R) :
    evalsOf (baseMinimize exact W sh func' m rng).trace = evalsOf (baseMinimize exact W sh func m rng).trace ∧
      Alike (Option.Rel SameIters) (baseMinimize exact W sh func m rng).result
        (baseMinimize exact W sh func' m rng).result := by
  unfold baseMinimize
  cases hp : m.prepare with
  | error e => exact ⟨rfl, .error e⟩
  | ok q =>
    obtain ⟨x0, n⟩ := q
    simp only
    cases hc : mkConfig (m.optArgs n) with
    | error e => exact ⟨rfl, .error e⟩
    | ok cfg =>
      simp only
      have hs : Exploring V mini cfg := by
        unfold mkConfig at hc
        have h1 : (m.optArgs n).acq = some .LCB := hacq
        have h2 : (m.optArgs n).optimizer = m.opt.optimizer := rfl
        rw [h1, h2] at hc
        simp only at hc
        split at hc
        · cases hc
        · split at hc
          · cases hc
          · split at hc
            · cases hc
            · split at hc
              · cases hc
              · cases hc
                refine ⟨rfl, fun hl => ?_⟩
                rcases hopt with ho | ho
                · rw [ho] at hl
                  simp at hl
                · exact ho
      rcases hi : (Opt.init exact W sh cfg rng : Shared ℝ G × Except PyErr (Opt ℝ M R)) with ⟨sh2, e | s⟩
      · exact ⟨rfl, .error e⟩
      · obtain ⟨r, pts, rfl⟩ := init_isFresh exact W _ _ rng hi
        simp only
        cases checkStarts sh2.dims.length x0 with
        | error e => exact ⟨rfl, .error e⟩
        | ok u =>
          simp only [hcb, checkCallback]
          have hsil : ∀ c ∈ (if m.verbose = true then [] ++ [verboseCallback] else [] : List (Callback ℝ M)),
              ∀ h, c h = .ok none := by
            intro c hc h
            split at hc
            · simp only [List.nil_append, List.mem_singleton] at hc
              rw [hc]; rfl
            · cases hc
          have h2d : is2D x0 = true := by
            have hpts := (prepare_ok hp).2.1
            rcases hx0 with h | ⟨ps, h⟩
            · rw [h] at hpts
              cases hpts
              rfl
            · rw [h] at hpts
              cases ps with
              | nil => cases hpts
              | cons p ps =>
                simp only [List.map_cons, X0.points, Val.isSeq, if_true] at hpts
                cases hpts
                simp [is2D, Val.isSeq]
          unfold minimizeBody
          split
          · exact minimizeLoop_blind hW hF func func' hf hf' hsil hsil _ _ _ _ hs (fresh_blind cfg r pts) .none
          · simp only [hy0, startValues, Y0.values, evaluatedFirst]
            obtain ⟨t, ys, e1, e2, e3⟩ := evalAll_numbers (M := M) func hf x0 []
            obtain ⟨t', ys', e1', e2', e3'⟩ := evalAll_numbers (M := M) func' hf' x0 []
            simp only [e1, e1']
            obtain ⟨b1, b2, b3⟩ := tell_batch_blind (dims := sh2.dims) hW hF hs (fresh_blind cfg r pts) h2d e3.symm
              (e3'.trans e3.symm) true
            generalize tell exact W sh2.dims (Opt.fresh exact cfg r pts : Opt ℝ M R) (.lst x0) (.seq (plainYs ys)) true
              = q at b1 b2 b3 ⊢
            generalize tell exact W sh2.dims (Opt.fresh exact cfg r pts : Opt ℝ M R) (.lst x0) (.seq (plainYs ys')) true
              = q' at b1 b2 ⊢
            obtain ⟨o3, r3⟩ := q
            obtain ⟨o3', r3'⟩ := q'
            simp only at b1 b2 b3
            cases b2 with
            | error e => exact ⟨e2'.trans e2.symm, .error e⟩
            | @ok res res' hr =>
              obtain ⟨u1, f1, f2⟩ := silent_callbacks (M := M) [res] res m.verbose
              obtain ⟨u1', f1', f2'⟩ := silent_callbacks (M := M) [res'] res' m.verbose
              simp only [f1, f1']
              have key := minimizeLoop_blind (dims := sh2.dims) hW hF func func' hf hf' hsil hsil
                (m.nCalls - (x0.length : ℤ)).toNat x0 [res] [res'] (by rw [b3]; exact hs) b1 (.some hr)
              refine ⟨?_, key.2⟩
              simp only [evalsOf_append, f2, f2', e2, e2']
              rw [key.1]

/-- **C137, Gaussian processes.** A Gaussian process with fixed hyperparameters (`optimizer=None`), also with
`normalize_y=True`, is such a surrogate: with `acq_optimizer="sampling"` the points searched do not depend on the
objective. -/
theorem C137_gaussian_process (base : World ℝ M R G)
    (hsort : ∀ (vs : List ℝ) (τ : ℝ → ℝ), StrictMono τ →
      base.argsort (vs.map fun v => .fin (τ v)) = base.argsort (vs.map .fin))
    (sk : GpChoice R d) (hsk : FixedHyper sk) (xi : ℝ) (mini : AcqMinimiser R) (sh : Shared ℝ G)
    (func func' : Objective ℝ) (hf : ∀ done p, ∃ v : ℝ, func done p = .ok (.num (.fin v)))
    (hf' : ∀ done p, ∃ v : ℝ, func' done p = .ok (.num (.fin v))) (m : MinArgs ℝ (Sigma fun n => Gp n d))
    (hacq : m.opt.acq = some .LCB) (hopt : m.opt.acqOptimizer = .sampling)
    (hx0 : m.x0 = .none ∨ ∃ ps : List (Point ℝ), m.x0 = .list (ps.map .seq)) (hy0 : m.y0 = .none)
    (hcb : m.callback = .none) (rng : R) :
    evalsOf (baseMinimize exact (gpWorld base sk xi .inf mini) sh func' m rng).trace
      = evalsOf (baseMinimize exact (gpWorld base sk xi .inf mini) sh func m rng).trace :=
  (C137_minimize (gp_reads base hsort sk xi .inf mini false) (gp_fitsBlind base sk hsk xi .inf mini) sh func func' hf hf'
    m hacq (.inl (by simp [Args.optimizer, hopt])) hx0 hy0 hcb rng).1

/-- A Matérn process with fixed length scales; a batch of two told with other values.
Meets the hypotheses of `C137_same_points` and of `C137_gaussian_process`. -/
example : FixedHyper (d := 3) (fun (r : Unit) _ _ => (r, .ok (.matern (fun _ => 1) .fiveHalves, 1))) ∧
    ReadsPredictions (gpWorld realWorld (fun r _ _ => (r, .ok (.matern (fun _ : Fin 3 => 1) .fiveHalves, 1))) 0.01 .inf
      signStep) (gpViews 3 false) 0.01 .inf signStep ∧
    FitsBlind (gpWorld realWorld (fun r _ _ => (r, .ok (.matern (fun _ : Fin 3 => 1) .fiveHalves, 1))) 0.01 .inf
      signStep) (gpViews 3 false) ∧
    Exploring (gpViews 3 false) signStep ⟨.LCB, true, true, false, 5, 2, 1, none⟩ ∧
    SameCall (.batch [([.num 1, .num 2, .str "a"], .num (.fin 3)), ([.num 7, .num 2, .str "b"], .num (.fin 5))] true)
      (.batch [([.num 1, .num 2, .str "a"], .num (.fin 8)), ([.num 7, .num 2, .str "b"], .num (.fin (-5)))] true) :=
  ⟨fun _ _ _ _ _ => rfl, gp_reads _ (fun vs τ _ => by simp [realWorld]) _ _ _ _ _,
    gp_fitsBlind _ _ (fun _ _ _ _ _ => rfl) _ _ _, ⟨rfl, fun h => by cases h⟩,
    by
      refine .batch ?_ true
      refine .cons ⟨rfl, 3, 8, rfl, rfl⟩ (.cons ⟨rfl, 5, -5, rfl, rfl⟩ .nil)⟩

/-- A run with a starting point and two initial points, of two objectives, one of them stateful.
Meets the remaining hypotheses of `C137_minimize` and of `C137_gaussian_process`. -/
example : ∃ (m : MinArgs ℝ (Sigma fun n => Gp n 3)) (func func' : Objective ℝ),
    (∀ done p, ∃ v : ℝ, func done p = .ok (.num (.fin v))) ∧ (∀ done p, ∃ v : ℝ, func' done p = .ok (.num (.fin v))) ∧
    m.opt.acq = some .LCB ∧ m.opt.acqOptimizer = .sampling ∧
    m.x0 = .list (([[.num 1, .num 2, .str "a"]] : List (Point ℝ)).map .seq) ∧ m.y0 = .none ∧ m.callback = .none ∧
    m.prepare = .ok ([.seq [.num 1, .num 2, .str "a"]], 3) :=
  ⟨{ opt := { est := { isNone := false, isRegressor := true, isGP := true, hasGradients := true }, acq := some .LCB,
              acqOptimizer := .sampling },
     nCalls := 20, nInitialPoints := 2, x0 := .list [.seq [.num 1, .num 2, .str "a"]] },
    fun _ _ => .ok (.num (.fin 0)), fun done _ => .ok (.num (.fin (7 - done.length))), fun _ _ => ⟨_, rfl⟩,
    fun _ _ => ⟨_, rfl⟩, rfl, rfl, rfl, rfl, rfl, rfl⟩

/-! ## With a finite `kappa` the values matter -/

/-- At "a" the first value told is predicted, at "b" nothing; the uncertainty is the same. -/
noncomputable def tiltViews : Views ℝ where
  pred v X :=
    { mu := X.map fun row => match row with
        | [.str "a"] => v
        | _ => 0
      std := X.map fun _ => 1 }
  grad _ _ := ⟨0, 0, [], []⟩
  gradients := false

/-- The surrogate that predicts this; candidates are "a" and "b".  (an instance of the third-party calls of
optimizer.py:434, 536, 551-608) -/
noncomputable def tiltWorld (kappa : Kappa) : World ℝ ℝ Unit Unit where
  fit r _ ys := (r, match ys with
    | .num (.fin v) :: _ => .ok v
    | _ => .error .valueError)
  predict m X := .ok (tiltViews.pred m X).mu
  draws _ dims _ := ((), dims.map fun _ => ⟨[], [0, 1]⟩)
  acquisition m X y cand :=
    match y with
    | .nan => .error .valueError
    | .fin y => (gaussianAcquisition (.one (tiltViews.pred m X)) y cand 0.01 kappa).map (List.map Flt.fin)
  argsort v := List.range v.length
  lbfgs _ _ _ _ x := ((), .ok (x, .fin 0))
  multinomial _ p := ((), (List.range p.length).map fun i => if i = 1 then 1 else 0)
  exp x := x
  log t := .ok t
  logMax := 700
  eta := 1
  seed _ := ((), ())
  generate g dims _ _ := (g, (dims, .ok []))

theorem tilt_reads (kappa : Kappa) : ReadsPredictions (tiltWorld kappa) tiltViews 0.01 kappa signStep where
  predict _ _ := rfl
  acquisition _ _ _ _ := rfl
  lbfgs h := by cases h
  argsort vs τ _ := by simp [tiltWorld]

theorem tilt_fits (kappa : Kappa) : FitsBlind (tiltWorld kappa) tiltViews where
  empty _ _ := ⟨_, rfl⟩
  rng _ _ _ _ _ := rfl
  fit r X ys ys' hl hne := by
    cases ys with
    | nil => exact absurd rfl hne
    | cons v ys =>
      cases ys' with
      | nil => cases hl
      | cons v' ys' =>
        refine .ok ⟨1, one_pos, fun X => ?_, fun h => by cases h⟩
        simp [tiltViews]

/-- LCB, candidates only, no initial points. -/
def lcbCfg : Config := { piCfg with acq := .LCB }

theorem tilt_session (kappa : Kappa) (v : ℝ) (s : String) (hs : s = "a" ∨ s = "b")
   (h : (do let i ← npArgmin ((gaussianLcb (tiltViews.pred v [[.str "a"], [.str "b"]]) kappa).map Flt.fin)
            pyGet ([[.str "a"], [.str "b"]] : List (List (Val ℝ))) i) = .ok [.str s]) :
    session exact (tiltWorld kappa) abDims none lcbCfg () [.one [.str "a"] (.num (.fin v)) true, .ask]
      = .ok [.ok (.result ⟨.seq [.str "a"], .fin v, [.fin v], none, [.seq [.str "a"]], [v]⟩), .ok (.point [.str s])] := by
  obtain ⟨y, hy⟩ := ab_distance exact s hs
  have hfit : (tiltWorld kappa).fit () [[.str "a"]] [.num (.fin v)] = ((), .ok v) := rfl
  have hdraws : ∀ n, (tiltWorld kappa).draws () [.cat ⟨[.str "a", .str "b"], none, .identity, none, fun _ => "", fun s => .ok (.str s)⟩] n
     = ((), [⟨[], [0, 1]⟩]) := fun n => rfl
  have hacq : (tiltWorld kappa).acquisition v [[.str "a"], [.str "b"]] (.fin v) .LCB
      = .ok ((gaussianLcb (tiltViews.pred v [[.str "a"], [.str "b"]]) kappa).map Flt.fin) := rfl
  have hres : createResult [.seq [.str "a"]] [.num (.fin v)] [v] = 
      .ok (⟨.seq [.str "a"], .fin v, [.fin v], none, [.seq [.str "a"]], [v]⟩ : Result ℝ ℝ) := rfl
  have hmin : (do let ys ← flatNums [YArg.num (Flt.fin v)]; fltMin ys) = .ok (Flt.fin v) := rfl
  have hcat : Space.isCategorical ([.cat ⟨[.str "a", .str "b"], none, .identity, none, fun _ => "", fun s => .ok (.str s)⟩] : List (Dim ℝ)) = true := rfl
  have hget : pyGet [[.str s]] 0 = (.ok [.str s] : Except PyErr (Point ℝ)) := rfl
  simp only [session, Opt.init, lcbCfg, piCfg, Bool.false_eq_true, if_false, abDims, List.map_cons, List.map_nil, Call.toOp, runOps, step,
    tell, ab_check, checkY, AcqFunc.isPs, takeLogs, YArg.isSeq, Bool.false_and, YArg.isNumber, if_true, ok_bind, tellCore, record,
    record.single, Opt.fresh, Bool.true_and, Bool.and_true, List.nil_append, Val.items, refit, ab_transform', hfit, updateGains,
    pushModel, suggest, hdraws, ab_rvs, ab_transform, hmin, proposeAll, AcqFunc.candidates, proposeOne, hacq, h, hcat,
    choose, Option.getD_some, hget, ab_inverse, hres]
  simp [askOne, hy, mapE, Val.items]

/-- **C137 needs `kappa="inf"`.** With `kappa=1` (and a surrogate that meets the conditions of `C137_same_points`) the point
asked for depends on the value told. -/
theorem C137_needs_infinite_kappa :
    ReadsPredictions (tiltWorld (.num 1)) tiltViews 0.01 (.num 1) signStep ∧ FitsBlind (tiltWorld (.num 1)) tiltViews ∧
    (∃ r, session exact (tiltWorld (.num 1)) abDims none lcbCfg () [.one [.str "a"] (.num (.fin 1)) true, .ask]
      = .ok [.ok (.result r), .ok (.point [.str "b"])]) ∧
    ∃ r, session exact (tiltWorld (.num 1)) abDims none lcbCfg () [.one [.str "a"] (.num (.fin (-1))) true, .ask]
      = .ok [.ok (.result r), .ok (.point [.str "a"])] := by
  refine ⟨tilt_reads _, tilt_fits _, ⟨_, tilt_session _ 1 "b" (.inr rfl) ?_⟩, ⟨_, tilt_session _ (-1) "a" (.inl rfl) ?_⟩⟩
  · have e : (gaussianLcb (tiltViews.pred 1 [[.str "a"], [.str "b"]]) (.num 1)).map Flt.fin
        = [Flt.fin (1 - 1 * 1), Flt.fin (0 - 1 * 1)] := rfl
    rw [e, npArgmin_pair, if_pos (by norm_num)]
    rfl
  · have e : (gaussianLcb (tiltViews.pred (-1) [[.str "a"], [.str "b"]]) (.num 1)).map Flt.fin
        = [Flt.fin (-1 - 1 * 1), Flt.fin (0 - 1 * 1)] := rfl
    rw [e, npArgmin_pair, if_neg (by norm_num)]
    rfl

/-- With `kappa="inf"` "a" is asked for in both cases. -/
example (v : ℝ) : ∃ r, session exact (tiltWorld .inf) abDims none lcbCfg () [.one [.str "a"] (.num (.fin v)) true, .ask]
    = .ok [.ok (.result r), .ok (.point [.str "a"])] := by
  refine ⟨_, tilt_session _ v "a" (.inl rfl) ?_⟩
  have e : (gaussianLcb (tiltViews.pred v [[.str "a"], [.str "b"]]) .inf).map Flt.fin = [Flt.fin (-1), Flt.fin (-1)] := rfl
  rw [e, npArgmin_pair, if_neg (by norm_num)]
  rfl

end Skopt

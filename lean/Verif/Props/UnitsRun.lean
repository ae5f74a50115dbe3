import Verif.Props.ObjectiveUnits
import Verif.Props.Minimize

/-!
# Whole minimisations of `a * f + c` instead of `f` (C106)
-/

namespace Skopt

variable {M R G : Type} {V : Views M} {W : World ℝ M R G} {xi : ℝ} {kappa : Kappa} {mini : AcqMinimiser R} {a c : ℝ}
  {dims : List (Dim ℝ)}

/-- The objective `a * f + c`. -/
def convertObjective (a c : ℝ) (func : Objective ℝ) : Objective ℝ := fun done p =>
  (func done p).map (YArg.convert a c)

/-- The same event with converted values. -/
inductive Event.Converted (V : Views M) (a c : ℝ) : Event ℝ M → Event ℝ M → Prop
  | eval (x) : Event.Converted V a c (.eval x) (.eval x)
  | call (i) {r r' : Result ℝ M} (h : r.Converted V a c r') (d) : Event.Converted V a c (.call i r d) (.call i r' d)

/-- A callback whose decision does not change with the unit and zero point of the objective. -/
def SteadyCallback (V : Views M) (a c : ℝ) (cb : Callback ℝ M) : Prop :=
  ∀ hist hist', List.Forall₂ (Result.Converted V a c) hist hist' → cb hist' = cb hist

theorem tell_one_moved (hW : ReadsPredictions W V xi kappa mini) (hF : FitsConverted W V a c) {s s' : Opt ℝ M R}
    (hs : Sensible V a mini s.cfg) (h : Moved V a c s s') (p : Point ℝ) (y : ℝ) (fit : Bool) :
    Moved V a c (tell exact W dims s (.lst p) (.num (.fin y)) fit).1
        (tell exact W dims s' (.lst p) (.num (.fin (a * y + c))) fit).1 ∧
      Alike (Result.Converted V a c) (tell exact W dims s (.lst p) (.num (.fin y)) fit).2
        (tell exact W dims s' (.lst p) (.num (.fin (a * y + c))) fit).2 ∧
      (tell exact W dims s (.lst p) (.num (.fin y)) fit).1.cfg = s.cfg := by
  have hps' : s'.cfg.acq.isPs = false := by rw [h.cfg_eq]; exact h.plain
  rw [tell_eq_of_plain h.plain, tell_eq_of_plain hps', h.cfg_eq, checkY_number _ _ (a * y + c) y]
  cases (checkX dims (.lst p) >>= fun _ => checkY s.cfg.acq (.lst p) (.num (.fin y))) with
  | error e => exact ⟨h, .error e, rfl⟩
  | ok u =>
    obtain ⟨t1, t2, t3, _⟩ := tellCore_one_moved (dims := dims) hW hF hs h p y fit
    exact ⟨t1, t2, t3⟩

theorem tell_batch_moved (hW : ReadsPredictions W V xi kappa mini) (hF : FitsConverted W V a c) {s s' : Opt ℝ M R}
    (hs : Sensible V a mini s.cfg) (h : Moved V a c s s') {xs : List (Val ℝ)} (hx : is2D xs = true)
    {ys : List ℝ} (hl : xs.length = ys.length) (fit : Bool) :
    Moved V a c (tell exact W dims s (.lst xs) (.seq (plainYs ys)) fit).1
        (tell exact W dims s' (.lst xs) (.seq (plainYs (ys.map fun y => a * y + c))) fit).1 ∧
      Alike (Result.Converted V a c) (tell exact W dims s (.lst xs) (.seq (plainYs ys)) fit).2
        (tell exact W dims s' (.lst xs) (.seq (plainYs (ys.map fun y => a * y + c))) fit).2 ∧
      (tell exact W dims s (.lst xs) (.seq (plainYs ys)) fit).1.cfg = s.cfg := by
  have hps' : s'.cfg.acq.isPs = false := by rw [h.cfg_eq]; exact h.plain
  rw [tell_eq_of_plain h.plain, tell_eq_of_plain hps', h.cfg_eq, checkY_batch h.plain _ (ys.map fun y => a * y + c) ys]
  cases (checkX dims (.lst xs) >>= fun _ => checkY s.cfg.acq (.lst xs) (.seq (plainYs ys))) with
  | error e => exact ⟨h, .error e, rfl⟩
  | ok u => exact tellCore_batch_moved (dims := dims) hW hF hs h hx hl fit

theorem evalCallbacks_moved {cbs : List (Callback ℝ M)} (hc : ∀ cb ∈ cbs, SteadyCallback V a c cb)
    {hist hist' : List (Result ℝ M)} (hh : List.Forall₂ (Result.Converted V a c) hist hist')
    {r r' : Result ℝ M} (hr : r.Converted V a c r') (i : Nat) (stop : Bool) :
    List.Forall₂ (Event.Converted V a c) (evalCallbacks hist r cbs i stop).1 (evalCallbacks hist' r' cbs i stop).1 ∧
      (evalCallbacks hist' r' cbs i stop).2 = (evalCallbacks hist r cbs i stop).2 := by
  induction cbs generalizing i stop with
  | nil => exact ⟨.nil, rfl⟩
  | cons cb cbs ih =>
    have h1 := hc cb List.mem_cons_self hist hist' hh
    simp only [evalCallbacks, h1]
    cases cb hist with
    | error e => exact ⟨.cons (.call i hr _) .nil, rfl⟩
    | ok d =>
      obtain ⟨i1, i2⟩ := ih (fun cb h => hc cb (List.mem_cons_of_mem _ h)) (i + 1) (stop || d.getD false)
      exact ⟨.cons (.call i hr _) i1, i2⟩

theorem minimizeLoop_moved (hW : ReadsPredictions W V xi kappa mini) (hF : FitsConverted W V a c) (func : Objective ℝ)
    (hf : ∀ done p y, func done p = .ok y → ∃ v : ℝ, y = .num (.fin v))
    {cbs : List (Callback ℝ M)} (hc : ∀ cb ∈ cbs, SteadyCallback V a c cb)
    (n : Nat) (done : List (Val ℝ)) {hist hist' : List (Result ℝ M)}
    (hh : List.Forall₂ (Result.Converted V a c) hist hist') {s s' : Opt ℝ M R} (hs : Sensible V a mini s.cfg)
    (h : Moved V a c s s') {last last' : Option (Result ℝ M)} (hl : Option.Rel (Result.Converted V a c) last last') :
    List.Forall₂ (Event.Converted V a c) (minimizeLoop exact W dims func cbs n done hist s last).1
        (minimizeLoop exact W dims (convertObjective a c func) cbs n done hist' s' last').1 ∧
      Alike (Option.Rel (Result.Converted V a c)) (minimizeLoop exact W dims func cbs n done hist s last).2
        (minimizeLoop exact W dims (convertObjective a c func) cbs n done hist' s' last').2 := by
  induction n generalizing done hist hist' s s' last last' with
  | zero => exact ⟨.nil, .ok hl⟩
  | succ n ih =>
    obtain ⟨a1, a2, a3, a4⟩ := askOne_moved (W := W) (dims := dims) h
    simp only [minimizeLoop]
    generalize askOne exact W dims s = q at a1 a2 a3 a4 ⊢
    generalize askOne exact W dims s' = q' at a1 a2 ⊢
    obtain ⟨o2, r⟩ := q
    obtain ⟨o2', r'⟩ := q'
    simp only at a1 a2 a3 a4
    subst a2
    cases r' with
    | error e => exact ⟨.nil, .error e⟩
    | ok x =>
      simp only [convertObjective]
      cases hv : func done (.seq x) with
      | error e => exact ⟨.cons (.eval _) .nil, .error e⟩
      | ok y =>
        obtain ⟨v, rfl⟩ := hf done (.seq x) y hv
        simp only [Except.map_ok', YArg.convert]
        have a3' : Sensible V a mini o2.cfg := by rw [a3]; exact hs
        obtain ⟨t1, t2, t3⟩ := tell_one_moved (dims := dims) hW hF a3' a1 x v true
        generalize tell exact W dims o2 (.lst x) (.num (.fin v)) true = q at t1 t2 t3 ⊢
        generalize tell exact W dims o2' (.lst x) (.num (.fin (a * v + c))) true = q' at t1 t2 ⊢
        obtain ⟨o3, r3⟩ := q
        obtain ⟨o3', r3'⟩ := q'
        simp only at t1 t2 t3
        cases t2 with
        | error e => exact ⟨.cons (.eval _) .nil, .error e⟩
        | @ok r r' hr =>
          simp only
          have hh2 : List.Forall₂ (Result.Converted V a c) (hist ++ [r]) (hist' ++ [r']) :=
            List.rel_append hh (.cons hr .nil)
          obtain ⟨c1, c2⟩ := evalCallbacks_moved hc hh2 hr 0 false
          generalize evalCallbacks (hist ++ [r]) r cbs 0 false = q at c1 c2 ⊢
          generalize evalCallbacks (hist' ++ [r']) r' cbs 0 false = q' at c1 c2 ⊢
          obtain ⟨t, b⟩ := q
          obtain ⟨t', b'⟩ := q'
          simp only at c1 c2
          subst c2
          rcases b' with e | _ | _
          · exact ⟨.cons (.eval _) c1, .error e⟩
          · have key := ih (done ++ [.seq x]) hh2 (by rw [t3]; exact a3') t1 (.some hr)
            exact ⟨.cons (.eval _) (List.rel_append c1 key.1), key.2⟩
          · exact ⟨.cons (.eval _) c1, .ok (.some hr)⟩

theorem evalAll_moved (func : Objective ℝ) (hf : ∀ done p y, func done p = .ok y → ∃ v : ℝ, y = .num (.fin v))
    (xs done : List (Val ℝ)) :
    (∃ e, (evalAll (M := M) func done xs).2 = .error e ∧ (evalAll (M := M) (convertObjective a c func) done xs).2 = .error e) ∨
      ∃ ys : List ℝ, (evalAll (M := M) func done xs).2 = .ok (plainYs ys) ∧ ys.length = xs.length ∧
        (evalAll (M := M) (convertObjective a c func) done xs).2 = .ok (plainYs (ys.map fun y => a * y + c)) := by
  induction xs generalizing done with
  | nil => exact .inr ⟨[], rfl, rfl, rfl⟩
  | cons x xs ih =>
    simp only [evalAll, convertObjective]
    cases hv : func done x with
    | error e => exact .inl ⟨e, rfl, rfl⟩
    | ok y =>
      obtain ⟨v, rfl⟩ := hf done x y hv
      simp only [Except.map_ok', YArg.convert]
      rcases ih (done ++ [x]) with ⟨e, e1, e2⟩ | ⟨ys, e1, e2, e3⟩
      · left
        refine ⟨e, ?_, ?_⟩
        · rw [e1]; rfl
        · rw [e2]; rfl
      · right
        refine ⟨v :: ys, ?_, by simp [e2], ?_⟩
        · rw [e1]; rfl
        · rw [e3]; rfl

theorem evalAll_events (func : Objective ℝ)
    (xs done : List (Val ℝ)) :
    List.Forall₂ (Event.Converted V a c) (evalAll (M := M) func done xs).1
      (evalAll (M := M) (convertObjective a c func) done xs).1 := by
  induction xs generalizing done with
  | nil => exact .nil
  | cons x xs ih =>
    simp only [evalAll, convertObjective]
    cases hv : func done x with
    | error e => exact .cons (.eval _) .nil
    | ok y => exact .cons (.eval _) (ih _)

theorem checkCallback_steady {cb : CbArg ℝ M} {cbs : List (Callback ℝ M)} (h : checkCallback cb = .ok cbs)
    (hcb : ∀ f, cb = .one f ∨ (∃ fs, cb = .list fs ∧ f ∈ fs) → SteadyCallback V a c f) (verbose : Bool) :
    ∀ f ∈ (if verbose then cbs ++ [verboseCallback] else cbs), SteadyCallback V a c f := by
  have h1 : ∀ f ∈ cbs, SteadyCallback V a c f := by
    intro f hf
    cases cb with
    | none => cases h; cases hf
    | one g =>
      cases h
      simp only [List.mem_singleton] at hf
      exact hcb f (.inl (by rw [hf]))
    | list gs => cases h; exact hcb f (.inr ⟨cbs, rfl, hf⟩)
    | invalid => cases h
  cases verbose with
  | false => exact h1
  | true =>
    intro f hf
    simp only [if_true, List.mem_append, List.mem_singleton] at hf
    rcases hf with hf | rfl
    · exact h1 f hf
    · exact fun _ _ _ => rfl

/-- **C106, minimisations (restricted).** Minimising `a * f + c` instead of `f` (`0 < a`): the same points are evaluated in
the same order, the callbacks are called at the same moments with results that differ in the unit of the values only, and
the run ends with the same exception, or reports the same best point with converted values.  The callbacks must not
themselves decide by the unit (as `DeltaYStopper` does); the conditions on surrogate and acquisition function are those of
`C106_same_search_partial`.

Missing: as for `C106_same_search_partial`; and `y0` given together with starting points. -/
theorem C106_minimize_partial (hW : ReadsPredictions W V xi kappa mini) (hF : FitsConverted W V a c) (ha : 0 < a)
    (sh : Shared ℝ G) (func : Objective ℝ) (hf : ∀ done p y, func done p = .ok y → ∃ v : ℝ, y = .num (.fin v))
    (m : MinArgs ℝ M) {acq : AcqFunc} (hacq : m.opt.acq = some acq) (hps : acq.isPs = false)
    (hunit : a = 1 ∨ acq = .LCB)
    (hopt : m.opt.optimizer = .lbfgs → V.gradients = true ∧ (.LCB ∈ acq.candidates → AffineMinimiser mini))
    (hx0 : m.x0 = .none ∨ ∃ ps : List (Point ℝ), m.x0 = .list (ps.map .seq)) (hy0 : m.y0 = .none)
    (hcb : ∀ f, m.callback = .one f ∨ (∃ fs, m.callback = .list fs ∧ f ∈ fs) → SteadyCallback V a c f) (rng : R) :
    List.Forall₂ (Event.Converted V a c) (baseMinimize exact W sh func m rng).trace
        (baseMinimize exact W sh (convertObjective a c func) m rng).trace ∧
      Alike (Option.Rel (Result.Converted V a c)) (baseMinimize exact W sh func m rng).result
        (baseMinimize exact W sh (convertObjective a c func) m rng).result := by
  unfold baseMinimize
  cases hp : m.prepare with
  | error e => exact ⟨.nil, .error e⟩
  | ok q =>
    obtain ⟨x0, n⟩ := q
    simp only
    cases hc : mkConfig (m.optArgs n) with
    | error e => exact ⟨.nil, .error e⟩
    | ok cfg =>
      simp only
      have hs : Sensible V a mini cfg ∧ cfg.acq.isPs = false := by
        unfold mkConfig at hc
        have h1 : (m.optArgs n).acq = some acq := hacq
        have h2 : (m.optArgs n).optimizer = m.opt.optimizer := rfl
        rw [h1, h2] at hc
        simp only at hc
        split at hc
        · cases hc
        · split at hc
          · cases hc
          · split at hc
            · cases hc
            · split at hc
              · cases hc
              · cases hc
                refine ⟨⟨ha, hunit, fun hl => ?_⟩, hps⟩
                exact hopt (of_decide_eq_true hl)
      obtain ⟨hs, hps⟩ := hs
      rcases hi : (Opt.init exact W sh cfg rng : Shared ℝ G × Except PyErr (Opt ℝ M R)) with ⟨sh2, e | s⟩
      · exact ⟨.nil, .error e⟩
      · obtain ⟨r, pts, rfl⟩ := init_isFresh exact W _ _ rng hi
        have hstart : Moved V a c (Opt.fresh exact cfg r pts : Opt ℝ M R) (Opt.fresh exact cfg r pts) :=
          ⟨rfl, ⟨[], rfl, rfl⟩, .nil, ⟨0, by simp⟩, fun _ => ⟨rfl, rfl⟩, rfl, hps, rfl⟩
        simp only
        cases checkStarts sh2.dims.length x0 with
        | error e => exact ⟨.nil, .error e⟩
        | ok u =>
          simp only
          cases hcs : checkCallback m.callback with
          | error e => exact ⟨.nil, .error e⟩
          | ok cbs =>
            simp only
            have hsteady := checkCallback_steady hcs hcb m.verbose
            generalize (if m.verbose = true then cbs ++ [verboseCallback] else cbs) = cbs' at hsteady
            have h2d : is2D x0 = true := by
              have hpts := (prepare_ok hp).2.1
              rcases hx0 with h | ⟨ps, h⟩
              · rw [h] at hpts
                cases hpts
                rfl
              · rw [h] at hpts
                cases ps with
                | nil => cases hpts
                | cons p ps =>
                  simp only [List.map_cons, X0.points, Val.isSeq, if_true] at hpts
                  cases hpts
                  simp [is2D, Val.isSeq]
            unfold minimizeBody
            split
            · exact minimizeLoop_moved hW hF func hf hsteady _ _ .nil hs hstart .none
            · simp only [hy0, startValues, Y0.values, evaluatedFirst]
              have hev := evalAll_events (V := V) (a := a) (c := c) func x0 []
              have hvals := evalAll_moved (M := M) (a := a) (c := c) func hf x0 []
              generalize evalAll (M := M) func [] x0 = q at hev hvals ⊢
              generalize evalAll (M := M) (convertObjective a c func) [] x0 = q' at hev hvals ⊢
              obtain ⟨t, vs⟩ := q
              obtain ⟨t', vs'⟩ := q'
              simp only at hev hvals
              rcases hvals with ⟨e, rfl, rfl⟩ | ⟨ys, rfl, hl, rfl⟩
              · exact ⟨hev, .error e⟩
              · simp only
                obtain ⟨b1, b2, b3⟩ := tell_batch_moved (dims := sh2.dims) hW hF hs hstart h2d hl.symm true
                generalize tell exact W sh2.dims (Opt.fresh exact cfg r pts : Opt ℝ M R) (.lst x0) (.seq (plainYs ys))
                  true = q at b1 b2 b3 ⊢
                generalize tell exact W sh2.dims (Opt.fresh exact cfg r pts : Opt ℝ M R) (.lst x0)
                  (.seq (plainYs (ys.map fun y => a * y + c))) true = q' at b1 b2 ⊢
                obtain ⟨o3, r3⟩ := q
                obtain ⟨o3', r3'⟩ := q'
                simp only at b1 b2 b3
                cases b2 with
                | error e => exact ⟨hev, .error e⟩
                | @ok res res' hr =>
                  simp only
                  have hh2 : List.Forall₂ (Result.Converted V a c) [res] [res'] := .cons hr .nil
                  obtain ⟨c1, c2⟩ := evalCallbacks_moved hsteady hh2 hr 0 false
                  generalize evalCallbacks [res] res cbs' 0 false = q at c1 c2 ⊢
                  generalize evalCallbacks [res'] res' cbs' 0 false = q' at c1 c2 ⊢
                  obtain ⟨u, b⟩ := q
                  obtain ⟨u', b'⟩ := q'
                  simp only at c1 c2
                  subst c2
                  rcases b' with e | _ | _
                  · exact ⟨List.rel_append hev c1, .error e⟩
                  · have key := minimizeLoop_moved (dims := sh2.dims) hW hF func hf hsteady
                      (m.nCalls - (x0.length : ℤ)).toNat x0 hh2 (by rw [b3]; exact hs) b1 (.some hr)
                    exact ⟨List.rel_append hev (List.rel_append c1 key.1), key.2⟩
                  · exact ⟨List.rel_append hev c1, .ok (.some hr)⟩

/-- **C106, minimisations with Gaussian processes (restricted).** For skopt's Gaussian process (`normalize_y=True`), as in
`C106_gaussian_process_partial`.

Missing: as for `C106_gaussian_process_partial` and `C106_minimize_partial`. -/
theorem C106_gp_minimize_partial {d : Nat} (base : World ℝ M R G)
    (hsort : ∀ (vs : List ℝ) (τ : ℝ → ℝ), StrictMono τ →
      base.argsort (vs.map fun v => .fin (τ v)) = base.argsort (vs.map .fin))
    (sk : GpChoice R d) (xi : ℝ) (kappa : Kappa) (mini : AcqMinimiser R) {a c : ℝ} (ha : 0 < a)
    (sh : Shared ℝ G) (func : Objective ℝ) (hf : ∀ done p y, func done p = .ok y → ∃ v : ℝ, y = .num (.fin v))
    (m : MinArgs ℝ (Sigma fun n => Gp n d)) {acq : AcqFunc} (hacq : m.opt.acq = some acq) (hps : acq.isPs = false)
    (hunit : a = 1 ∨ acq = .LCB ∧ m.opt.optimizer = .sampling)
    (hmini : m.opt.optimizer = .lbfgs → .LCB ∈ acq.candidates → AffineMinimiser mini)
    (hx0 : m.x0 = .none ∨ ∃ ps : List (Point ℝ), m.x0 = .list (ps.map .seq)) (hy0 : m.y0 = .none)
    (hcb : m.callback = .none) (rng : R) :
    evalsOf (baseMinimize exact (gpWorld base sk xi kappa mini) sh (convertObjective a c func) m rng).trace
      = evalsOf (baseMinimize exact (gpWorld base sk xi kappa mini) sh func m rng).trace := by
  have key : ∀ l : Bool, (l = true → a = 1) →
      (m.opt.optimizer = .lbfgs → l = true ∧ (.LCB ∈ acq.candidates → AffineMinimiser mini)) →
      evalsOf (baseMinimize exact (gpWorld base sk xi kappa mini) sh (convertObjective a c func) m rng).trace
        = evalsOf (baseMinimize exact (gpWorld base sk xi kappa mini) sh func m rng).trace := by
    intro l hl hopt
    have h := (C106_minimize_partial (c := c) (gp_reads base hsort sk xi kappa mini l) (gp_fits base sk xi kappa mini ha l hl) ha sh
      func hf m hacq hps (hunit.imp_right And.left) hopt hx0 hy0 (by
        rintro f (h | ⟨fs, h, _⟩) <;> rw [hcb] at h <;> cases h) rng).1
    revert h
    generalize (baseMinimize exact (gpWorld base sk xi kappa mini) sh func m rng).trace = t
    generalize (baseMinimize exact (gpWorld base sk xi kappa mini) sh (convertObjective a c func) m rng).trace = t'
    intro h
    induction h with
    | nil => rfl
    | cons h1 _ ih =>
      cases h1 with
      | eval x =>
        show x :: evalsOf _ = x :: evalsOf _
        rw [ih]
      | call i hr d => exact ih
  by_cases ho : m.opt.optimizer = .lbfgs
  · refine key true (fun _ => ?_) fun h => ⟨rfl, hmini h⟩
    rcases hunit with h | ⟨_, h⟩
    · exact h
    · rw [ho] at h
      cases h
  · exact key false (fun h => by cases h) fun h => absurd h ho

/-- `gp_hedge` with L-BFGS after two initial points and a starting point; the objective, whose values are 1, 2, 3, …, is
replaced by the same plus 10.  Meets the hypotheses of `C106_minimize_partial` and `C106_gp_minimize_partial`. -/
example : ∃ (m : MinArgs ℝ (Sigma fun n => Gp n 3)) (func : Objective ℝ) (cb : Callback ℝ (Sigma fun n => Gp n 3)),
    (∀ done p y, func done p = .ok y → ∃ v : ℝ, y = .num (.fin v)) ∧ m.opt.acq = some .gpHedge ∧
    AcqFunc.gpHedge.isPs = false ∧ m.opt.optimizer = .lbfgs ∧ AffineMinimiser signStep ∧
    m.x0 = .list (([[.num 1, .num 2, .str "a"]] : List (Point ℝ)).map .seq) ∧ m.y0 = .none ∧
    m.callback = .one cb ∧ SteadyCallback (gpViews 3 true) 1 10 cb ∧
    convertObjective 1 10 func [] (.seq []) = .ok (.num (.fin (1 * 1 + 10))) ∧
    m.prepare = .ok ([.seq [.num 1, .num 2, .str "a"]], 3) :=
  ⟨{ opt := { est := { isGP := true, hasGradients := true }, acq := some .gpHedge },
     nCalls := 20, nInitialPoints := 2, x0 := .list [.seq [.num 1, .num 2, .str "a"]],
     callback := .one fun hist => .ok (some (decide (15 ≤ hist.length))) },
    fun done _ => .ok (.num (.fin (done.length + 1))), fun hist => .ok (some (decide (15 ≤ hist.length))),
    fun _ _ _ h => ⟨_, (Except.ok.inj h).symm⟩, rfl, rfl, rfl, signStep_affine, rfl, rfl, rfl,
    fun _ _ h => by simp [h.length_eq], by simp [convertObjective, YArg.convert, Except.map], rfl⟩

end Skopt

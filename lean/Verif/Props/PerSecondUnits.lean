import Verif.Props.ObjectiveUnits
import Mathlib.Analysis.Complex.ExponentialBounds

/-!
# C106 and C114: the per-second acquisition functions, zero point of the objective and unit of time
-/

namespace Skopt

/-! ## Specification -/

/-- The prediction `p` moved up by `c`: for the logarithm of a time, the prediction when times are measured in a unit
`exp c` times as small. -/
def Pred.later (p : Pred) (c : ℝ) : Pred := { p with mu := p.mu.map fun m => m + c }

/-- A surrogate of value and time for the model `m`, as a `MultiOutputRegressor` has them. -/
structure TimedViews (M : Type) where
  value : M → List (List (Val ℝ)) → Pred
  time : M → List (List (Val ℝ)) → Pred

/-- The acquisition values of `W` are those of skopt for the two predictions. -/
def TimedWorld (W : World ℝ M R G) (V : TimedViews M) : Prop :=
  ∀ m X y acq, W.acquisition m X (.fin y) acq =
    (gaussianAcquisition (.multi [V.value m X, V.time m X]) y acq).map (List.map Flt.fin)

/-- Surrogates whose predictions follow the data: fitted to the values plus `a` and the logarithms of the times plus `c`,
the predicted value is `a` larger everywhere and the predicted logarithm of the time `c` larger, all deviations equal. -/
def FitsShifted (W : World ℝ M R G) (V : TimedViews M) (a c : ℝ) : Prop :=
  ∀ (r : R) (X : List (List (Val ℝ))) (ys : List (ℝ × ℝ)), ys ≠ [] → ∃ r' m m',
    W.fit r X (ys.map fun y => .seq [.num (.fin y.1), .num (.fin y.2)]) = (r', .ok m) ∧
    W.fit r X (ys.map fun y => .seq [.num (.fin (y.1 + a)), .num (.fin (y.2 + c))]) = (r', .ok m') ∧
    ∀ Z, V.value m' Z = (V.value m Z).later a ∧ V.time m' Z = (V.time m Z).later c

/-- A surrogate of the time reads the logarithm of the times told. -/
def TakesLogs (W : World ℝ M R G) : Prop := ∀ t, W.log (.fin t) = .ok (.fin (Real.log t))

/-! ## Acquisition values -/

/-- **C114 (restricted): the values.** Measuring times in another unit multiplies the EIps and PIps values of all candidates
by the same positive factor, as long as the incumbent value handed to the acquisition function is the same.

Missing: the incumbent is not the same, see `C114_refuted_time_unit`. -/
theorem C114_same_ranking_partial (p t : Pred) (c yOpt : ℝ) (acq : AcqFunc) (hps : acq.isPs = true) :
    gaussianAcquisition (.multi [p, t.later c]) yOpt acq =
      (gaussianAcquisition (.multi [p, t]) yOpt acq).map (List.map fun v => v * Real.exp (-c)) := by
  have key : ∀ vals : List ℝ, perSecond vals (t.later c) = (perSecond vals t).map fun v => v * Real.exp (-c) := by
    intro vals
    have e : List.zipWith (fun m s => Real.exp (-m + 0.5 * s ^ 2)) (t.later c).mu (t.later c).std =
        (List.zipWith (fun m s => Real.exp (-m + 0.5 * s ^ 2)) t.mu t.std).map fun v => v * Real.exp (-c) := by
      simp only [Pred.later, List.zipWith_map_left, List.map_zipWith]
      congr 1
      funext m s
      rw [← Real.exp_add]
      congr 1
      ring
    unfold perSecond
    rw [e, List.zipWith_map_right, List.map_zipWith]
    congr 1
    funext a b
    ring
  cases acq with
  | EIps =>
    simp only [gaussianAcquisition, Surrogate.pair, ok_bind]
    cases gaussianEi p yOpt 0.01 with
    | error e => rfl
    | ok v => simp only [ok_bind, key, Except.map_ok']
  | PIps =>
    simp only [gaussianAcquisition, Surrogate.pair, ok_bind]
    cases gaussianPi p yOpt 0.01 with
    | error e => rfl
    | ok v => simp only [ok_bind, key, Except.map_ok']
  | _ => cases hps

/-- Meets the hypotheses of `C114_same_ranking_partial`: minutes instead of hours, 1 with deviation 1/2 predicted for the
logarithm of the time. -/
example : gaussianAcquisition (.multi [{ mu := [0], std := [1] }, ({ mu := [1], std := [1 / 2] } : Pred).later (Real.log 60)]) 2 .EIps =
    (gaussianAcquisition (.multi [{ mu := [0], std := [1] }, { mu := [1], std := [1 / 2] }]) 2 .EIps).map
      (List.map fun v => v * Real.exp (-Real.log 60)) :=
  C114_same_ranking_partial _ _ _ 2 .EIps rfl

/-! ## The search -/

/-- Predictions that move with the first value and the logarithm of the first time told: at "a" that value with deviation
1, at "b" one more with deviation 3; everywhere that logarithm with certainty. -/
noncomputable def mixViews : TimedViews (ℝ × ℝ) where
  value m X :=
    { mu := X.map fun row => m.1 + match row with
        | [.str "a"] => 0
        | _ => 1
      std := X.map fun row => match row with
        | [.str "a"] => 1
        | _ => 3 }
  time m X := { mu := X.map fun _ => m.2, std := X.map fun _ => 0 }

/-- The surrogate that predicts this; candidates are "a" and "b".  (an instance of the third-party calls of
optimizer.py:434, 536, 551-608) -/
noncomputable def mixWorld : World ℝ (ℝ × ℝ) Unit Unit where
  fit r _ ys := (r, match ys with
    | .seq [.num (.fin v), .num (.fin l)] :: _ => .ok (v, l)
    | _ => .error .valueError)
  predict m X := .ok (mixViews.value m X).mu
  draws _ dims _ := ((), dims.map fun _ => ⟨[], [0, 1]⟩)
  acquisition m X y cand :=
    match y with
    | .nan => .error .valueError
    | .fin y => (gaussianAcquisition (.multi [mixViews.value m X, mixViews.time m X]) y cand).map (List.map Flt.fin)
  argsort v := List.range v.length
  lbfgs _ _ _ _ x := ((), .ok (x, .fin 0))
  multinomial _ p := ((), (List.range p.length).map fun i => if i = 1 then 1 else 0)
  exp x := Real.exp x
  log t := match t with
    | .nan => .ok .nan
    | .fin x => .ok (.fin (Real.log x))
  logMax := 700
  eta := 1
  seed _ := ((), ())
  generate g dims _ _ := (g, (dims, .ok []))

/-- Probability of improvement per second, candidates only, no initial points. -/
def mixCfg : Config := { piCfg with acq := .PIps }

theorem mix_values (v l y : ℝ) :
    mixWorld.acquisition (v, l) [[.str "a"], [.str "b"]] (.fin y) .PIps
      = .ok [.fin (-normCdf (y - 0.01 - v) * Real.exp (-l)),
          .fin (-normCdf ((y - 0.01 - (v + 1)) / 3) * Real.exp (-l))] := by
  simp only [mixWorld, gaussianAcquisition, Surrogate.pair, gaussianPi, mixViews, stdMask, perSecond]
  simp [maskSelect, maskAssign, Except.map_ok']

theorem mix_session (v t : ℝ) (s : String) (hs : s = "a" ∨ s = "b")
   (h : (do let i ← npArgmin [Flt.fin (-normCdf (min v (Real.log t) - 0.01 - v) * Real.exp (-Real.log t)),
              .fin (-normCdf ((min v (Real.log t) - 0.01 - (v + 1)) / 3) * Real.exp (-Real.log t))]
            pyGet ([[.str "a"], [.str "b"]] : List (List (Val ℝ))) i) = .ok [.str s]) :
    session exact mixWorld abDims none mixCfg ()
        [.one [.str "a"] (.seq [.num (.fin v), .num (.fin t)]) true, .ask]
      = .ok [.ok (.result ⟨.seq [.str "a"], .fin v, [.fin v], some [.fin (Real.log t)], [.seq [.str "a"]],
            [(v, Real.log t)]⟩), .ok (.point [.str s])] := by
  obtain ⟨y, hy⟩ := ab_distance exact s hs
  set l := Real.log t with hl
  have hlog : logTime mixWorld (.seq [.num (.fin v), .num (.fin t)]) = .ok (.seq [.num (.fin v), .num (.fin l)]) := rfl
  have hfit : mixWorld.fit () [[.str "a"]] [.seq [.num (.fin v), .num (.fin l)]] = ((), .ok (v, l)) := rfl
  have hdraws : ∀ n, mixWorld.draws () [.cat ⟨[.str "a", .str "b"], none, .identity, none, fun _ => "", fun s => .ok (.str s)⟩] n
     = ((), [⟨[], [0, 1]⟩]) := fun n => rfl
  have hres : createResult [.seq [.str "a"]] [.seq [.num (.fin v), .num (.fin l)]] [(v, l)] =
      .ok (⟨.seq [.str "a"], .fin v, [.fin v], some [.fin l], [.seq [.str "a"]], [(v, l)]⟩ : Result ℝ (ℝ × ℝ)) := rfl
  have hmin : (do let ys ← flatNums [YArg.seq [.num (Flt.fin v), .num (.fin l)]]; fltMin ys) = .ok (Flt.fin (min v l)) := by
    show fltMin [Flt.fin v, .fin l] = _
    simp only [fltMin, List.foldl_cons, List.foldl_nil]
    by_cases h : v ≤ l
    · rw [min_eq_left h, min_eq_left (Flt.fin_le_fin.2 h)]
    · rw [min_eq_right (not_le.1 h).le, min_eq_right (Flt.fin_le_fin.2 (not_le.1 h).le)]
  have hcat : Space.isCategorical ([.cat ⟨[.str "a", .str "b"], none, .identity, none, fun _ => "", fun s => .ok (.str s)⟩] : List (Dim ℝ)) = true := rfl
  have hget : pyGet [[.str s]] 0 = (.ok [.str s] : Except PyErr (Point ℝ)) := rfl
  clear_value l
  have h2 : is2D ([.str "a"] : List (Val ℝ)) = false := rfl
  simp only [Bool.not_false, session, Opt.init, mixCfg, piCfg, Bool.false_eq_true, if_false, abDims, List.map_cons, List.map_nil, Call.toOp,
    runOps, step, h2, hlog, YArg.isPair,
    tell, ab_check, checkY, AcqFunc.isPs, takeLogs, YArg.isSeq, YArg.isNumber, if_true, ok_bind, tellCore, record,
    record.single, Opt.fresh, Bool.true_and, Bool.and_true, List.nil_append, Val.items, refit, ab_transform', hfit, updateGains,
    pushModel, suggest, hdraws, ab_rvs, ab_transform, hmin, proposeAll, AcqFunc.candidates, proposeOne, mix_values, h, hcat,
    choose, Option.getD_some, hget, ab_inverse, hres]

  simp [askOne, hy, mapE, Val.items]

theorem mix_timed : TimedWorld mixWorld mixViews := fun _ _ _ _ => rfl

theorem mix_fits (a c : ℝ) : FitsShifted mixWorld mixViews a c := by
  intro r X ys hne
  cases ys with
  | nil => exact absurd rfl hne
  | cons y ys =>
    refine ⟨r, (y.1, y.2), (y.1 + a, y.2 + c), rfl, rfl, fun Z => ⟨?_, ?_⟩⟩
    · simp only [mixViews, Pred.later, List.map_map]
      congr 2
      funext row
      simp only [Function.comp_apply]
      ring
    · simp only [mixViews, Pred.later, List.map_map]
      congr 2

theorem mix_logs : TakesLogs mixWorld := fun _ => rfl

/-- The answer to the `ask` after one `tell` of the value `v` and the time `t`: "b" if the predicted improvement is likelier
there, measured against the smaller of `v` and `log t`. -/
theorem mix_asks_b (v t : ℝ) (h : min v (Real.log t) - 0.01 - v < (min v (Real.log t) - 0.01 - (v + 1)) / 3) :
    session exact mixWorld abDims none mixCfg ()
        [.one [.str "a"] (.seq [.num (.fin v), .num (.fin t)]) true, .ask]
      = .ok [.ok (.result ⟨.seq [.str "a"], .fin v, [.fin v], some [.fin (Real.log t)], [.seq [.str "a"]],
            [(v, Real.log t)]⟩), .ok (.point [.str "b"])] := by
  refine mix_session v t "b" (.inr rfl) ?_
  have := mul_lt_mul_of_pos_right (normCdf_strictMono h) (Real.exp_pos (-Real.log t))
  rw [npArgmin_pair, if_pos (by linarith)]
  rfl

theorem mix_asks_a (v t : ℝ) (h : (min v (Real.log t) - 0.01 - (v + 1)) / 3 < min v (Real.log t) - 0.01 - v) :
    session exact mixWorld abDims none mixCfg ()
        [.one [.str "a"] (.seq [.num (.fin v), .num (.fin t)]) true, .ask]
      = .ok [.ok (.result ⟨.seq [.str "a"], .fin v, [.fin v], some [.fin (Real.log t)], [.seq [.str "a"]],
            [(v, Real.log t)]⟩), .ok (.point [.str "a"])] := by
  refine mix_session v t "a" (.inl rfl) ?_
  have := mul_lt_mul_of_pos_right (normCdf_strictMono h) (Real.exp_pos (-Real.log t))
  rw [npArgmin_pair, if_neg (by linarith)]
  rfl

/-- **C106 refuted for the per-second modes.** The incumbent is the minimum over values and logarithms of times together
(`np.min(self.yi)`, optimizer.py:558, flattens the two columns), so the zero point of the objective matters: there is a surrogate whose
predictions follow the data exactly, and told the value 1 taking 1 s the optimizer next asks for "b", told the value −1
taking 1 s for "a". -/
theorem C106_refuted_per_second : ∃ (W : World ℝ (ℝ × ℝ) Unit Unit) (V : TimedViews (ℝ × ℝ)) (dims : List (Dim ℝ))
    (cfg : Config) (x : Point ℝ) (o o' : Except PyErr (Out ℝ (ℝ × ℝ))),
    TimedWorld W V ∧ TakesLogs W ∧ FitsShifted W V (-2) 0 ∧ cfg.acq = .PIps ∧
    session exact W dims none cfg () [.one x (.seq [.num (.fin 1), .num (.fin 1)]) true, .ask]
      = .ok [o, .ok (.point [.str "b"])] ∧
    session exact W dims none cfg () [.one x (.seq [.num (.fin (1 + -2)), .num (.fin 1)]) true, .ask]
      = .ok [o', .ok (.point [.str "a"])] := by
  refine ⟨mixWorld, mixViews, abDims, mixCfg, [.str "a"], _, _, mix_timed, mix_logs, mix_fits _ _, rfl,
    mix_asks_b 1 1 ?_, mix_asks_a (1 + -2) 1 ?_⟩
  · rw [Real.log_one, min_eq_right (by norm_num)]
    norm_num
  · rw [Real.log_one, min_eq_left (by norm_num)]
    norm_num

/-- **C114 refuted.** For the same reason the unit of time matters: told the value 1 taking 1 time unit the optimizer next
asks for "b", told the value 1 taking 10 units of a tenth for "a". -/
theorem C114_refuted_time_unit : ∃ (W : World ℝ (ℝ × ℝ) Unit Unit) (V : TimedViews (ℝ × ℝ)) (dims : List (Dim ℝ))
    (cfg : Config) (x : Point ℝ) (o o' : Except PyErr (Out ℝ (ℝ × ℝ))),
    TimedWorld W V ∧ TakesLogs W ∧ FitsShifted W V 0 (Real.log 10) ∧ cfg.acq = .PIps ∧
    session exact W dims none cfg () [.one x (.seq [.num (.fin 1), .num (.fin 1)]) true, .ask]
      = .ok [o, .ok (.point [.str "b"])] ∧
    session exact W dims none cfg () [.one x (.seq [.num (.fin 1), .num (.fin (10 * 1))]) true, .ask]
      = .ok [o', .ok (.point [.str "a"])] := by
  refine ⟨mixWorld, mixViews, abDims, mixCfg, [.str "a"], _, _, mix_timed, mix_logs, mix_fits _ _, rfl,
    mix_asks_b 1 1 ?_, mix_asks_a 1 (10 * 1) ?_⟩
  · rw [Real.log_one, min_eq_right (by norm_num)]
    norm_num
  · rw [min_eq_left]
    · norm_num
    · rw [mul_one, Real.le_log_iff_exp_le (by norm_num)]
      exact Real.exp_one_lt_d9.le.trans (by norm_num)

end Skopt

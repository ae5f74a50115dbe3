import Verif.Props.ObjectiveUnits
import Mathlib.Analysis.Real.Pi.Bounds

/-!
# C106: the unit of the objective matters for EI
-/

namespace Skopt

open MeasureTheory ProbabilityTheory

/-- `z Φ(z) + φ(z)`: the expected improvement in units of the standard deviation. -/
noncomputable def unitEi (z : ℝ) : ℝ := z * normCdf z + normPdf z

theorem unitEi_hasDerivAt (z : ℝ) : HasDerivAt unitEi (normCdf z) z := by
  have h := ((hasDerivAt_id z).mul (normCdf_hasDerivAt z)).add (normPdf_hasDerivAt z)
  refine h.congr_deriv ?_
  simp only [id]
  ring

theorem unitEi_monotone : Monotone unitEi :=
  monotone_of_hasDerivAt_nonneg unitEi_hasDerivAt normCdf_nonneg

theorem le_unitEi (t : ℝ) : t ≤ unitEi t := by
  have hi : Integrable (fun z : ℝ => z) (gaussianReal 0 1) := by
    have := memLp_id_gaussianReal (μ := 0) (v := 1) 1
    exact this.integrable (by norm_num)
  have h1 : ∫ z, (t - z) ∂(gaussianReal 0 1) = t := by
    rw [integral_sub (integrable_const _) hi]
    simp
  rw [unitEi, ← integral_shortfall t]
  calc t = ∫ z, (t - z) ∂(gaussianReal 0 1) := h1.symm
    _ ≤ _ := integral_mono ((integrable_const _).sub hi)
      (((integrable_const t).sub hi).sup (integrable_const 0)) fun z => le_max_left _ _

theorem normCdf_zero : normCdf 0 = 1 / 2 := by
  have h1 : (gaussianReal 0 1).real (Set.Iic 0) = (gaussianReal 0 1).real (Set.Ici 0) := by
    have h := gaussianReal_map_neg (μ := 0) (v := 1)
    rw [neg_zero] at h
    conv_lhs => rw [← h]
    rw [map_measureReal_apply measurable_neg measurableSet_Iic]
    congr 1
    ext x
    simp
  have h2 : (gaussianReal 0 1).real (Set.Ici 0) = 1 - (gaussianReal 0 1).real (Set.Iic 0) := by
    have : (gaussianReal 0 1).real (Set.Ici 0) = (gaussianReal 0 1).real (Set.Ioi 0) := by
      have : NullSingletonClass (gaussianReal 0 1) := nullSingletonClass_gaussianReal (by norm_num)
      exact measureReal_congr Ioi_ae_eq_Ici.symm
    rw [this, ← Set.compl_Iic, probReal_compl_eq_one_sub measurableSet_Iic]
  rw [normCdf_eq]
  linarith

theorem normPdf_zero_bounds : 1 / 3 < normPdf 0 ∧ normPdf 0 < 0.49 := by
  have e : normPdf 0 = 1 / Real.sqrt (2 * Real.pi) := by
    simp [normPdf]
  have h1 := Real.pi_gt_three
  have h2 := Real.pi_lt_four
  have l : 2.4 < Real.sqrt (2 * Real.pi) := Real.lt_sqrt_of_sq_lt (by nlinarith)
  have u : Real.sqrt (2 * Real.pi) < 3 := by
    rw [Real.sqrt_lt' (by norm_num)]
    nlinarith
  rw [e]
  constructor
  · rw [div_lt_div_iff₀ (by norm_num) (by linarith)]
    linarith
  · rw [div_lt_iff₀ (by linarith)]
    nlinarith

theorem unitEi_minus_half : normPdf 0 - 1 / 4 ≤ unitEi (-1 / 2) := by
  have h : unitEi 0 - unitEi (-1 / 2) ≤ 1 / 2 * (0 - -1 / 2) := by
    refine Convex.image_sub_le_mul_sub_of_deriv_le (D := Set.Iic 0) (convex_Iic 0)
      (fun z _ => (unitEi_hasDerivAt z).continuousAt.continuousWithinAt)
      (fun z _ => (unitEi_hasDerivAt z).differentiableAt.differentiableWithinAt) ?_ _ (by norm_num) _ (by norm_num) (by norm_num)
    intro z hz
    rw [(unitEi_hasDerivAt z).deriv, ← normCdf_zero]
    rw [interior_Iic] at hz
    exact normCdf_strictMono.monotone (le_of_lt hz)
  have e : unitEi 0 = normPdf 0 := by simp [unitEi]
  rw [e] at h
  linarith

/-! ## A surrogate whose predictions are proportional to the values told -/

/-- At "a" zero with half of the first value told as deviation, at "b" that value with twice as much. -/
noncomputable def eiViews : Views ℝ where
  pred v X :=
    { mu := X.map fun row => v * match row with
        | [.str "a"] => 0
        | _ => 1
      std := X.map fun row => v * match row with
        | [.str "a"] => 0.5
        | _ => 2 }
  grad _ _ := ⟨0, 0, [], []⟩
  gradients := false

/-- The surrogate that predicts this; candidates are "a" and "b".  (an instance of the third-party calls of
optimizer.py:434, 536, 551-608) -/
noncomputable def eiWorld : World ℝ ℝ Unit Unit :=
  { propWorld with
    predict := fun m X => .ok (eiViews.pred m X).mu
    acquisition := fun m X y cand =>
      match y with
      | .nan => .error .valueError
      | .fin y => (gaussianAcquisition (.one (eiViews.pred m X)) y cand).map (List.map Flt.fin) }

/-- Expected improvement, candidates only, no initial points. -/
def eiCfg : Config := { piCfg with acq := .EI }

theorem scaled_ei {i s : ℝ} (hs : 0 < s) : i * normCdf (i / s) + s * normPdf (i / s) = s * unitEi (i / s) := by
  unfold unitEi
  field_simp

theorem ei_values (v : ℝ) (hv : 0 < v) :
    eiWorld.acquisition v [[.str "a"], [.str "b"]] (.fin v) .EI
      = .ok [.fin (-(v * 0.5 * unitEi ((v - 0.01) / (v * 0.5)))), .fin (-(v * 2 * unitEi ((v - 0.01 - v * 1) / (v * 2))))] := by
  have h1 : 0 < v * (0.5 : ℝ) := by positivity
  have h2 : 0 < v * (2 : ℝ) := by positivity
  rw [← scaled_ei h1, ← scaled_ei h2]
  simp only [eiWorld, gaussianAcquisition, Surrogate.single, gaussianEi, eiViews, stdMask]
  simp [h1, hv, maskSelect, maskAssign, Except.map_ok']

theorem ei_session (v : ℝ) (hv : 0 < v) (s : String) (hs : s = "a" ∨ s = "b")
   (h : (do let i ← npArgmin [Flt.fin (-(v * 0.5 * unitEi ((v - 0.01) / (v * 0.5)))),
              .fin (-(v * 2 * unitEi ((v - 0.01 - v * 1) / (v * 2))))]
            pyGet ([[.str "a"], [.str "b"]] : List (List (Val ℝ))) i) = .ok [.str s]) :
    session exact eiWorld abDims none eiCfg () [.one [.str "a"] (.num (.fin v)) true, .ask]
      = .ok [.ok (.result ⟨.seq [.str "a"], .fin v, [.fin v], none, [.seq [.str "a"]], [v]⟩), .ok (.point [.str s])] := by
  obtain ⟨y, hy⟩ := ab_distance exact s hs
  have hfit : eiWorld.fit () [[.str "a"]] [.num (.fin v)] = ((), .ok v) := rfl
  have hdraws : ∀ n, eiWorld.draws () [.cat ⟨[.str "a", .str "b"], none, .identity, none, fun _ => "", fun s => .ok (.str s)⟩] n
     = ((), [⟨[], [0, 1]⟩]) := fun n => rfl
  have hres : createResult [.seq [.str "a"]] [.num (.fin v)] [v] =
      .ok (⟨.seq [.str "a"], .fin v, [.fin v], none, [.seq [.str "a"]], [v]⟩ : Result ℝ ℝ) := rfl
  have hmin : (do let ys ← flatNums [YArg.num (Flt.fin v)]; fltMin ys) = .ok (Flt.fin v) := rfl
  have hcat : Space.isCategorical ([.cat ⟨[.str "a", .str "b"], none, .identity, none, fun _ => "", fun s => .ok (.str s)⟩] : List (Dim ℝ)) = true := rfl
  have hget : pyGet [[.str s]] 0 = (.ok [.str s] : Except PyErr (Point ℝ)) := rfl
  simp only [session, Opt.init, eiCfg, piCfg, Bool.false_eq_true, if_false, abDims, List.map_cons, List.map_nil, Call.toOp,
    runOps, step,
    tell, ab_check, checkY, AcqFunc.isPs, takeLogs, YArg.isSeq, Bool.false_and, YArg.isNumber, if_true, ok_bind, tellCore, record,
    record.single, Opt.fresh, Bool.true_and, Bool.and_true, List.nil_append, Val.items, refit, ab_transform', hfit, updateGains,
    pushModel, suggest, hdraws, ab_rvs, ab_transform, hmin, proposeAll, AcqFunc.candidates, proposeOne, ei_values v hv, h, hcat,
    choose, Option.getD_some, hget, ab_inverse, hres]
  simp [askOne, hy, mapE, Val.items]

theorem ei_reads : ReadsPredictions eiWorld eiViews 0.01 (.num 1.96) (fun _ _ x => ((), .ok (x, 0))) where
  predict _ _ := rfl
  acquisition _ _ _ _ := rfl
  lbfgs h := by cases h
  argsort vs τ _ := by simp [eiWorld, propWorld]

theorem ei_fits : FitsConverted eiWorld eiViews 0.01 0 where
  empty _ _ := ⟨_, rfl⟩
  rng _ _ _ := rfl
  fit r X ys hne := by
    cases ys with
    | nil => exact absurd rfl hne
    | cons v vs =>
      refine .ok (.affine ?_ (fun h => by cases h))
      intro X
      simp only [eiViews, List.map_map, Function.comp_def, add_zero, mul_assoc]

/-- **C106 refuted for EI, the acquisition function of `forest_minimize` and `gbrt_minimize`.** EI also demands an
improvement by `xi = 0.01`, whatever the unit: there is a surrogate whose predictions are exactly proportional to the
values told, and told 1 the optimizer next asks for "a", told 0.01 (the same value in a unit a hundred times as large) for
"b". -/
theorem C106_refuted_unit_EI : ∃ (W : World ℝ ℝ Unit Unit) (V : Views ℝ) (mini : AcqMinimiser Unit) (dims : List (Dim ℝ))
    (cfg : Config) (call : Call ℝ) (o o' : Except PyErr (Out ℝ ℝ)),
    ReadsPredictions W V 0.01 (.num 1.96) mini ∧ FitsConverted W V 0.01 0 ∧ cfg.acq = .EI ∧ call.Finite ∧
    session exact W dims none cfg () [call, .ask] = .ok [o, .ok (.point [.str "a"])] ∧
    session exact W dims none cfg () [call.convert 0.01 0, .ask] = .ok [o', .ok (.point [.str "b"])] := by
  obtain ⟨l, u⟩ := normPdf_zero_bounds
  have e0 : unitEi 0 = normPdf 0 := by simp [unitEi]
  refine ⟨eiWorld, eiViews, _, abDims, eiCfg, .one [.str "a"] (.num (.fin 1)) true, _,
    .ok (.result ⟨.seq [.str "a"], .fin 0.01, [.fin 0.01], none, [.seq [.str "a"]], [0.01]⟩), ei_reads, ei_fits, rfl,
    ⟨1, rfl⟩, ei_session 1 one_pos "a" (.inl rfl) ?_, ?_⟩
  · have h1 := le_unitEi ((1 - 0.01) / (1 * 0.5))
    have h2 : unitEi ((1 - 0.01 - 1 * 1) / (1 * 2)) ≤ unitEi 0 := unitEi_monotone (by norm_num)
    rw [npArgmin_pair, if_neg (by norm_num at h1 h2 ⊢; linarith)]
    rfl
  · have e : Call.convert 0.01 0 (.one [.str "a"] (.num (.fin 1)) true) = .one [.str "a"] (.num (.fin 0.01)) true := by
      simp [Call.convert, YArg.convert]
    rw [e]
    refine ei_session 0.01 (by norm_num) "b" (.inr rfl) ?_
    have h := unitEi_minus_half
    have z1 : ((0.01 : ℝ) - 0.01) / (0.01 * 0.5) = 0 := by norm_num
    have z2 : ((0.01 : ℝ) - 0.01 - 0.01 * 1) / (0.01 * 2) = -1 / 2 := by norm_num
    rw [npArgmin_pair, z1, z2, e0, if_pos (by linarith)]
    rfl

end Skopt

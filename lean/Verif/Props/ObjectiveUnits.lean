import Verif.Lemmas.ObjectiveUnits
import Verif.Lemmas.Learning
import Verif.Lemmas.Acquisition
import Verif.Props.GaussianProcess
import Verif.Props.Learning
import Verif.Props.Suggestion

/-!
# C106: unit and zero point of the objective
-/

namespace Skopt

variable {M R G : Type} {d : Nat}

/-! ## The surrogates skopt brings along -/

/-- `np.mean(y)` in scikit-learn's `fit` with `normalize_y`, called at gpr.py:195 (estimators made
by utils.py:384-387). -/
noncomputable def targetMean (ys : List ℝ) : ℝ := ys.sum / ys.length

/-- `np.std(y)` in scikit-learn's `fit` with `normalize_y`, called at gpr.py:195. -/
noncomputable def targetDev (ys : List ℝ) : ℝ := √((ys.map fun y => (y - targetMean ys) ^ 2).sum / ys.length)

open Classical in
/-- `_handle_zeros_in_scale(np.std(y))` in scikit-learn's `fit` with `normalize_y`, called at gpr.py:195. -/
noncomputable def targetStd (ys : List ℝ) : ℝ := if targetDev ys = 0 then 1 else targetDev ys

/-- The values the process is fitted to in scikit-learn's `fit` with `normalize_y`, called at gpr.py:195. -/
noncomputable def standardised (ys : List ℝ) : List ℝ := ys.map fun y => (y - targetMean ys) / targetStd ys

theorem targetMean_convert {a c : ℝ} {ys : List ℝ} (hne : ys ≠ []) :
    targetMean (ys.map fun y => a * y + c) = a * targetMean ys + c := by
  have hl : (ys.length : ℝ) ≠ 0 := by simpa using hne
  have hsum : (ys.map fun y => a * y + c).sum = a * ys.sum + c * ys.length := by
    clear hne hl
    induction ys with
    | nil => simp
    | cons y ys ih => simp only [List.map_cons, List.sum_cons, ih, List.length_cons]; push_cast; ring
  unfold targetMean
  rw [hsum, List.length_map]
  field_simp

theorem targetDev_convert {a c : ℝ} (ha : 0 < a) {ys : List ℝ} (hne : ys ≠ []) :
    targetDev (ys.map fun y => a * y + c) = a * targetDev ys := by
  unfold targetDev
  rw [targetMean_convert hne, List.length_map, List.map_map]
  have e : (ys.map ((fun y => (y - (a * targetMean ys + c)) ^ 2) ∘ fun y => a * y + c)).sum
      = a ^ 2 * (ys.map fun y => (y - targetMean ys) ^ 2).sum := by
    rw [← List.sum_map_mul_left]
    congr 1
    refine List.map_congr_left fun y _ => ?_
    simp only [Function.comp]
    ring
  rw [e, mul_div_assoc, Real.sqrt_mul (sq_nonneg a), Real.sqrt_sq ha.le]

theorem targetDev_zero {ys : List ℝ} (h : targetDev ys = 0) : ∀ y ∈ ys, y = targetMean ys := by
  intro y hy
  have hl : (0 : ℝ) < ys.length := by
    have : ys ≠ [] := by rintro rfl; cases hy
    exact_mod_cast List.length_pos_iff.2 this
  unfold targetDev at h
  have h0 : ∀ v ∈ ys.map fun y => (y - targetMean ys) ^ 2, (0 : ℝ) ≤ v := by
    intro v hv
    obtain ⟨w, _, rfl⟩ := List.mem_map.1 hv
    exact sq_nonneg _
  rw [Real.sqrt_eq_zero (div_nonneg (List.sum_nonneg h0) hl.le), div_eq_zero_iff] at h
  rcases h with h | h
  · have := (sum_eq_zero_of_nonneg h0).1 h _ (List.mem_map_of_mem hy)
    have := pow_eq_zero_iff (two_ne_zero) |>.1 this
    linarith
  · exact absurd h hl.ne'

theorem standardised_convert {a c : ℝ} (ha : 0 < a) {ys : List ℝ} (hne : ys ≠ []) :
    standardised (ys.map fun y => a * y + c) = standardised ys := by
  unfold standardised
  rw [targetMean_convert hne, List.map_map]
  refine List.map_congr_left fun y hy => ?_
  unfold targetStd
  rw [targetDev_convert ha hne]
  simp only [Function.comp]
  by_cases h : targetDev ys = 0
  · rw [targetDev_zero h y hy]
    simp
  · rw [if_neg h, if_neg (mul_ne_zero ha.ne' h)]
    field_simp
    ring

/-- scikit-learn's choice of the hyperparameters from the rows and the standardised values: `kernel_` (after the noise
was taken out) and `L_`.  It may draw random numbers and fail.  (called at gpr.py:195) -/
abbrev GpChoice (R : Type) (d : Nat) :=
  R → (rows : List (Fin d → ℝ)) → List ℝ →
    R × Except PyErr (Kernel d × Matrix (Fin rows.length) (Fin rows.length) ℝ)

/-- The fitted regressor, gpr.py:195-235; `alpha_ = cho_solve((L_, True), y_train_)`. -/
noncomputable def gpOf (rows : List (Fin d → ℝ)) (ys : List ℝ)
    (k : Kernel d × Matrix (Fin rows.length) (Fin rows.length) ℝ) : Gp rows.length d where
  kernel := k.1
  X := rows.get
  L := k.2
  alpha := ((k.2 * k.2.transpose)⁻¹).mulVec fun i => (standardised ys).getD i 0
  yMean := targetMean ys
  yStd := targetStd ys

/-- A transformed point as a vector; entries that are no numbers do not occur, see `gpInput`.  (gpr.py:287, 315) -/
noncomputable def gpVec (d : Nat) (row : List (Val ℝ)) : Fin d → ℝ := fun i =>
  match row[i.val]? with
  | some (.num v) => v
  | _ => 0

/-- `check_X_y` of scikit-learn, called at gpr.py:195: numbers in rows of one length, as many rows as (finite) values,
at least one. -/
noncomputable def gpInput (d : Nat) (X : List (List (Val ℝ))) (ys : List (YArg ℝ)) :
    Except PyErr (List (Fin d → ℝ) × List ℝ) := do
  let vals ← mapE (fun y : YArg ℝ => match y with
    | .num (.fin v) => .ok v
    | _ => .error PyErr.valueError) ys
  let _ ← mapE (fun row : List (Val ℝ) =>
    if row.length = d then mapE Val.toNum row else .error PyErr.valueError) X
  if X.length = vals.length ∧ vals ≠ [] then .ok (X.map (gpVec d), vals) else .error .valueError

/-- `gradient_x` at a transformed point, gpr.py:346; zeros if there is none. -/
noncomputable def gpGrad {n : Nat} (g : Gp n d) (x : Fin d → ℝ) : Fin n → Fin d → ℝ :=
  match g.gradient x with
  | .ok grad => grad
  | .error _ => fun _ _ => 0

/-- What a Gaussian process says about transformed points, with gradients (`lbfgs`) or without.  (Kernels without
gradient, see C55, are not meant when gradients are used.) -/
noncomputable def gpViews (d : Nat) (lbfgs : Bool) : Views (Sigma fun n => Gp n d) where
  pred m X := { mu := X.map fun row => m.2.mean (gpVec d row), std := X.map fun row => m.2.std (gpVec d row) }
  grad m z :=
    ⟨m.2.mean (gpVec d z), m.2.std (gpVec d z), List.ofFn (m.2.gradMean (gpGrad m.2 (gpVec d z))),
      List.ofFn (m.2.gradStd (gpVec d z) (gpGrad m.2 (gpVec d z)))⟩
  gradients := lbfgs

/-- The third-party calls with skopt's Gaussian process (`normalize_y=True`) as surrogate, given everything else:
fitting (gpr.py:166-235), predicting (gpr.py:314-343), `_gaussian_acquisition` (acquisition.py:20-87) and
`fmin_l_bfgs_b` on it (optimizer.py:573-580). -/
noncomputable def gpWorld (base : World ℝ M R G) (sk : GpChoice R d) (xi : ℝ) (kappa : Kappa) (mini : AcqMinimiser R) :
    World ℝ (Sigma fun n => Gp n d) R G where
  fit r X ys :=
    match gpInput d X ys with
    | .error e => (r, .error e)
    | .ok p => ((sk r p.1 (standardised p.2)).1,
        (sk r p.1 (standardised p.2)).2.map fun k => ⟨p.1.length, gpOf p.1 p.2 k⟩)
  predict m X := .ok ((gpViews d true).pred m X).mu
  draws := base.draws
  acquisition m X y cand :=
    match y with
    | .nan => .error .valueError
    | .fin y => (gaussianAcquisition (.one ((gpViews d true).pred m X)) y cand xi kappa).map (List.map Flt.fin)
  argsort := base.argsort
  lbfgs r m y cand x :=
    match y with
    | .nan => (r, .error .valueError)
    | .fin y =>
      ((mini r (fun z => gaussianAcquisitionGrad (.one ((gpViews d true).grad m z)) y cand xi kappa) x).1,
       (mini r (fun z => gaussianAcquisitionGrad (.one ((gpViews d true).grad m z)) y cand xi kappa) x).2.map
         fun p => (p.1, .fin p.2))
  multinomial := base.multinomial
  exp := base.exp
  log := base.log
  logMax := base.logMax
  eta := base.eta
  seed := base.seed
  generate := base.generate

theorem gpInput_nums (X : List (List (Val ℝ))) (ys ys' : List ℝ) (hl : ys'.length = ys.length) :
    (∃ e, gpInput d X (ys.map fun y => .num (.fin y)) = .error e ∧
      gpInput d X (ys'.map fun y => .num (.fin y)) = .error e) ∨
    (gpInput d X (ys.map fun y => .num (.fin y)) = .ok (X.map (gpVec d), ys) ∧
      gpInput d X (ys'.map fun y => .num (.fin y)) = .ok (X.map (gpVec d), ys') ∧ ys ≠ []) := by
  have key : ∀ zs : List ℝ, mapE (fun y : YArg ℝ => match y with
      | .num (.fin v) => .ok v
      | _ => .error PyErr.valueError) (zs.map fun y => .num (.fin y)) = .ok zs := by
    intro zs
    induction zs with
    | nil => rfl
    | cons z zs ih => simp only [List.map_cons, mapE, ih]
  unfold gpInput
  rw [key, key]
  simp only [ok_bind]
  cases mapE (fun row : List (Val ℝ) =>
    if row.length = d then mapE Val.toNum row else .error PyErr.valueError) X with
  | error e => exact .inl ⟨e, rfl, rfl⟩
  | ok u =>
    simp only [ok_bind]
    have he : ys' ≠ [] ↔ ys ≠ [] := by
      rw [← List.length_pos_iff, ← List.length_pos_iff, hl]
    by_cases h : X.length = ys.length ∧ ys ≠ []
    · right
      rw [if_pos h, if_pos ⟨h.1.trans hl.symm, he.2 h.2⟩]
      exact ⟨rfl, rfl, h.2⟩
    · left
      rw [if_neg h, if_neg fun h' => h ⟨h'.1.trans hl, he.1 h'.2⟩]
      exact ⟨_, rfl, rfl⟩

theorem gp_reads (base : World ℝ M R G) (hsort : ∀ (vs : List ℝ) (τ : ℝ → ℝ), StrictMono τ →
      base.argsort (vs.map fun v => .fin (τ v)) = base.argsort (vs.map .fin))
    (sk : GpChoice R d) (xi : ℝ) (kappa : Kappa) (mini : AcqMinimiser R) (lbfgs : Bool) :
    ReadsPredictions (gpWorld base sk xi kappa mini) (gpViews d lbfgs) xi kappa mini where
  predict _ _ := rfl
  acquisition _ _ _ _ := rfl
  lbfgs _ _ _ _ _ _ := rfl
  argsort := hsort

section
variable {n : Nat} {g g' : Gp n d} (hk : g'.kernel = g.kernel) (hX : g'.X = g.X) (hL : g'.L = g.L)
include hk hX

theorem gpGrad_congr (x : Fin d → ℝ) : gpGrad g' x = gpGrad g x := by
  unfold gpGrad Gp.gradient
  rw [hk, hX]

theorem kTrans_congr (x : Fin d → ℝ) : g'.kTrans x = g.kTrans x := by
  unfold Gp.kTrans
  rw [hk, hX]

include hL

theorem rawVar_congr (x : Fin d → ℝ) : g'.rawVar x = g.rawVar x := by
  unfold Gp.rawVar Gp.Kinv
  rw [kTrans_congr hk hX, hk, hL]

theorem std_congr (hs : g'.yStd = g.yStd) (x : Fin d → ℝ) : g'.std x = g.std x := by
  unfold Gp.std
  rw [rawVar_congr hk hX hL, hs]

theorem gradStd_congr (hs : g'.yStd = g.yStd) (x : Fin d → ℝ) (gr : Fin n → Fin d → ℝ) :
    g'.gradStd x gr = g.gradStd x gr := by
  unfold Gp.gradStd Gp.Kinv
  rw [std_congr hk hX hL hs, kTrans_congr hk hX, hL, hs]

end

theorem gp_carried {a c : ℝ} (ha : 0 < a) (lbfgs : Bool) (hg : lbfgs = true → a = 1) {rows : List (Fin d → ℝ)}
    {ys : List ℝ} (hne : ys ≠ []) (k : Kernel d × Matrix (Fin rows.length) (Fin rows.length) ℝ) :
    Carried (gpViews d lbfgs) a c ⟨rows.length, gpOf rows ys k⟩
      ⟨rows.length, gpOf rows (ys.map fun y => a * y + c) k⟩ := by
  have halpha : (gpOf rows (ys.map fun y => a * y + c) k).alpha = (gpOf rows ys k).alpha := by
    simp only [gpOf, standardised_convert ha hne]
  have hmean : (gpOf rows (ys.map fun y => a * y + c) k).yMean = a * (gpOf rows ys k).yMean + c :=
    targetMean_convert hne
  have hk : (gpOf rows (ys.map fun y => a * y + c) k).kernel = (gpOf rows ys k).kernel := rfl
  have hX : (gpOf rows (ys.map fun y => a * y + c) k).X = (gpOf rows ys k).X := rfl
  have hL : (gpOf rows (ys.map fun y => a * y + c) k).L = (gpOf rows ys k).L := rfl
  generalize hq : gpOf rows (ys.map fun y => a * y + c) k = g' at *
  have hq' : g'.yStd = targetStd (ys.map fun y => a * y + c) := by rw [← hq]; rfl
  clear hq
  by_cases h0 : targetDev ys = 0
  · have hstd : g'.yStd = (gpOf rows ys k).yStd := by
      rw [hq']
      simp only [gpOf, targetStd, targetDev_convert ha hne, h0, mul_zero]
    have hal : (gpOf rows ys k).alpha = 0 := by
      have hz : (fun i : Fin rows.length => (standardised ys).getD i 0) = 0 := by
        funext i
        unfold standardised
        rw [List.getD_eq_getElem?_getD, List.getElem?_map]
        cases h : ys[i.val]? with
        | none => rfl
        | some y =>
          have := targetDev_zero h0 y (List.mem_of_getElem? h)
          simp [← this]
      simp only [gpOf, hz, Matrix.mulVec_zero]
    have m1 : ∀ x, (gpOf rows ys k).mean x = (gpOf rows ys k).yMean := by
      intro x
      simp [Gp.mean, hal]
    have m2 : ∀ x, g'.mean x = a * (gpOf rows ys k).yMean + c := by
      intro x
      rw [Gp.mean, halpha, hal, hmean]
      simp
    have s2 : ∀ x, g'.std x = (gpOf rows ys k).std x := by
      exact std_congr hk hX hL hstd
    refine .flat (gpOf rows ys k).yMean ?_ ?_ ?_ ?_
    · intro X v hv
      obtain ⟨row, _, rfl⟩ := List.mem_map.1 hv
      exact m1 _
    · intro X
      simp only [gpViews, m1, m2, s2, List.map_map, Function.comp_def]
    · intro _ z
      exact m1 _
    · intro _ z
      have g1 : ∀ gr, g'.gradMean gr = (gpOf rows ys k).gradMean gr := by
        intro gr
        unfold Gp.gradMean
        rw [halpha, hstd]
      have g2 : ∀ x gr, g'.gradStd x gr = (gpOf rows ys k).gradStd x gr := by
        exact gradStd_congr hk hX hL hstd
      have gr := gpGrad_congr hk hX (gpVec d z)
      simp only [gpViews, m2, s2, gr, g1, g2]
  · have hstd : g'.yStd = a * (gpOf rows ys k).yStd := by
      rw [hq']
      simp only [gpOf, targetStd, targetDev_convert ha hne]
      rw [if_neg h0, if_neg (mul_ne_zero ha.ne' h0)]
    have m2 : ∀ x, g'.mean x = a * (gpOf rows ys k).mean x + c := by
      intro x
      rw [Gp.mean, Gp.mean, halpha, hmean, hstd]
      have : g'.kTrans x = (gpOf rows ys k).kTrans x :=
        kTrans_congr hk hX x
      rw [this]
      ring
    have s2 : ∀ x, g'.std x = a * (gpOf rows ys k).std x := by
      intro x
      unfold Gp.std
      rw [hstd]
      have : g'.rawVar x = (gpOf rows ys k).rawVar x :=
        rawVar_congr hk hX hL x
      rw [this, mul_pow, mul_left_comm, Real.sqrt_mul (sq_nonneg a), Real.sqrt_sq ha.le]
    refine .affine ?_ ?_
    · intro X
      simp only [gpViews, m2, s2, List.map_map, Function.comp_def]
    · intro hl z
      have h1 := hg hl
      subst h1
      have g1 : ∀ gr, g'.gradMean gr = (gpOf rows ys k).gradMean gr := by
        intro gr
        unfold Gp.gradMean
        rw [halpha, hstd, one_mul]
      have g2 : ∀ x gr, g'.gradStd x gr = (gpOf rows ys k).gradStd x gr := by
        exact gradStd_congr hk hX hL (by rw [hstd, one_mul])
      have gr := gpGrad_congr hk hX (gpVec d z)
      simp only [gpViews, m2, s2, gr, g1, g2]
      simp only [one_mul, List.map_id']

theorem gp_fits (base : World ℝ M R G) (sk : GpChoice R d) (xi : ℝ) (kappa : Kappa) (mini : AcqMinimiser R)
    {a c : ℝ} (ha : 0 < a) (lbfgs : Bool) (hg : lbfgs = true → a = 1) :
    FitsConverted (gpWorld base sk xi kappa mini) (gpViews d lbfgs) a c := by
  refine ⟨?_, ?_, ?_⟩
  · intro r X
    rcases gpInput_nums (d := d) X [] [] rfl with ⟨e, h, _⟩ | ⟨_, _, h⟩
    · refine ⟨e, ?_⟩
      simp only [gpWorld]
      rw [show gpInput d X [] = .error e from h]
    · exact absurd rfl h
  · intro r X ys
    rcases gpInput_nums (d := d) X ys (ys.map fun y => a * y + c) (by simp) with ⟨e, h1, h2⟩ | ⟨h1, h2, hne⟩
    · simp only [gpWorld, h1, h2]
    · simp only [gpWorld, h1, h2, standardised_convert ha hne]
  · intro r X ys hne
    rcases gpInput_nums (d := d) X ys (ys.map fun y => a * y + c) (by simp) with ⟨e, h1, h2⟩ | ⟨h1, h2, _⟩
    · simp only [gpWorld, h1, h2]
      exact .error e
    · simp only [gpWorld, h1, h2, standardised_convert ha hne]
      cases (sk r (X.map (gpVec d)) (standardised ys)).2 with
      | error e => exact .error e
      | ok k => exact .ok (gp_carried ha lbfgs hg hne k)

/-! ## The search -/

/-- **C106 (restricted).** Take any surrogate that, fitted to the values `a * y + c` instead of `y` (`0 < a`), predicts
converted means and standard deviations.  Then any sequence of calls of an optimizer and the same sequence with converted
values told have the same answers: the same exceptions, the same points asked for (one at a time or in batches with any
of the lies), and results with the same best point and converted values.  This holds for every acquisition function but
the two per-second ones if only the zero point changes (`a = 1`), and for LCB also if the unit changes.

Missing: the per-second acquisition functions, for which it is false (`C106_refuted_per_second`); EI, PI and gp_hedge with
`a ≠ 1`, for which it is false (`C106_refuted_unit`, `C106_refuted_unit_EI`); and if LCB or gp_hedge minimise with L-BFGS, that it finds minimisers independently of the unit and
zero point of what it minimises is an assumption (scipy compares the decrease with the size of the value). -/
theorem C106_same_search_partial {W : World ℝ M R G} {V : Views M} {xi : ℝ} {kappa : Kappa} {mini : AcqMinimiser R}
    {a c : ℝ} (hW : ReadsPredictions W V xi kappa mini) (hF : FitsConverted W V a c) (dims : List (Dim ℝ))
    (gen : Option G) {cfg : Config} (hs : Sensible V a mini cfg) (hps : cfg.acq.isPs = false) (rng : R)
    (calls : List (Call ℝ)) (hcalls : ∀ call ∈ calls, call.Finite) :
    Alike (List.Forall₂ (Alike (Out.Converted V a c))) (session exact W dims gen cfg rng calls)
      (session exact W dims gen cfg rng (calls.map (Call.convert a c))) :=
  session_moved hW hF gen hs hps rng calls hcalls

/-- **C106, Gaussian processes (restricted).** skopt's Gaussian process (`normalize_y=True`) is such a surrogate, however
scikit-learn chooses the hyperparameters from the standardised values.  So adding a constant to the objective does not
change the search with EI, PI, LCB or gp_hedge, and changing its unit does not change the search with LCB when
`acq_optimizer="sampling"`.

Missing: as for `C106_same_search_partial`; and with L-BFGS and LCB a change of unit, since `predict` sets the gradient of
the standard deviation to zero below an absolute threshold (gpr.py:352). -/
theorem C106_gaussian_process_partial (base : World ℝ M R G)
    (hsort : ∀ (vs : List ℝ) (τ : ℝ → ℝ), StrictMono τ →
      base.argsort (vs.map fun v => .fin (τ v)) = base.argsort (vs.map .fin))
    (sk : GpChoice R d) (xi : ℝ) (kappa : Kappa) (mini : AcqMinimiser R) {a c : ℝ} (ha : 0 < a)
    (dims : List (Dim ℝ)) (gen : Option G) (cfg : Config) (hps : cfg.acq.isPs = false)
    (hunit : a = 1 ∨ cfg.acq = .LCB ∧ cfg.lbfgs = false)
    (hmini : cfg.lbfgs = true → .LCB ∈ cfg.acq.candidates → AffineMinimiser mini) (rng : R)
    (calls : List (Call ℝ)) (hcalls : ∀ call ∈ calls, call.Finite) :
    Alike (List.Forall₂ (Alike (Out.Converted (gpViews d cfg.lbfgs) a c)))
      (session exact (gpWorld base sk xi kappa mini) dims gen cfg rng calls)
      (session exact (gpWorld base sk xi kappa mini) dims gen cfg rng (calls.map (Call.convert a c))) := by
  refine C106_same_search_partial (gp_reads base hsort sk xi kappa mini cfg.lbfgs) (gp_fits base sk xi kappa mini ha _ ?_)
    dims gen ⟨ha, hunit.imp_right And.left, fun h => ⟨h, hmini h⟩⟩ hps rng calls hcalls
  intro h
  rcases hunit with h1 | ⟨_, h2⟩
  · exact h1
  · rw [h] at h2
    cases h2

/-- A step of size 0.1 against the sign of the gradient.  (an example of what is called at optimizer.py:573-580) -/
noncomputable def signMove (x : List (Val ℝ)) (grad : List ℝ) : List (Val ℝ) :=
  List.zipWith (fun v g => match v with
    | .num t => .num (t - 0.1 * (SignType.sign g : ℝ))
    | v => v) x grad

theorem signMove_scale {α : ℝ} (hα : 0 < α) (x : List (Val ℝ)) (grad : List ℝ) :
    signMove x (grad.map fun g => α * g) = signMove x grad := by
  unfold signMove
  rw [List.zipWith_map_right]
  congr 1
  funext v g
  rw [sign_mul, sign_pos hα, one_mul]

/-- The minimiser that makes one such step.  (an example of what is called at optimizer.py:573-580) -/
noncomputable def signStep : AcqMinimiser Unit := fun r f x =>
  (r, (f x).bind fun p => (f (signMove x p.2)).map fun q => (signMove x p.2, q.1))

theorem signStep_affine : AffineMinimiser signStep := by
  intro r f x α β hα
  simp only [signStep]
  cases f x with
  | error e => rfl
  | ok p =>
    simp only [Except.map_ok', Except.bind, signMove_scale hα]
    cases f (signMove x p.2) with
    | error e => rfl
    | ok q => rfl

/-- `gp_hedge` with L-BFGS, a constant added to the objective.
Meets the hypotheses of `C106_gaussian_process_partial`. -/
example : ∃ (base : World ℝ Unit Unit Unit) (_ : GpChoice Unit 3) (cfg : Config) (calls : List (Call ℝ)),
    (∀ (vs : List ℝ) (τ : ℝ → ℝ), StrictMono τ →
      base.argsort (vs.map fun v => .fin (τ v)) = base.argsort (vs.map .fin)) ∧
    cfg.acq = .gpHedge ∧ cfg.acq.isPs = false ∧ cfg.lbfgs = true ∧ AffineMinimiser signStep ∧
    (∀ call ∈ calls, call.Finite) ∧ calls.length = 4 := by
  refine ⟨realWorld, fun r _ _ => (r, .ok (.matern (fun _ => 1) .fiveHalves, 1)),
    { acq := .gpHedge, hasEst := true, isGP := true, lbfgs := true, nPoints := 5, nRestarts := 2, nInitial := 1,
      queueSize := none },
    [.one [.num 1, .num 2, .str "a"] (.num (.fin 3)) true, .ask, .askMany 3 .clMin,
      .batch [([.num 1, .num 2, .str "a"], .num (.fin 3)), ([.num 7, .num 2, .str "b"], .num (.fin 5))] true],
    ?_, rfl, rfl, rfl, signStep_affine, ?_, rfl⟩
  · intro vs τ _
    simp [realWorld]
  · intro call hc
    simp only [List.mem_cons, List.not_mem_nil, or_false] at hc
    rcases hc with rfl | rfl | rfl | rfl
    · exact ⟨_, rfl⟩
    · trivial
    · trivial
    · intro o ho
      simp only [List.mem_cons, List.not_mem_nil, or_false] at ho
      rcases ho with rfl | rfl
      · exact ⟨_, rfl⟩
      · exact ⟨_, rfl⟩

/-- Fahrenheit for Celsius, with LCB and sampling.
Meets the hypotheses of `C106_same_search_partial`. -/
example : ReadsPredictions (gpWorld realWorld (fun r _ _ => (r, .ok (.rbf fun _ => 1, 1))) 0.01 (.num 1.96) signStep)
      (gpViews 2 false) 0.01 (.num 1.96) signStep ∧
    FitsConverted (gpWorld realWorld (fun r _ _ => (r, .ok (.rbf fun _ => 1, 1))) 0.01 (.num 1.96) signStep)
      (gpViews 2 false) 1.8 32 ∧
    Sensible (gpViews 2 false) 1.8 signStep
      ⟨.LCB, true, true, false, 5, 2, 1, none⟩ :=
  ⟨gp_reads _ (fun vs τ _ => by simp [realWorld]) _ _ _ _ _, gp_fits _ _ _ _ _ (by norm_num) _ (fun h => by cases h),
    by norm_num, .inr rfl, fun h => by cases h⟩

/-! ## Forests and quantile regression -/

/-- The tree grown on values `a * y + c` with the splits of the tree grown on `y`: predictions are converted, the
variances in the nodes are in the squared unit.  (the trees of forest.py:36-46) -/
def RegTree.convert (a c : ℝ) (t : RegTree) : RegTree where
  impurity := t.impurity.map fun w => a ^ 2 * w
  apply := t.apply
  predict x := a * t.predict x + c

/-- The forest of these trees; `min_variance` is a variance, too.  (forest.py:197-206) -/
def Forest.convert (a c : ℝ) (f : Forest) : Forest where
  trees := f.trees.map (RegTree.convert a c)
  criterion := f.criterion
  minVariance := a ^ 2 * f.minVariance

theorem floorVar_convert (a c mv : ℝ) (t : RegTree) (x : List ℝ) :
    floorVar (a ^ 2 * mv) (t.convert a c) x = a ^ 2 * floorVar mv t x := by
  unfold floorVar RegTree.convert
  simp only [List.getElem?_map]
  cases t.impurity[t.apply x]? with
  | none => simp only [Option.map_none, Option.getD_none, mul_max_of_nonneg _ _ (sq_nonneg a), mul_zero]
  | some w => simp only [Option.map_some, Option.getD_some, mul_max_of_nonneg _ _ (sq_nonneg a)]

theorem mean_convert {a c : ℝ} {α : Type} {l : List α} (hne : l ≠ []) (g : α → ℝ) :
    (l.map fun t => a * g t + c).sum / l.length = a * ((l.map g).sum / l.length) + c := by
  have := targetMean_convert (a := a) (c := c) (ys := l.map g) (by simpa using hne)
  simpa [targetMean, List.map_map, Function.comp_def] using this

theorem forestVar_convert (a c : ℝ) (f : Forest) (x : List ℝ) (hne : f.trees ≠ []) :
    forestVar (f.convert a c) x = a ^ 2 * forestVar f x := by
  have hne' : (f.convert a c).trees ≠ [] := by simpa [Forest.convert] using hne
  have e1 : (f.convert a c).trees.map (fun t => floorVar (f.convert a c).minVariance t x)
      = (f.trees.map fun t => floorVar f.minVariance t x).map fun v => a ^ 2 * v := by
    simp only [Forest.convert, List.map_map]
    exact List.map_congr_left fun t _ => floorVar_convert a c _ t x
  have e2 : (f.convert a c).trees.map (fun t => t.predict x) = f.trees.map fun t => a * t.predict x + c := by
    simp only [Forest.convert, List.map_map]
    rfl
  have e3 : (f.convert a c).trees.length = f.trees.length := by simp [Forest.convert]
  have e4 : ((f.trees.map fun t => a * t.predict x + c).map fun m =>
      (m - (a * ((f.trees.map fun t => t.predict x).sum / f.trees.length) + c)) ^ 2)
      = ((f.trees.map fun t => t.predict x).map fun m =>
          (m - (f.trees.map fun t => t.predict x).sum / f.trees.length) ^ 2).map fun v => a ^ 2 * v := by
    simp only [List.map_map]
    refine List.map_congr_left fun t _ => ?_
    simp only [Function.comp]
    ring
  rw [forestVar_eq f x hne, forestVar_eq _ x hne', e1, e2, e3, mean_convert hne, e4, List.sum_map_mul_left,
    List.sum_map_mul_left, List.map_id', List.map_id']
  ring

/-- **C106, forests.** A forest of trees with the same splits, grown on values `a * y + c` instead of `y`, predicts
converted means and standard deviations (`min_variance` counts as a variance; by default it is 0). -/
theorem C106_forest (f : Forest) {a c : ℝ} (ha : 0 < a) (X : List (List ℝ)) (hne : f.trees ≠ [])
    (hX : LeavesExist f X) :
    (f.convert a c).predictStd X
      = (f.predictStd X).map fun p => (p.1.map fun v => a * v + c, p.2.map fun v => a * v) := by
  by_cases hc : f.criterion = "mse"
  · have hX' : LeavesExist (f.convert a c) X := by
      intro t ht x hx
      obtain ⟨u, hu, rfl⟩ := List.mem_map.1 ht
      simpa [RegTree.convert] using hX u hu x hx
    rw [predictStd_ok hc hne hX, predictStd_ok (f := f.convert a c) hc (by simpa [Forest.convert] using hne) hX',
      Except.map_ok', List.map_map, List.map_map]
    congr 2
    · refine List.map_congr_left fun x _ => ?_
      have e3 : (f.convert a c).trees.length = f.trees.length := by simp [Forest.convert]
      have e2 : (f.convert a c).trees.map (fun t => t.predict x) = f.trees.map fun t => a * t.predict x + c := by
        simp only [Forest.convert, List.map_map]
        rfl
      rw [e2, e3, mean_convert hne]
      rfl
    · refine List.map_congr_left fun x _ => ?_
      rw [forestVar_convert a c f x hne]
      simp only [Function.comp]
      rw [show max 0 (a ^ 2 * forestVar f x) = a ^ 2 * max 0 (forestVar f x) by
        rw [mul_max_of_nonneg _ _ (sq_nonneg a), mul_zero], Real.sqrt_mul (sq_nonneg a), Real.sqrt_sq ha.le]
  · simp only [Forest.predictStd, Forest.convert, ne_eq, hc, not_false_eq_true, if_true]
    rfl

example : twoStumps.trees ≠ [] ∧ LeavesExist twoStumps [[-1], [2]] := ⟨by simp [twoStumps], twoStumps_leaves⟩

/-- **C106, quantile regression.** If the regressor fitted for each quantile predicts converted values, so does the
quantile regressor for means and standard deviations. -/
theorem C106_quantile_regression (fit : ℝ → List ℝ → ℝ) (a c : ℝ) (qs : Quantiles) (X : List (List ℝ)) :
    gbrtPredictStd qs (gbrtFit (fun q x => a * fit q x + c) qs) X
      = (gbrtPredictStd qs (gbrtFit fit qs) X).map fun p => (p.1.map fun v => a * v + c, p.2.map fun v => a * v) := by
  have get : ∀ i, pyGet (gbrtFit (fun q x => a * fit q x + c) qs) i
      = (pyGet (gbrtFit fit qs) i).map fun r x => a * r x + c := by
    intro i
    unfold gbrtFit
    rw [pyGet_map, pyGet_map]
    cases pyGet qs.values i <;> rfl
  unfold gbrtPredictStd
  by_cases h : ¬ ([0.16, 0.5, 0.84] : List ℝ).all (fun q => q ∈ qs.values)
  · rw [if_pos h, if_pos h]
    rfl
  · rw [if_neg h, if_neg h]
    cases qs.index 0.16 with
    | error e => rfl
    | ok i =>
      simp only [ok_bind, get]
      cases pyGet (gbrtFit fit qs) i with
      | error e => rfl
      | ok low =>
        simp only [Except.map_ok', ok_bind]
        cases qs.index 0.84 with
        | error e => rfl
        | ok j =>
          simp only [ok_bind]
          cases pyGet (gbrtFit fit qs) j with
          | error e => rfl
          | ok high =>
            simp only [Except.map_ok', ok_bind]
            cases qs.index 0.5 with
            | error e => rfl
            | ok k =>
              simp only [ok_bind]
              cases pyGet (gbrtFit fit qs) k with
              | error e => rfl
              | ok mean =>
                simp only [Except.map_ok', ok_bind, List.map_map, List.zipWith_map, List.zipWith_self, Function.comp_def]
                congr 2
                refine List.map_congr_left fun x _ => ?_
                ring

example : gbrtPredictStd (.list [0.16, 0.5, 0.84]) (gbrtFit (fun q x => q + x.sum) (.list [0.16, 0.5, 0.84])) [[1, 2]]
    = .ok ([3.5], [0.34]) := by
  rw [(C70_gbrt_std _ _ _ (by norm_num) (by norm_num) (by norm_num)).1]
  norm_num

/-! ## The unit matters for PI -/

/-- Predictions proportional to the first value told: at "a" nothing of it with the whole as deviation, at "b" 0.9 of it
with deviation 0.095. -/
noncomputable def unitViews : Views ℝ where
  pred v X :=
    { mu := X.map fun row => v * match row with
        | [.str "a"] => 0
        | _ => 0.9
      std := X.map fun row => v * match row with
        | [.str "a"] => 1
        | _ => 0.095 }
  grad _ _ := ⟨0, 0, [], []⟩
  gradients := false

/-- The surrogate that predicts this; candidates are "a" and "b".  (an instance of the third-party calls of
optimizer.py:434, 536, 551-608) -/
noncomputable def propWorld : World ℝ ℝ Unit Unit where
  fit r _ ys := (r, match ys with
    | .num (.fin v) :: _ => .ok v
    | _ => .error .valueError)
  predict m X := .ok (unitViews.pred m X).mu
  draws _ dims _ := ((), dims.map fun _ => ⟨[], [0, 1]⟩)
  acquisition m X y cand :=
    match y with
    | .nan => .error .valueError
    | .fin y => (gaussianAcquisition (.one (unitViews.pred m X)) y cand).map (List.map Flt.fin)
  argsort v := List.range v.length
  lbfgs _ _ _ _ x := ((), .ok (x, .fin 0))
  multinomial _ p := ((), (List.range p.length).map fun i => if i = 1 then 1 else 0)
  exp x := x
  log t := .ok t
  logMax := 700
  eta := 1
  seed _ := ((), ())
  generate g dims _ _ := (g, (dims, .ok []))

/-- `Categorical(["a", "b"], transform="identity")`.  (example space, space.py:590-638) -/
def abDims : List (Dim ℝ) := [.cat ⟨[.str "a", .str "b"], none, .identity, none, fun _ => "", fun s => .ok (.str s)⟩]

/-- Probability of improvement, candidates only, no initial points. -/
def piCfg : Config where
  acq := .PI
  hasEst := true
  isGP := false
  lbfgs := false
  nPoints := 2
  nRestarts := 1
  nInitial := 0
  queueSize := none

theorem pi_values (v : ℝ) (hv : 0 < v) :
    propWorld.acquisition v [[.str "a"], [.str "b"]] (.fin v) .PI
      = .ok [.fin (-normCdf ((v - 0.01) / v)), .fin (-normCdf ((v - 0.01 - v * 0.9) / (v * 0.095)))] := by
  have h2 : 0 < v * (0.095 : ℝ) := by positivity
  simp only [propWorld, gaussianAcquisition, Surrogate.single, gaussianPi, unitViews, stdMask]
  simp [hv, h2, maskSelect, maskAssign, Except.map_ok']

theorem npArgmin_pair {a b : ℝ} : npArgmin [Flt.fin a, Flt.fin b] = .ok (if b < a then 1 else 0) := by
  by_cases h : b < a
  · simp [npArgmin, argBest, argBest.go, Flt.fin_lt_fin, h]
  · simp [npArgmin, argBest, argBest.go, Flt.fin_lt_fin, h]

theorem ab_rvs {F : Type} [LinearOrder F] (A : Arith F) :
    Space.rvs A ([.cat ⟨[.str "a", .str "b"], none, .identity, none, fun _ => "", fun s => .ok (.str s)⟩] : List (Dim F))
      [⟨[], [0, 1]⟩] = .ok [[.str "a"], [.str "b"]] := rfl

theorem ab_transform {F : Type} [LinearOrder F] (A : Arith F) :
    Space.transform A ([.cat ⟨[.str "a", .str "b"], none, .identity, none, fun _ => "", fun s => .ok (.str s)⟩] : List (Dim F))
      [[.str "a"], [.str "b"]] = .ok [[.str "a"], [.str "b"]] := rfl

theorem ab_transform' {F : Type} [LinearOrder F] (A : Arith F) :
    Space.transform A ([.cat ⟨[.str "a", .str "b"], none, .identity, none, fun _ => "", fun s => .ok (.str s)⟩] : List (Dim F))
      [[.str "a"]] = .ok [[.str "a"]] := rfl

theorem ab_inverse {F : Type} [LinearOrder F] (A : Arith F) (s : String) :
    Space.inverseTransform A ([.cat ⟨[.str "a", .str "b"], none, .identity, none, fun _ => "", fun s => .ok (.str s)⟩] : List (Dim F))
      [[.str s]] = .ok [[.str s]] := rfl

theorem ab_distance {F : Type} [LinearOrder F] (A : Arith F) (s : String) (hs : s = "a" ∨ s = "b") :
   ∃ y,  Space.distance A ([.cat ⟨[.str "a", .str "b"], none, .identity, none, fun _ => "", fun s => .ok (.str s)⟩] : List (Dim F))
      [.str s] [.str "a"] = .ok y := by
  rcases hs with rfl | rfl <;> exact ⟨_, rfl⟩

theorem ab_check {F : Type} [LinearOrder F] :
    checkX ([.cat ⟨[.str "a", .str "b"], none, .identity, none, fun _ => "", fun s => .ok (.str s)⟩] : List (Dim F))
      (.lst [.str "a"]) = .ok () := rfl

theorem ab_session (v : ℝ) (hv : 0 < v) (s : String) (hs : s = "a" ∨ s = "b")
   (h : (do let i ← npArgmin [Flt.fin (-normCdf ((v - 0.01) / v)), .fin (-normCdf ((v - 0.01 - v * 0.9) / (v * 0.095)))]
            pyGet ([[.str "a"], [.str "b"]] : List (List (Val ℝ))) i) = .ok [.str s]) :
    session exact propWorld abDims none piCfg () [.one [.str "a"] (.num (.fin v)) true, .ask]
      = .ok [.ok (.result ⟨.seq [.str "a"], .fin v, [.fin v], none, [.seq [.str "a"]], [v]⟩), .ok (.point [.str s])] := by
  obtain ⟨y, hy⟩ := ab_distance exact s hs
  have hfit : propWorld.fit () [[.str "a"]] [.num (.fin v)] = ((), .ok v) := rfl
  have hdraws : ∀ n, propWorld.draws () [.cat ⟨[.str "a", .str "b"], none, .identity, none, fun _ => "", fun s => .ok (.str s)⟩] n
     = ((), [⟨[], [0, 1]⟩]) := fun n => rfl
  have hres : createResult [.seq [.str "a"]] [.num (.fin v)] [v] = 
      .ok (⟨.seq [.str "a"], .fin v, [.fin v], none, [.seq [.str "a"]], [v]⟩ : Result ℝ ℝ) := rfl
  have hmin : (do let ys ← flatNums [YArg.num (Flt.fin v)]; fltMin ys) = .ok (Flt.fin v) := rfl
  have hcat : Space.isCategorical ([.cat ⟨[.str "a", .str "b"], none, .identity, none, fun _ => "", fun s => .ok (.str s)⟩] : List (Dim ℝ)) = true := rfl
  have hget : pyGet [[.str s]] 0 = (.ok [.str s] : Except PyErr (Point ℝ)) := rfl
  simp only [session, Opt.init, piCfg, Bool.false_eq_true, if_false, abDims, List.map_cons, List.map_nil, Call.toOp, runOps, step,
    tell, ab_check, checkY, AcqFunc.isPs, takeLogs, YArg.isSeq, Bool.false_and, YArg.isNumber, if_true, ok_bind, tellCore, record,
    record.single, Opt.fresh, Bool.true_and, Bool.and_true, List.nil_append, Val.items, refit, ab_transform', hfit, updateGains,
    pushModel, suggest, hdraws, ab_rvs, ab_transform, hmin, proposeAll, AcqFunc.candidates, proposeOne, pi_values v hv, h, hcat,
    choose, Option.getD_some, hget, ab_inverse, hres]
  simp [askOne, hy, mapE, Val.items]


theorem unit_reads : ReadsPredictions propWorld unitViews 0.01 (.num 1.96) (fun _ _ x => ((), .ok (x, 0))) where
  predict _ _ := rfl
  acquisition _ _ _ _ := rfl
  lbfgs h := by cases h
  argsort vs τ _ := by simp [propWorld]

theorem unit_fits : FitsConverted propWorld unitViews 100 0 where
  empty _ _ := ⟨_, rfl⟩
  rng _ _ _ := rfl
  fit r X ys hne := by
    cases ys with
    | nil => exact absurd rfl hne
    | cons v vs =>
      refine .ok (.affine ?_ (fun h => by cases h))
      intro X
      simp only [unitViews, List.map_map, Function.comp_def, add_zero, mul_assoc]

/-- **C106 refuted.** PI demands an improvement by `xi = 0.01`, whatever the unit: there is a surrogate whose predictions
are exactly proportional to the values told, and told 1 the optimizer next asks for "a", told 100 for "b". -/
theorem C106_refuted_unit : ∃ (W : World ℝ ℝ Unit Unit) (V : Views ℝ) (mini : AcqMinimiser Unit) (dims : List (Dim ℝ))
    (cfg : Config) (call : Call ℝ) (o o' : Except PyErr (Out ℝ ℝ)),
    ReadsPredictions W V 0.01 (.num 1.96) mini ∧ FitsConverted W V 100 0 ∧ cfg.acq = .PI ∧ call.Finite ∧
    session exact W dims none cfg () [call, .ask] = .ok [o, .ok (.point [.str "a"])] ∧
    session exact W dims none cfg () [call.convert 100 0, .ask] = .ok [o', .ok (.point [.str "b"])] := by
  refine ⟨propWorld, unitViews, _, abDims, piCfg, .one [.str "a"] (.num (.fin 1)) true, _,
    .ok (.result ⟨.seq [.str "a"], .fin 100, [.fin 100], none, [.seq [.str "a"]], [100]⟩), unit_reads, unit_fits, rfl,
    ⟨1, rfl⟩, ab_session 1 one_pos "a" (.inl rfl) ?_, ?_⟩
  · have h : normCdf ((1 - 0.01 - 1 * 0.9) / (1 * 0.095)) < normCdf ((1 - 0.01) / 1) :=
      normCdf_strictMono (by norm_num)
    rw [npArgmin_pair, if_neg (by linarith)]
    rfl
  · have h : normCdf ((100 - 0.01) / 100) < normCdf ((100 - 0.01 - 100 * 0.9) / (100 * 0.095)) :=
      normCdf_strictMono (by norm_num)
    have e : Call.convert 100 0 (.one [.str "a"] (.num (.fin 1)) true) = .one [.str "a"] (.num (.fin 100)) true := by
      simp [Call.convert, YArg.convert]
    rw [e]
    refine ab_session 100 (by norm_num) "b" (.inr rfl) ?_
    rw [npArgmin_pair, if_pos (by linarith)]
    rfl

end Skopt

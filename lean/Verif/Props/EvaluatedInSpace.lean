import Verif.Props.OptimizerInSpace
import Verif.Props.Checkpoint
import Verif.Props.MinimizeRuns
import Verif.Props.Reporting

/-!
# C33 for whole minimisations, C83: resuming from a checkpoint succeeds
-/

namespace Skopt

variable {F M R G : Type}

section
variable [LinearOrder F]

/-! ## Lemmas -/

/-- What the constructor leaves behind. -/
theorem init_inSpace {A : Arith F} {W : World F M R G} (hW : WellBehaved A W) {sh sh₁ : Shared F G} {cfg : Config} {rng : R}
    {s₀ : Opt F M R} (hv : ∀ d ∈ sh.dims, ValidDim A d) (hinit : Opt.init A W sh cfg rng = (sh₁, .ok s₀)) :
    (∀ d ∈ sh₁.dims, ValidDim A d) ∧ (∀ p, InSpace A sh₁.dims p ↔ InSpace A sh.dims p) ∧ AllInSpace A sh₁.dims s₀ := by
  have hdims : ∃ D, (if cfg.isGP then Space.setTransformer sh.dims .normalize else .ok sh.dims) =
      .ok D ∧ (∀ d ∈ D, ValidDim A d) ∧ (∀ p, InSpace A D p ↔ InSpace A sh.dims p) := by
    cases hgp : cfg.isGP with
    | false => exact ⟨sh.dims, by simp, hv, fun _ => Iff.rfl⟩
    | true =>
      refine ⟨sh.dims.map Dim.normalized, by rw [if_pos rfl, setTransformer_normalize], ?_, fun p => inSpace_normalized⟩
      intro d hd'
      obtain ⟨d', hd'', rfl⟩ := List.mem_map.1 hd'
      exact (hv d' hd'').normalized
  obtain ⟨D, h1, h2, h5⟩ := hdims
  have hD : sh₁.dims = D := by
    unfold Opt.init at hinit
    rw [h1] at hinit
    dsimp only at hinit
    split at hinit
    · simp only [Prod.mk.injEq] at hinit
      rw [← hinit.1]
    · next g hg =>
      have hr := hW.restores g D cfg.nInitial (W.seed rng).2
      split at hinit
      · cases hinit
      · next g' dims' P hgen =>
        rw [hgen] at hr
        simp only at hr
        subst hr
        rw [set_own_transformers fun d hd => (h2 d hd).legalTransform] at hinit
        simp only [Prod.mk.injEq] at hinit
        rw [← hinit.1]
  rw [hD]
  refine ⟨h2, h5, ?_⟩
  obtain ⟨r, pts, rfl, i1, i2⟩ := init_ok hinit
  refine ⟨?_, fun p hp => (by cases hp), rfl⟩
  intro P hP
  change pts = some P at hP
  cases hg : sh.gen with
  | none => rw [i1 hg] at hP; cases hP
  | some g =>
    obtain ⟨dims, dims', r', g', P', e1, e2, e3, _⟩ := i2 g hg
    rw [h1] at e3
    injection e3 with e3
    subst e3
    rw [e1] at hP
    injection hP with hP
    subst hP
    exact hW.generated g D cfg.nInitial r' P' h2 (by rw [e2])

theorem tell_inSpace {A : Arith F} (hA : OrderlyRounding A) (W : World F M R G) {dims : List (Dim F)}
    (hv : ∀ d ∈ dims, ValidDim A d) {s : Opt F M R} (hs : AllInSpace A dims s) (x : XArg F) (y : YArg F) (fit : Bool) :
    AllInSpace A dims (tell A W dims s x y fit).1 := by
  rcases tell_cases A W dims s x y fit with ⟨e, h⟩ | ⟨y', _, _, _, h⟩
  · rw [h]; exact hs
  · rw [h]; exact tellCore_inSpace hA W hv hs x y' fit

omit [LinearOrder F] in
theorem evalCallbacks_evals (hist : List (Result F M)) (r : Result F M) (cbs : List (Callback F M)) (i : Nat) (b : Bool) :
    evalsOf (evalCallbacks hist r cbs i b).1 = [] := by
  induction cbs generalizing i b with
  | nil => rfl
  | cons c cbs ih =>
    unfold evalCallbacks
    split
    · rfl
    · next d _ =>
      have := ih (i + 1) (b || d.getD false)
      simpa [evalsOf] using this

theorem minimizeLoop_members {A : Arith F} (hA : OrderlyRounding A) {W : World F M R G} (hW : WellBehaved A W)
    {dims : List (Dim F)} (hv : ∀ d ∈ dims, ValidDim A d) (func : Objective F) (cbs : List (Callback F M)) (n : Nat)
    (done : List (Val F)) (hist : List (Result F M)) {s : Opt F M R} (hs : AllInSpace A dims s)
    (last : Option (Result F M)) :
    ∀ v ∈ evalsOf (minimizeLoop A W dims func cbs n done hist s last).1, ∃ p, v = .seq p ∧ InSpace A dims p := by
  induction n generalizing done hist s last with
  | zero => simp [minimizeLoop, evalsOf]
  | succ n ih =>
    intro v hmem
    unfold minimizeLoop at hmem
    obtain ⟨rng', hfr⟩ := askOne_frame A W dims s
    split at hmem
    · simp [evalsOf] at hmem
    · next s' x hask =>
      have hx : InSpace A dims x := askOne_inSpace hA hW hv hs (by rw [hask])
      have hs' : AllInSpace A dims s' := by
        rw [hask] at hfr
        have hfr : s' = _ := hfr
        rw [hfr]
        exact ⟨hs.design, hs.next, hs.lists⟩
      have hone : ∀ t : List (Event F M), evalsOf (.eval (.seq x) :: t) = .seq x :: evalsOf t := fun t => rfl
      split at hmem
      · rw [hone] at hmem
        obtain rfl := List.mem_singleton.1 hmem
        exact ⟨x, rfl, hx⟩
      · next y hy =>
        have ht := tell_inSpace hA W hv hs' (.lst x) y true
        split at hmem
        · rw [hone] at hmem
          obtain rfl := List.mem_singleton.1 hmem
          exact ⟨x, rfl, hx⟩
        · next s₂ r htell =>
          rw [htell] at ht
          have hcb := evalCallbacks_evals (hist ++ [r]) r cbs 0 false
          split at hmem
          · next t e hc =>
            rw [hc] at hcb
            rw [hone, hcb] at hmem
            obtain rfl := List.mem_singleton.1 hmem
            exact ⟨x, rfl, hx⟩
          · next t hc =>
            rw [hc] at hcb
            rw [hone, hcb] at hmem
            obtain rfl := List.mem_singleton.1 hmem
            exact ⟨x, rfl, hx⟩
          · next t hc =>
            rw [hc] at hcb
            simp only at hcb
            simp only [hone, evalsOf_append, hcb, List.nil_append, List.mem_cons] at hmem
            rcases hmem with rfl | hmem
            · exact ⟨x, rfl, hx⟩
            · exact ih _ _ ht _ v hmem

omit [LinearOrder F] in
theorem evalAll_evals (func : Objective F) (done xs : List (Val F)) :
    ∀ v ∈ evalsOf (evalAll (M := M) func done xs).1, v ∈ xs := by
  induction xs generalizing done with
  | nil => simp [evalAll, evalsOf]
  | cons x xs ih =>
    intro v hv
    have hone : ∀ t : List (Event F M), evalsOf (.eval x :: t) = x :: evalsOf t := fun t => rfl
    unfold evalAll at hv
    split at hv
    · rw [hone] at hv
      obtain rfl := List.mem_singleton.1 hv
      exact List.mem_cons_self
    · simp only [hone, List.mem_cons] at hv
      rcases hv with rfl | hv
      · exact List.mem_cons_self
      · exact List.mem_cons_of_mem _ (ih _ v hv)

omit [LinearOrder F] in
theorem startValues_evals (func : Objective F) (xs : List (Val F)) (y0 : Y0 F) :
    ∀ v ∈ evalsOf (startValues (M := M) func xs y0).1, v ∈ xs := by
  unfold startValues
  intro v hv
  split at hv
  · exact evalAll_evals func _ xs v hv
  all_goals
    first
      | (split at hv <;> simp [evalsOf] at hv)
      | simp [evalsOf] at hv

theorem minimizeBody_members {A : Arith F} (hA : OrderlyRounding A) {W : World F M R G} (hW : WellBehaved A W)
    {dims : List (Dim F)} (hv : ∀ d ∈ dims, ValidDim A d) (func : Objective F) (cbs : List (Callback F M)) (nCalls : ℤ)
    (x0 : List (Val F)) (y0 : Y0 F) {s : Opt F M R} (hs : AllInSpace A dims s) :
    ∀ v ∈ evalsOf (minimizeBody A W dims func cbs nCalls x0 y0 s).1, v ∈ x0 ∨ ∃ p, v = .seq p ∧ InSpace A dims p := by
  intro v hmem
  unfold minimizeBody at hmem
  split at hmem
  · exact .inr (minimizeLoop_members hA hW hv func cbs _ _ _ hs _ v hmem)
  · have hst := startValues_evals (M := M) func x0 y0
    split at hmem
    · next t e he =>
      rw [he] at hst
      exact .inl (hst v hmem)
    · next t ys he =>
      rw [he] at hst
      have ht := tell_inSpace hA W hv hs (.lst x0) (.seq ys) true
      split at hmem
      · exact .inl (hst v hmem)
      · next s₂ r htell =>
        rw [htell] at ht
        have hcb := evalCallbacks_evals [r] r cbs 0 false
        split at hmem
        · next t' e hc =>
          rw [hc] at hcb
          simp only at hcb
          rw [evalsOf_append, hcb, List.append_nil] at hmem
          exact .inl (hst v hmem)
        · next t' hc =>
          rw [hc] at hcb
          simp only at hcb
          rw [evalsOf_append, hcb, List.append_nil] at hmem
          exact .inl (hst v hmem)
        · next t' hc =>
          rw [hc] at hcb
          simp only at hcb
          simp only [evalsOf_append, hcb, List.nil_append, List.mem_append] at hmem
          rcases hmem with hmem | hmem
          · exact .inl (hst v hmem)
          · exact .inr (minimizeLoop_members hA hW hv func cbs _ _ _ ht _ v hmem)

/-- **C33 (minimisations).** Whatever the surrogate, the acquisition function, the acquisition optimiser and the random
numbers do, and whatever the objective returns or raises and the callbacks do: `base_minimize`, and with it every
`*_minimize`, evaluates the objective at the starting points and at points of the space only.

Missing: as in `C33_suggestions_in_space_partial`. -/
theorem C33_minimize_partial (A : Arith F) (hA : OrderlyRounding A) (W : World F M R G) (hW : WellBehaved A W)
    (sh : Shared F G) (hv : ∀ d ∈ sh.dims, ValidDim A d) (func : Objective F) (m : MinArgs F M) (rng : R) :
    ∀ v ∈ evalsOf (baseMinimize A W sh func m rng).trace,
      (∃ xs, m.x0.points = .ok xs ∧ v ∈ xs) ∨ ∃ p, v = .seq p ∧ InSpace A sh.dims p := by
  intro v hmem
  unfold baseMinimize at hmem
  split at hmem
  · simp [evalsOf] at hmem
  · next x0 n hprep =>
    split at hmem
    · simp [evalsOf] at hmem
    · next cfg hcfg =>
      split at hmem
      · simp [evalsOf] at hmem
      · next sh₁ s hinit =>
        split at hmem
        · simp [evalsOf] at hmem
        · split at hmem
          · simp [evalsOf] at hmem
          · next cbs hcb =>
            obtain ⟨h1, h2, h3⟩ := init_inSpace hW hv hinit
            rcases minimizeBody_members hA hW h1 func _ m.nCalls x0 m.y0 h3 v hmem with h | ⟨p, rfl, hp⟩
            · refine .inl ⟨x0, ?_, h⟩
              unfold MinArgs.prepare at hprep
              obtain ⟨xs, e1, e2⟩ := bind_eq_ok.1 hprep
              rw [e1]
              simp only at e2
              repeat' split at e2
              all_goals first
                | (cases e2; rfl)
                | cases e2
            · exact .inr ⟨p, rfl, (h2 p).1 hp⟩

end

/-- The record of a run consists of points of the space and numbers, one for each. -/
theorem record_parts {dims : List (Dim ℝ)} {func : Objective ℝ} {y0 : Y0 ℝ} {st : Starts ℝ} {evs : List (Val ℝ)}
    {r : Result ℝ M} (hrec : IsRecord func y0 st evs r) (ha : ∀ v ∈ evs, ∃ p, v = .seq p ∧ InSpace exact dims p)
    (hmem : ∀ p ∈ st.all, InSpace exact dims p)
    (hgiven : y0 = .none ∨ y0.given.length = st.all.length ∧ ∀ y ∈ y0.given, FiniteNum y)
    (hfunc : ∀ done p y, InSpace exact dims p → func done (.seq p) = .ok y → FiniteNum y) :
    ∃ (ps : List (Point ℝ)) (fs : List ℝ), r.xIters = ps.map Val.seq ∧ r.funcVals = fs.map Flt.fin ∧
      (∀ p ∈ ps, InSpace exact dims p) ∧ fs.length = ps.length := by
  obtain ⟨ys, k1, k2, k3⟩ := hrec
  have hxin : ∀ v ∈ r.xIters, ∃ p, v = .seq p ∧ InSpace exact dims p := by
    intro v hv'
    rw [k2, List.mem_append] at hv'
    rcases hv' with hv' | hv'
    · unfold givenPoints at hv'
      split at hv'
      · cases hv'
      · obtain ⟨p, hp, rfl⟩ := List.mem_map.1 hv'
        exact ⟨p, rfl, hmem p hp⟩
    · exact ha v hv'
  have hys : ∀ y ∈ ys, FiniteNum y := by
    have : ∀ (done evs : List (Val ℝ)) (ys : List (YArg ℝ)), Answers func done evs ys →
        (∀ v ∈ evs, ∃ p, v = .seq p ∧ InSpace exact dims p) → ∀ y ∈ ys, FiniteNum y := by
      intro done evs
      induction evs generalizing done with
      | nil =>
        intro ys hy _ y hm
        cases ys with
        | nil => cases hm
        | cons y ys => exact hy.elim
      | cons x xs ih =>
        intro ys hy hin y hm
        cases ys with
        | nil => exact hy.elim
        | cons z zs =>
          obtain ⟨p, rfl, hp⟩ := hin x List.mem_cons_self
          rcases List.mem_cons.1 hm with rfl | hm
          · exact hfunc done p _ hp hy.1
          · exact ih _ zs hy.2 (fun v hv' => hin v (List.mem_cons_of_mem _ hv')) y hm
    exact this [] _ _ k1 ha
  have hgv : ∀ y ∈ givenValues y0 st ++ ys, FiniteNum y := by
    intro y hy
    rcases List.mem_append.1 hy with hy | hy
    · unfold givenValues at hy
      split at hy
      · cases hy
      · rcases hgiven with e | ⟨-, e⟩
        · rw [e] at hy; cases hy
        · exact e y hy
    · exact hys y hy
  obtain ⟨fs, hfs⟩ : ∃ fs : List ℝ, r.funcVals = fs.map Flt.fin := by
    clear * - k3 hgv
    generalize givenValues y0 st ++ ys = zs at k3 hgv
    generalize r.funcVals = ws at k3 ⊢
    induction k3 with
    | nil => exact ⟨[], rfl⟩
    | @cons y f _ _ e _ ih =>
      obtain ⟨fs, rfl⟩ := ih fun y hy => hgv y (List.mem_cons_of_mem _ hy)
      obtain ⟨v, rfl⟩ := hgv y List.mem_cons_self
      injection e with e
      exact ⟨v :: fs, by rw [← e]; rfl⟩
  obtain ⟨ps, hps⟩ : ∃ ps : List (Point ℝ), r.xIters = ps.map Val.seq := by
    clear * - hxin
    generalize r.xIters = xs at hxin ⊢
    induction xs with
    | nil => exact ⟨[], rfl⟩
    | cons x xs ih =>
      obtain ⟨p, rfl, -⟩ := hxin x List.mem_cons_self
      obtain ⟨ps, rfl⟩ := ih fun x hx => hxin x (List.mem_cons_of_mem _ hx)
      exact ⟨p :: ps, rfl⟩
  refine ⟨ps, fs, hps, hfs, fun p hp => ?_, ?_⟩
  · obtain ⟨q, e, hq⟩ := hxin (.seq p) (by rw [hps]; exact List.mem_map_of_mem hp)
    injection e with e
    rw [e]; exact hq
  · have e1 := k3.length_eq
    have e2 := answers_length k1
    have e3 := congrArg List.length k2
    rw [hps] at e3
    rw [hfs] at e1
    simp only [List.length_append, List.length_map] at e1 e3
    have e4 : (givenValues y0 st).length = (givenPoints y0 st).length := by
      rcases hgiven with e | ⟨e, -⟩
      · rw [e]; simp [givenValues, givenPoints, Y0.given]
      · clear * - e
        unfold givenValues givenPoints
        generalize st.all = l at e ⊢
        cases y0 <;> cases l <;> simp_all [Y0.given]
    omega

/-! ## Resuming -/

/-- **C83 (resuming succeeds).** A call is interrupted – by the objective, by a callback or by anything else – after a
callback has seen the result `r`.  Let the dimensions be valid, the starting points be members of the space with finite
values, and the objective return finite numbers where it returns.  Then a well-posed call with
`x0 = res.x_iters, y0 = res.func_vals` returns a result, if its objective returns finite numbers and the third-party calls
do what they promise: the record is that of the checkpoint followed by the new evaluations, all of them points of the
space and `n_calls` many unless a callback stops, and the value reported is not larger than the one in the checkpoint.

Missing: the per-second modes (`C83_refuted_per_second`). -/
theorem C83_resume_completes_partial (W : World ℝ M R G) (sh sh' : Shared ℝ G) (func func' : Objective ℝ)
    (m m' : MinArgs ℝ M) (rng rng' : R) (st : Starts ℝ) (hx0 : m.x0 = st.toX0) (hst : st.Proper)
    (hmem : ∀ p ∈ st.all, InSpace exact sh.dims p) 
    (hgiven : m.y0 = .none ∨ m.y0.given.length = st.all.length ∧ ∀ y ∈ m.y0.given, FiniteNum y)
    (hne : sh.dims ≠ []) (hv : ∀ d ∈ sh.dims, ValidDim exact d) (hW : WellBehaved exact W)
    (hfunc : ∀ done p y, InSpace exact sh.dims p → func done (.seq p) = .ok y → FiniteNum y)
    (a b : List (Event ℝ M)) (i : Nat) (r : Result ℝ M) (d : Except PyErr (Option Bool))
    (h : (baseMinimize exact W sh func m rng).trace = a ++ .call i r d :: b)
    (hsame : ∀ p, InSpace exact sh.dims p ↔ InSpace exact sh'.dims p)
    (hset : SaneArgs m'.opt) (hps : m'.opt.perSecond = false) (hd : Workable (searched m'.opt.est.isGP sh'.dims))
    (hW' : Reliable W (searched m'.opt.est.isGP sh'.dims))
    (hgen : sh'.gen = none ∨ m'.opt.est.isNone = false ∧ Generates W (searched m'.opt.est.isGP sh'.dims))
    (hfunc' : TotalOn false sh'.dims func')
    (hx' : m'.x0 = .list r.xIters) (hy' : m'.y0 = .iter (r.funcVals.map YArg.num))
    (hn : 0 ≤ m'.nRandomStarts.getD m'.nInitialPoints) (hb : m'.nRandomStarts.getD m'.nInitialPoints ≤ m'.nCalls)
    (hcb : m'.callback ≠ .invalid) (hcalm : ∀ c ∈ m'.callback.callables, ∀ hist, ∃ d, c hist = .ok d) :
    let out := baseMinimize exact W sh' func' m' rng'
    ∃ r', out.result = .ok (some r') ∧ BestListed sh'.dims r' ∧
      r'.xIters = r.xIters ++ evalsOf out.trace ∧
      (∃ ys vals, Answers func' [] (evalsOf out.trace) ys ∧ List.Forall₂ (fun y f => valueOf y = some f) ys vals ∧
        r'.funcVals = r.funcVals ++ vals) ∧
      (∀ v ∈ evalsOf out.trace, ∃ p, v = .seq p ∧ InSpace exact sh'.dims p) ∧
      ((∀ c ∈ m'.callback.callables, ∀ hist, c hist ≠ .ok (some true)) →
        ((evalsOf out.trace).length : ℤ) = m'.nCalls) ∧
      ∃ f f', r.fun_ = .fin f ∧ r'.fun_ = .fin f' ∧ f' ≤ f := by
  intro out
  have hpts : m.x0.points = .ok (st.all.map Val.seq) := by rw [hx0]; exact Starts.points_eq hst
  have hevals : ∀ v ∈ evalsOf (baseMinimize exact W sh func m rng).trace, ∃ p, v = .seq p ∧ InSpace exact sh.dims p := by
    intro v hv'
    rcases C33_minimize_partial exact exact_orderly W hW sh hv func m rng v hv' with ⟨xs, h1, h2⟩ | h
    · rw [hpts] at h1
      injection h1 with h1
      subst h1
      obtain ⟨p, hp, rfl⟩ := List.mem_map.1 h2
      exact ⟨p, rfl, hmem p hp⟩
    · exact h
  have hflat : ∀ p, Val.seq p ∈ evalsOf (baseMinimize exact W sh func m rng).trace → Flat p := by
    intro p hp
    obtain ⟨q, e, hq⟩ := hevals _ hp
    injection e with e
    subst e
    exact inSpace_flat hne hv hq
  obtain ⟨⟨ys, k1, k2, k3⟩, kbest⟩ := C83_callbacks_see_everything_partial exact W sh func m rng st hx0 hst hflat a b i r d h
  have ha : ∀ v ∈ evalsOf a, ∃ p, v = .seq p ∧ InSpace exact sh.dims p := fun v hv' => hevals v (by
    rw [h, evalsOf_append]; exact List.mem_append_left _ hv')
  obtain ⟨ps, fs, hps', hfs, hxin, hlen'⟩ := record_parts ⟨ys, k1, k2, k3⟩ ha hmem hgiven hfunc
  obtain ⟨bi, bv, kb1, kb2, kb3, kb4⟩ := kbest fs hfs
  have hpn : ps ≠ [] := by
    rintro rfl
    rw [hps'] at kb2
    simp at kb2
  have hlen : r.funcVals.length = ps.length := by rw [hfs, List.length_map, hlen']
  have hwp : WellPosed sh'.dims m' (.points ps) := by
    refine ⟨by rw [hx', hps']; rfl, hpn, ?_, .inr ⟨hpn, ?_, ?_⟩, hn, .inr hpn, hb, fun e => ?_, hcb, hcalm⟩
    · exact fun p hp => (hsame p).1 (hxin p hp)
    · rw [hy']
      simpa [Y0.given, Starts.all] using hlen
    · rw [hy', hfs, hps]
      intro y hy
      simp only [Y0.given, List.map_map, List.mem_map] at hy
      obtain ⟨v, -, rfl⟩ := hy
      exact ⟨v, rfl⟩
    · rw [hy'] at e; cases e
  obtain ⟨⟨r', c1, c2⟩, c3, c4⟩ := C76_minimize_returns_partial W sh' func' m' (.points ps) rng' hset hd hW' hgen
    (by rw [hps]; exact hfunc') hwp
  have hflat' : ∀ p, Val.seq p ∈ evalsOf (baseMinimize exact W sh' func' m' rng').trace → Flat p := by
    intro p hp
    obtain ⟨q, e, hq⟩ := c3 _ hp
    injection e with e
    rw [e]
    exact inSpace_flat hne hv ((hsame q).2 hq)
  obtain ⟨⟨ys', vals, g1, g2, g3, g4⟩, -⟩ := C83_resume_partial exact W sh sh' func func' m m' rng rng' st hx0 hst hflat a b i r r' d h
    hx' hy' hflat' c1
  refine ⟨r', c1, c2, g3, ⟨ys', vals, g1, g2, g4⟩, c3, c4, ?_⟩
  obtain ⟨fs', b', p', f', l1, l2, -, -, -, l6, l7⟩ := c2
  refine ⟨bv, f', kb4, l7, ?_⟩
  obtain ⟨z, z1, z2, -⟩ := l2
  rw [l6] at z1
  injection z1 with z1
  subst z1
  refine z2 bv ?_
  have : Flt.fin bv ∈ r'.funcVals := by
    rw [g4, hfs]
    exact List.mem_append_left _ (List.mem_map_of_mem (List.mem_of_getElem? kb3))
  rw [l1] at this
  obtain ⟨w, hw, e⟩ := List.mem_map.1 this
  injection e with e
  rw [← e]; exact hw

/-! ## Examples -/

/-- A `base_minimize` over the mixed space of `exDims` whose objective raises at the fourth evaluation: a starting point,
points of a generator and suggestions.
Meets the hypotheses of `C33_minimize_partial`. -/
example :
    let m := { toyMin (.one checkpointSaver) with x0 := .list [.seq mixedPoint] }
    let out := baseMinimize ratArith safeWorld ⟨exDims, some ()⟩ failingObjective m 0
    OrderlyRounding ratArith ∧ WellBehaved ratArith safeWorld ∧ (∀ d ∈ exDims, ValidDim ratArith d) ∧
    out.result.toOption.isNone = true ∧
    evalsOf out.trace = [.seq mixedPoint, .seq [.num 0, .num (-5), .str "a"], .seq [.num 0, .num (-5), .str "a"],
      .seq [.num 5, .num 0, .str "b"]] := by
  refine ⟨ratArith_orderly, safeWorld_wellBehaved, exDims_valid, ?_, ?_⟩ <;> decide +kernel

theorem realWorld_wellBehaved : WellBehaved exact realWorld where
  draws r dims n := by
    constructor
    · simp [realWorld]
    · intro d hd
      simp only [realWorld, List.mem_map] at hd
      obtain ⟨_, _, rfl⟩ := hd
      simp
  restores := by
    intro g dims n r
    rfl
  generated := by
    intro g dims n r pts _ h p hp
    simp only [realWorld, Except.ok.injEq] at h
    subst h
    cases hp

/-- A call with a starting point, eight evaluations of which five are random, and a callback. -/
def checkpointed : MinArgs ℝ Unit :=
  { opt := { est := {}, acq := some .EI, acqOptimizer := .sampling }
    nCalls := 8, nInitialPoints := 5, x0 := .list [.num 3, .num (2 : ℤ), .str "b"], verbose := true }

theorem checkpointed_wellPosed : WellPosed liveDims checkpointed (.point [.num 3, .num (2 : ℤ), .str "b"]) := by
  have h := liveCall_wellPosed
  exact ⟨h.x0, h.proper, h.members, Or.inl rfl, h.initial, h.some, h.budget, h.budget', h.callback, h.calm⟩

theorem checkpointed_sane : SaneArgs checkpointed.opt :=
  ⟨⟨_, rfl⟩, .inl rfl, .inl rfl, by decide, by decide, by rintro k ⟨⟩⟩

/-- The call is resumed from what the callback saw first; the resumed call returns.
Meets the hypotheses of `C83_resume_completes_partial`. -/
example : ∃ a b r d, (baseMinimize exact realWorld ⟨liveDims, none⟩ sumObjective checkpointed ()).trace =
      a ++ .call 0 r d :: b ∧
    ∃ r', (baseMinimize exact realWorld ⟨liveDims, none⟩ sumObjective { checkpointed with
      x0 := .list r.xIters, y0 := .iter (r.funcVals.map YArg.num) } ()).result = .ok (some r') ∧
      ∃ f f', r.fun_ = .fin f ∧ r'.fun_ = .fin f' ∧ f' ≤ f := by
  obtain ⟨⟨r₀, h1, -⟩, -, h3⟩ := C76_minimize_returns_partial realWorld ⟨liveDims, none⟩ sumObjective checkpointed
    (.point [.num 3, .num (2 : ℤ), .str "b"]) () checkpointed_sane liveDims_workable liveWorld_reliable (.inl rfl)
    sumObjective_total checkpointed_wellPosed
  obtain ⟨steps, s1, -, s3, s4⟩ := C43_callbacks_observe_and_stop exact realWorld ⟨liveDims, none⟩ sumObjective
    checkpointed () _ h1
  obtain ⟨st, hst⟩ : ∃ st, steps[0]? = some st := by
    cases steps with
    | nil => cases s3
    | cons st _ => exact ⟨st, rfl⟩
  obtain ⟨a, b, d, e, -⟩ := traceOf_split (i := 0) (cbs := [verboseCallback]) (by decide) [] steps 0 st hst
  have e := s1.trans e
  refine ⟨a, b, st.2, d, e, ?_⟩
  have hw := checkpointed_wellPosed
  obtain ⟨r', g1, -, -, -, -, -, g⟩ := C83_resume_completes_partial realWorld
    ⟨liveDims, none⟩ ⟨liveDims, none⟩ sumObjective sumObjective checkpointed
    { checkpointed with x0 := .list st.2.xIters, y0 := .iter (st.2.funcVals.map YArg.num) } () ()
    (.point [.num 3, .num (2 : ℤ), .str "b"]) hw.x0 hw.proper hw.members (.inl rfl) liveDims_workable.nonempty
    liveDims_workable.valid realWorld_wellBehaved (fun done p y hp hy => by
      obtain ⟨z, hz, hf⟩ := sumObjective_total done p hp
      rw [hz] at hy
      injection hy with hy
      rw [← hy]; exact hf) a b 0 st.2 d e (fun _ => Iff.rfl) checkpointed_sane rfl liveDims_workable
    liveWorld_reliable (.inl rfl) sumObjective_total rfl rfl (show (0 : ℤ) ≤ 5 by decide) (show (5 : ℤ) ≤ 8 by decide) (by rintro ⟨⟩)
    (by intro c hc; cases hc)
  exact ⟨r', g1, g⟩

end Skopt

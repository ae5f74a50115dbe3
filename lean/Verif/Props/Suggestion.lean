import Verif.Props.Pointwise
import Verif.Props.OptimizerInSpace

/-!
# C62: the suggestion is the sampled candidate with the best acquisition value
-/

namespace Skopt

variable {F M R G : Type}

section
variable [LinearOrder F]

theorem proposeOne_sampling {A : Arith F} {W : World F M R G} {cfg : Config} {dims : List (Dim F)} {est : M}
    {yOpt : Flt F} {X : List (List (Val F))} {rng rng' : R} {cand : AcqFunc} {row : List (Val F)}
    (hl : cfg.lbfgs = false) (h : proposeOne A W cfg dims est yOpt X rng cand = (rng', .ok row)) :
    ∃ values i r, W.acquisition est X yOpt cand = .ok values ∧ npArgmin values = .ok i ∧
      pyGet X i = .ok r ∧ (row = r ∨ clipRow (Space.transformedBounds A dims) r = .ok row) := by
  unfold proposeOne at h
  cases ha : W.acquisition est X yOpt cand with
  | error e => simp [ha] at h
  | ok values =>
    simp only [ha, hl, Bool.false_eq_true, if_false] at h
    cases hr : (do let i ← npArgmin values; pyGet X i) with
    | error e => rw [hr] at h; simp at h
    | ok r =>
      rw [hr] at h
      obtain ⟨i, hi, hr'⟩ := bind_eq_ok.1 hr
      refine ⟨values, i, r, rfl, hi, hr', ?_⟩
      by_cases hc : Space.isCategorical dims = true
      · simp only [hc, if_true, Prod.mk.injEq, Except.ok.injEq] at h
        exact Or.inl h.2.symm
      · simp only [hc] at h
        exact Or.inr (Prod.mk.inj h).2

/-- Whatever the way of minimising the acquisition function: in a space that is not entirely categorical every
proposal was clipped. -/
theorem proposeOne_clipped {A : Arith F} {W : World F M R G} {cfg : Config} {dims : List (Dim F)} {est : M}
    {yOpt : Flt F} {X : List (List (Val F))} {rng rng' : R} {cand : AcqFunc} {row : List (Val F)}
    (hc : Space.isCategorical dims = false) (h : proposeOne A W cfg dims est yOpt X rng cand = (rng', .ok row)) :
    ∃ r, clipRow (Space.transformedBounds A dims) r = .ok row := by
  unfold proposeOne at h
  cases ha : W.acquisition est X yOpt cand with
  | error e => simp [ha] at h
  | ok values =>
    simp only [ha] at h
    generalize (if cfg.lbfgs = true then _ else _ : R × Except PyErr (List (Val F))) = q at h
    obtain ⟨r1, nx⟩ := q
    cases nx with
    | error e => simp at h
    | ok r =>
      simp only [hc] at h
      exact ⟨r, (Prod.mk.inj h).2⟩

theorem proposeAll_rows {A : Arith F} {W : World F M R G} {dims : List (Dim F)} {est : M} {yOpt : Flt F}
    {X : List (List (Val F))} {cands : List AcqFunc} {s t : Opt F M R}
    (h : proposeAll A W dims est yOpt X cands s = (t, .ok ())) (hs : ∃ xs, s.nextXs = some xs) :
    ∃ rows, t.nextXs = some (s.nextXs.getD [] ++ rows) ∧
      List.Forall₂ (fun c row => ∃ r r', proposeOne A W s.cfg dims est yOpt X r c = (r', .ok row)) cands rows := by
  induction cands generalizing s with
  | nil =>
    simp only [proposeAll, Prod.mk.injEq, and_true] at h
    obtain ⟨xs, hxs⟩ := hs
    subst h
    exact ⟨[], by simp [hxs], .nil⟩
  | cons c cs ih =>
    simp only [proposeAll] at h
    generalize hq : proposeOne A W s.cfg dims est yOpt X s.rng c = q at h
    obtain ⟨rng, o⟩ := q
    cases o with
    | error e => simp at h
    | ok row =>
      obtain ⟨rows, h1, h2⟩ := ih h ⟨_, rfl⟩
      refine ⟨row :: rows, ?_, .cons ⟨_, _, hq⟩ h2⟩
      rw [h1]
      simp

/-- What a successful search for the next point did. -/
theorem suggest_ok {A : Arith F} {W : World F M R G} {dims : List (Dim F)} {est : M} {s t : Opt F M R}
    (h : suggest A W dims est s = (t, .ok ())) :
    ∃ pts X yOpt cand r r' row ps x,
      Space.rvs A dims (W.draws s.rng dims s.cfg.nPoints).2 = .ok pts ∧ Space.transform A dims pts = .ok X ∧
      (do let ys ← flatNums s.yi; fltMin ys) = .ok yOpt ∧
      cand ∈ s.cfg.acq.candidates ∧ proposeOne A W s.cfg dims est yOpt X r cand = (r', .ok row) ∧
      Space.inverseTransform A dims [row] = .ok ps ∧ pyGet ps 0 = .ok x ∧ t.nextX = some x := by
  simp only [suggest] at h
  cases hX : (do let pts ← Space.rvs A dims (W.draws s.rng dims s.cfg.nPoints).2; Space.transform A dims pts) with
  | error e => rw [hX] at h; simp at h
  | ok X =>
    rw [hX] at h
    obtain ⟨pts, hp, hX'⟩ := bind_eq_ok.1 hX
    simp only at h
    cases hy : (do let ys ← flatNums s.yi; fltMin ys) with
    | error e => rw [hy] at h; simp at h
    | ok yOpt =>
      rw [hy] at h
      simp only at h
      generalize hq : proposeAll A W dims est yOpt X s.cfg.acq.candidates
        { s with rng := (W.draws s.rng dims s.cfg.nPoints).1, nextXs := some [] } = q at h
      obtain ⟨u, o⟩ := q
      cases o with
      | error e => simp at h
      | ok _ =>
        simp only at h
        obtain ⟨rows, h1, h2⟩ := proposeAll_rows hq ⟨_, rfl⟩
        simp only [Option.getD_some, List.nil_append] at h1
        generalize hch : (do
          let r ← (choose A W u).2
          let ps ← Space.inverseTransform A dims [r]
          pyGet ps 0) = z at h
        cases z with
        | error e => simp at h
        | ok x =>
          simp only [Prod.mk.injEq, and_true] at h
          obtain ⟨row, hrow, hch⟩ := bind_eq_ok.1 hch
          obtain ⟨ps, hps, hx⟩ := bind_eq_ok.1 hch
          have hmem : row ∈ rows := by
            unfold choose at hrow
            rw [h1] at hrow
            cases ha : u.cfg.acq <;> simp only [ha, Option.getD_some] at hrow
            · cases hg : u.gains with
              | none => rw [hg] at hrow; simp at hrow
              | some g =>
                rw [hg] at hrow
                obtain ⟨i, _, hrow⟩ := bind_eq_ok.1 hrow
                exact pyGet_mem hrow
            all_goals exact pyGet_mem hrow
          obtain ⟨c, hc, r, r', hcr⟩ := forall₂_mem_right h2 hmem
          exact ⟨pts, X, yOpt, c, r, r', row, ps, x, hp, hX', rfl, hc, hcr, hps, hx, by rw [← h]⟩

theorem refit_suggests {A : Arith F} {W : World F M R G} {dims : List (Dim F)} {s t : Opt F M R}
    (h : refit A W dims s = (t, .ok ())) :
    ∃ est s', suggest A W dims est s' = (t, .ok ()) ∧ s'.cfg = s.cfg ∧ s'.yi = s.yi ∧
      t.models.getLast? = some est := by
  unfold refit at h
  cases hX : Space.transform A dims (s.Xi.map Val.items) with
  | error e => simp [hX] at h
  | ok Xt =>
    simp only [hX] at h
    cases hm : (W.fit s.rng Xt s.yi).2 with
    | error e => simp [hm] at h
    | ok est =>
      simp only [hm] at h
      generalize hg : updateGains A W _ est = g at h
      cases g with
      | error e => simp at h
      | ok g =>
        simp only at h
        generalize hpm : pushModel _ _ est = ms at h
        cases ms with
        | error e => simp at h
        | ok ms =>
          simp only at h
          refine ⟨est, _, h, rfl, rfl, ?_⟩
          have hf := suggest_frame A W dims est
            { s with rng := (W.fit s.rng Xt s.yi).1, gains := g, models := ms }
          rw [h] at hf
          rw [hf.2.1]
          exact pushModel_getLast hpm

/-- A fitting `tell` that returns searched successfully for the next point. -/
theorem tell_suggests {A : Arith F} {W : World F M R G} {dims : List (Dim F)} {s : Opt F M R} {x : XArg F}
    {y : YArg F} {res : Result F M} (hest : s.cfg.hasEst = true)
    (h : (tell A W dims s x y true).2 = .ok res) (hn : (tell A W dims s x y true).1.nInit ≤ 0) :
    ∃ est s', suggest A W dims est s' = ((tell A W dims s x y true).1, .ok ()) ∧ s'.cfg = s.cfg ∧
      s'.yi = (tell A W dims s x y true).1.yi ∧ (tell A W dims s x y true).1.models.getLast? = some est := by
  rcases tell_cases A W dims s x y true with ⟨e, he⟩ | ⟨y', _, _, _, he⟩
  · rw [he] at h; cases h
  · rw [he] at h hn ⊢
    rcases tellCore_cases A W dims s x y' true with ⟨e, _, h3⟩ | ⟨u, hu, h3⟩
    · rw [h3] at h; cases h
    · obtain ⟨r1, -⟩ := record_frame hu
      have hf := tellCore_frame A W dims s x y' true hu
      rcases h3 with ⟨_, _, _, h7, h8⟩ | ⟨h4, _⟩
      · rcases h8 with ⟨e, _, h9⟩ | ⟨h9, _⟩
        · rw [h9] at h; cases h
        · have hr : refit A W dims u = ((tellCore A W dims s x y' true).1, .ok ()) := Prod.ext h7.symm h9
          obtain ⟨est, s', a1, a2, a3, a4⟩ := refit_suggests hr
          exact ⟨est, s', a1, a2.trans r1, by rw [a3, hf.5], a4⟩
      · exfalso
        refine h4 ⟨rfl, ?_, by rw [r1]; exact hest⟩
        have := hf.2
        rw [← this]; exact hn

theorem clipRow_noop {bounds : List (F × F)} {r : List (Val F)}
    (h : List.Forall₂ (fun (b : F × F) v => ∃ x, v = .num x ∧ b.1 ≤ x ∧ x ≤ b.2) bounds r) :
    clipRow bounds r = .ok r := by
  obtain ⟨xs, rfl, hx⟩ : ∃ xs : List F, r = xs.map Val.num ∧
      List.Forall₂ (fun (b : F × F) x => b.1 ≤ x ∧ x ≤ b.2) bounds xs := by
    induction h with
    | nil => exact ⟨[], rfl, .nil⟩
    | cons h1 _ ih =>
      obtain ⟨x, rfl, hx⟩ := h1
      obtain ⟨xs, rfl, hxs⟩ := ih
      exact ⟨x :: xs, rfl, .cons hx hxs⟩
  unfold clipRow
  rw [if_neg (by rw [List.length_map, hx.length_eq]; simp), mapE_toNum_eq_ok.2 rfl, ok_bind]
  congr 1
  clear h
  induction hx with
  | nil => rfl
  | cons h1 _ ih =>
    rw [List.zipWith_cons_cons, ih, List.map_cons]
    congr 2
    unfold npClip
    rw [max_eq_left h1.1, min_eq_left h1.2]

/-- **C62, the clip.** For every monotone arithmetic: clipping to `transformed_bounds` leaves encoded members of
the space unchanged, for the dimensions whose bounds are right (`GoodBounds`). -/
theorem C62_clip_changes_nothing_partial (A : Arith F) (hA : MonoArith A)
    (dims : List (Dim F)) (hv : ∀ d ∈ dims, ValidDim A d)
    (hi : ∀ d ∈ dims, Invertible (A.ofInt 0) (A.ofInt 1) d) (hg : ∀ d ∈ dims, GoodBounds A d)
    (X : List (Point F)) (hin : ∀ p ∈ X, InSpace A dims p) (M : List (List (Val F)))
    (h : Space.transform A dims X = .ok M) :
    ∀ r ∈ M, clipRow (Space.transformedBounds A dims) r = .ok r := fun r hr =>
  clipRow_noop (C04_transformed_bounds_partial A hA dims hv hi hg X hin M h r hr)

end

theorem GoodBounds.yieldsNoStr {A : Arith F} {d : Dim F} (h : GoodBounds A d) : YieldsNoStr d := by
  cases d with
  | cat c => rcases h with h | h <;> simp [YieldsNoStr, h]
  | _ => trivial

/-- **C62.** With `acq_optimizer="sampling"`, after a `tell` that fitted a surrogate, the stored suggestion is one
of the points sampled from the space, and no other sampled point has a smaller acquisition value under the new
surrogate (for `gp_hedge`: for one of its acquisition functions).  Real arithmetic, dimensions with correct
transformed bounds and default dtypes; false otherwise (`C62_refuted_integer_log_uniform`). -/
theorem C62_suggestion_minimises_acquisition_partial (W : World ℝ M R G) (hW : WellBehaved exact W)
    (dims : List (Dim ℝ)) (hne : dims ≠ []) (hv : ∀ d ∈ dims, ValidDim exact d)
    (hi : ∀ d ∈ dims, Invertible (0 : ℝ) 1 d) (hg : ∀ d ∈ dims, GoodBounds exact d)
    (hrep : ∀ d ∈ dims, ∀ v, Representable d v) (s : Opt ℝ M R) (hsamp : s.cfg.lbfgs = false)
    (hest : s.cfg.hasEst = true) (x : XArg ℝ) (y : YArg ℝ) (res : Result ℝ M)
    (h : (tell exact W dims s x y true).2 = .ok res) (hn : (tell exact W dims s x y true).1.nInit ≤ 0) :
    let t := (tell exact W dims s x y true).1
    ∃ (est : M) (pts : List (Point ℝ)) (X : List (List (Val ℝ))) (yOpt : Flt ℝ) (cand : AcqFunc)
      (values : List (Flt ℝ)) (i : Nat) (p : Point ℝ) (v : Flt ℝ),
      t.models.getLast? = some est ∧ (do let ys ← flatNums t.yi; fltMin ys) = .ok yOpt ∧
      pts.length = s.cfg.nPoints ∧ (∀ q ∈ pts, InSpace exact dims q) ∧
      Space.transform exact dims pts = .ok X ∧ cand ∈ s.cfg.acq.candidates ∧
      W.acquisition est X yOpt cand = .ok values ∧
      pts[i]? = some p ∧ values[i]? = some v ∧ (∀ w ∈ values, v ≤ w) ∧
      t.nextX = some p := by
  obtain ⟨est, s', h1, h2, h3, h4⟩ := tell_suggests hest h hn
  obtain ⟨pts, X, yOpt, cand, r, r', row, ps, z, g1, g2, g3, g4, g5, g6, g7, g8⟩ := suggest_ok h1
  rw [h2] at g1 g4 g5
  rw [h3] at g3
  obtain ⟨values, i, enc, k1, k2, k3, k4⟩ := proposeOne_sampling hsamp g5
  obtain ⟨c1, c2⟩ := C05_rvs_in_space exact exact_orderly dims hv s.cfg.nPoints _
    (hW.draws s'.rng dims s.cfg.nPoints).1 (hW.draws s'.rng dims s.cfg.nPoints).2 pts g1
  have hrow : row = enc := by
    rcases k4 with k4 | k4
    · exact k4
    · rw [C62_clip_changes_nothing_partial exact exact_mono dims hv (by simpa [exact] using hi) hg pts c2 X g2
        enc (pyGet_mem k3)] at k4
      injection k4 with k4
      exact k4.symm
  subst hrow
  have hpts : pts ≠ [] := by
    rintro rfl
    simp [Space.transform, bind_eq_ok] at g2
  obtain ⟨M', m1, m2⟩ := C02_round_trip_partial dims hne hv hi (Or.inl fun d hd => (hg d hd).yieldsNoStr) pts hpts
    c2 (fun p hp => by
      have := c2 p hp
      unfold InSpace at this
      rw [List.forall₂_iff_get] at this ⊢
      exact ⟨this.1, fun j h1 h2 => hrep _ (List.get_mem _ _) _⟩)
  rw [g2] at m1
  injection m1 with m1
  subst m1
  have hXne : X ≠ [] := by
    rintro rfl
    simp [pyGet] at k3
  have hinv := (C67_inverse_pointwise_partial exact dims hne hv (fun c hc => by
    rcases hg _ hc with h | h <;> simp [h]) X hXne pts).1 m2
  rw [List.forall₂_iff_get] at hinv
  have hget := pyGet_eq_ok.1 k3
  obtain ⟨hiX, hrowX⟩ := List.getElem?_eq_some_iff.1 hget
  have hip : i < pts.length := by rw [← hinv.1]; exact hiX
  have hp := hinv.2 i hiX hip
  simp only [List.get_eq_getElem, hrowX] at hp
  rw [g6] at hp
  injection hp with hp
  subst hp
  simp only [pyGet, List.getElem?_cons_zero, Except.ok.injEq] at g7
  obtain ⟨hiv, hmin, _⟩ := npArgmin_spec k2
  refine ⟨est, pts, X, yOpt, cand, values, i, pts[i], values[i], h4, g3, c1, c2, g2, g4, k1,
    List.getElem?_eq_getElem hip, List.getElem?_eq_getElem hiv, hmin, ?_⟩
  rw [g8, ← g7]

/-- **C62 is false for `Integer(low, high, prior='log-uniform')` with a surrogate that is not a GP** (identity
transform), whenever `high ≤ 10 ** low`, e.g. `Integer(3, 1000, 'log-uniform')`: whatever the surrogate, the
acquisition function and its optimizer prefer, the suggestion is always the upper bound. -/
theorem C62_refuted_integer_log_uniform (W : World ℝ M R G) (l h : ℤ) (hlt : l < h)
    (hhi : (h : ℝ) ≤ (10 : ℝ) ^ (l : ℝ)) (s : Opt ℝ M R) (hest : s.cfg.hasEst = true) (x : XArg ℝ) (y : YArg ℝ)
    (res : Result ℝ M) :
    let dims : List (Dim ℝ) := [.int ⟨l, h, .logUniform, 10, .identity, none, id⟩]
    (tell exact W dims s x y true).2 = .ok res → (tell exact W dims s x y true).1.nInit ≤ 0 →
      (tell exact W dims s x y true).1.nextX = some [.num (h : ℝ)] := by
  intro dims ht hn
  obtain ⟨est, s', h1, h2, h3, h4⟩ := tell_suggests hest ht hn
  obtain ⟨pts, X, yOpt, cand, r, r', row, ps, z, g1, g2, g3, g4, g5, g6, g7, g8⟩ := suggest_ok h1
  obtain ⟨q, hq⟩ := proposeOne_clipped rfl g5
  have hb : Space.transformedBounds exact dims = [((l : ℝ), (h : ℝ))] := rfl
  rw [hb] at hq
  unfold clipRow at hq
  split at hq
  · cases hq
  · next hlen =>
    obtain ⟨v, rfl⟩ := List.length_eq_one_iff.1 (not_not.1 hlen)
    obtain ⟨us, hus, hq⟩ := bind_eq_ok.1 hq
    obtain ⟨u, _, hu, hu', rfl⟩ := mapE_cons_ok.1 hus
    injection hu' with hu'
    subst hu'
    injection hq with hq
    simp only [List.zipWith_cons_cons, List.zipWith_nil_left] at hq
    subst hq
    have hinv : Space.inverseTransform exact dims [[.num (npClip (l : ℝ) h u)]] = .ok [[.num
        ((roundHalfEven (npClip (l : ℝ) h ((10 : ℝ) ^ (npClip (l : ℝ) h u))) : ℤ) : ℝ)]] := rfl
    rw [hinv] at g6
    injection g6 with g6
    subst g6
    simp only [pyGet, List.getElem?_cons_zero, Except.ok.injEq] at g7
    subst g7
    rw [g8]
    have e1 : (l : ℝ) ≤ npClip (l : ℝ) h u := by
      unfold npClip
      exact le_min (le_max_right _ _) (by exact_mod_cast hlt.le)
    have e2 : (h : ℝ) ≤ (10 : ℝ) ^ (npClip (l : ℝ) h u) :=
      hhi.trans (Real.rpow_le_rpow_of_exponent_le (by norm_num) e1)
    have e3 : npClip (l : ℝ) h ((10 : ℝ) ^ (npClip (l : ℝ) h u)) = h := by
      unfold npClip at e2 ⊢
      exact min_eq_right (e2.trans (le_max_left _ _))
    rw [e3, roundHalfEven_intCast (K := ℝ) h]

/-- A world of third-party calls over the reals in which everything succeeds and every draw is the number 2. -/
def realWorld : World ℝ Unit Unit Unit where
  fit _ _ _ := ((), .ok ())
  predict _ X := .ok (X.map fun _ => 0)
  draws _ dims n := ((), dims.map fun _ => ⟨List.replicate n 2, List.replicate n 0⟩)
  acquisition _ X _ _ := .ok (X.map fun _ => .fin 0)
  argsort v := List.range v.length
  lbfgs _ _ _ _ x := ((), .ok (x, .fin 0))
  multinomial _ p := ((), (List.range p.length).map fun i => if i = 1 then 1 else 0)
  exp x := x
  log t := .ok t
  logMax := 700
  eta := 1
  seed _ := ((), ())
  generate g dims _ _ := (g, (dims, .ok []))

/-- A fresh optimizer that samples one candidate and needs no initial points. -/
noncomputable def realOpt : Opt ℝ Unit Unit := Opt.fresh exact
  { acq := .EI, hasEst := true, isGP := false, lbfgs := false, nPoints := 1, nRestarts := 1,
    nInitial := 0, queueSize := none } () none

/-- The hypotheses of the refutation are met: `Integer(3, 1000, 'log-uniform')`, told one observation. -/
example : ∃ res, (tell exact realWorld [.int ⟨(3 : ℤ), (1000 : ℤ), .logUniform, 10, .identity, none, id⟩]
      realOpt (.lst [.num 5]) (.num (.fin 1)) true).2 = .ok res ∧
    (tell exact realWorld [.int ⟨(3 : ℤ), (1000 : ℤ), .logUniform, 10, .identity, none, id⟩]
      realOpt (.lst [.num 5]) (.num (.fin 1)) true).1.nInit ≤ 0 ∧ ((1000 : ℤ) : ℝ) ≤ (10 : ℝ) ^ ((3 : ℤ) : ℝ) := by
  have hc : checkX ([.int ⟨(3 : ℤ), (1000 : ℤ), .logUniform, 10, .identity, none, id⟩] : List (Dim ℝ))
      (.lst [.num (5 : ℝ)]) = .ok () := by
    norm_num [checkX, checkXInSpace, is2D, Val.isSeq, Space.contains, Dim.contains, Val.toNum, bind, Except.bind]
  simp only [tell, hc, ok_bind]
  refine ⟨_, rfl, ?_, by norm_num⟩
  show (0 : ℤ) - 1 ≤ 0
  norm_num

/-- The hypotheses on the optimizer of the positive theorem are met: `Real(0, 10)`, told one observation.
Meets the hypotheses of `C62_clip_changes_nothing_partial`, `C62_suggestion_minimises_acquisition_partial`. -/
example : ∃ res, (tell exact realWorld [.real ⟨0, 10, .uniform, 10, .identity, none, id⟩]
      realOpt (.lst [.num 5]) (.num (.fin 1)) true).2 = .ok res ∧
    (tell exact realWorld [.real ⟨0, 10, .uniform, 10, .identity, none, id⟩]
      realOpt (.lst [.num 5]) (.num (.fin 1)) true).1.nInit ≤ 0 := by
  have hc : checkX ([.real ⟨0, 10, .uniform, 10, .identity, none, id⟩] : List (Dim ℝ))
      (.lst [.num (5 : ℝ)]) = .ok () := by
    norm_num [checkX, checkXInSpace, is2D, Val.isSeq, Space.contains, Dim.contains, Val.toNum, bind, Except.bind]
  simp only [tell, hc, ok_bind]
  refine ⟨_, rfl, ?_⟩
  show (0 : ℤ) - 1 ≤ 0
  norm_num

end Skopt

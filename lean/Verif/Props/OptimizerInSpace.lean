import Verif.Props.OptimizerCopy
import Verif.Props.SpaceChecks

/-!
# C33: suggested points are inside the space; C31: `ask` answers
-/

namespace Skopt

variable {F M R G : Type} [LinearOrder F]

/-- What is assumed of the outside world for C33 – nothing about surrogates, acquisition values or
optimisers: random draws have the requested size, the generator restores the transforms of the
dimensions and returns points of the space (proved for all generators: C08, C21, C22, C25, C28). -/
structure WellBehaved (A : Arith F) (W : World F M R G) : Prop where
  draws : ∀ r dims n, (W.draws r dims n).2.length = dims.length ∧
    ∀ d ∈ (W.draws r dims n).2, d.nums.length = n ∧ d.idxs.length = n
  restores : Restores W
  generated : ∀ g dims n r pts, (∀ d ∈ dims, ValidDim A d) → (W.generate g dims n r).2.2 = .ok pts →
    ∀ p ∈ pts, InSpace A dims p

/-- What is known of the points an optimizer may suggest: the design lies in the space; the next point was decoded
(a categorical dimension that passes entries through may hold anything), and there is a recorded point to compare it
with. -/
structure AllInSpace (A : Arith F) (dims : List (Dim F)) (s : Opt F M R) : Prop where
  design : ∀ P, s.initialSamples = some P → ∀ p ∈ P, InSpace A dims p
  next : ∀ p, s.nextX = some p → List.Forall₂ (fun d v => Decoding d → Legal A d v) dims p ∧
    ∃ v ∈ s.Xi, dims.length ≤ v.items.length
  lists : is2D s.Xi = true

/-- Decoding, for any categorical transform. -/
theorem inverse_loose {A : Arith F} (hA : OrderlyRounding A) {dims : List (Dim F)} (hv : ∀ d ∈ dims, ValidDim A d)
    {Xt : List (List (Val F))} {pts : List (Point F)} (h : Space.inverseTransform A dims Xt = .ok pts) :
    ∀ p ∈ pts, List.Forall₂ (fun d v => Decoding d → Legal A d v) dims p := by
  have hcols : ∀ {dims : List (Dim F)} {start : Nat} {cols : List (List (Val F))}, (∀ d ∈ dims, ValidDim A d) →
      Space.inverseCols A dims start Xt = .ok cols →
      List.Forall₂ (fun d col => ∀ v ∈ col, Decoding d → Legal A d v) dims cols := by
    intro dims
    induction dims with
    | nil =>
      intro start cols _ h
      simp only [Space.inverseCols, Except.ok.injEq] at h; subst h; exact .nil
    | cons d ds ih =>
      intro start cols hv h
      simp only [Space.inverseCols, bind_eq_ok, Except.ok.injEq] at h
      obtain ⟨b, _, c, hc, cs, hcs, rfl⟩ := h
      exact .cons (fun v hvc hdec => Dim.inverse_legal hA (hv d (by simp)) hdec hc v hvc)
        (ih (fun x hx => hv x (by simp [hx])) hcs)
  have hsel : ∀ {dims : List (Dim F)} {cols : List (List (Val F))} {p : Point F},
      List.Forall₂ (fun d col => ∀ v ∈ col, Decoding d → Legal A d v) dims cols →
      List.Forall₂ (fun col v => v ∈ col) cols p →
      List.Forall₂ (fun d v => Decoding d → Legal A d v) dims p := by
    intro dims cols p h hp
    induction h generalizing p with
    | nil => cases hp; exact .nil
    | cons h1 _ ih =>
      cases hp with
      | cons g1 g2 => exact .cons (h1 _ g1) (ih g2)
  unfold Space.inverseTransform at h
  rw [bind_eq_ok] at h
  obtain ⟨cols, hc, h⟩ := h
  split at h
  · cases h
  · intro p hp
    exact hsel (hcols hv hc) (transpose_mem h p hp)

/-- A distance is only returned between points inside the dimensions. -/
theorem distance_within {A : Arith F} {dims : List (Dim F)} {p q : Point F} {acc r : F}
    (h : Space.distanceFrom A acc dims p q = .ok r) (hp : p.length = dims.length) (hq : dims.length ≤ q.length) :
    List.Forall₂ (fun d v => d.contains v = .ok true) dims p := by
  induction dims generalizing p q acc with
  | nil => cases p with
    | nil => exact .nil
    | cons _ _ => cases hp
  | cons d ds ih =>
    cases p with
    | nil => cases hp
    | cons v vs =>
      cases q with
      | nil => simp at hq
      | cons w ws =>
        simp only [Space.distanceFrom, bind_eq_ok] at h
        obtain ⟨x, hx, h⟩ := h
        refine .cons ?_ (ih h (by simpa using hp) (by simpa using hq))
        simp only [Dim.distance, bind_eq_ok] at hx
        obtain ⟨b, hb, hx⟩ := hx
        cases b
        · simp at hx
        · exact hb

theorem inSpace_of_both {A : Arith F} {dims : List (Dim F)} {p : Point F}
    (h : List.Forall₂ (fun d v => Decoding d → Legal A d v) dims p)
    (h' : List.Forall₂ (fun d v => d.contains v = .ok true) dims p) : InSpace A dims p := by
  unfold InSpace
  induction h with
  | nil => exact .nil
  | @cons d v ds vs h1 _ ih =>
    cases h' with
    | cons g1 g2 =>
      refine .cons ?_ (ih g2)
      cases d with
      | real d => exact h1 trivial
      | int d => exact h1 trivial
      | cat d => exact Dim.contains_true.1 g1

/-- The next point is only replaced when the recorded points were transformed. -/
theorem refit_recorded {A : Arith F} {W : World F M R G} {dims : List (Dim F)} {s : Opt F M R}
    (h : (refit A W dims s).1.nextX ≠ s.nextX) : ∃ v ∈ s.Xi, dims.length ≤ v.items.length := by
  unfold refit at h
  split at h
  · exact absurd rfl h
  · next Xt hXt =>
    clear h
    simp only [Space.transform, bind_eq_ok] at hXt
    obtain ⟨cols, hcols, blocks, _, hXt⟩ := hXt
    split at hXt
    · cases hXt
    · next hne =>
      simp only [Bool.or_eq_true, List.isEmpty_iff, not_or] at hne
      cases hXi : s.Xi with
      | nil => rw [hXi] at hne; exact absurd rfl hne.1
      | cons v vs =>
        refine ⟨v, by simp, ?_⟩
        by_contra hlt
        have hlt : v.items.length < dims.length := by omega
        have hj : v.items.length ∈ List.range dims.length := List.mem_range.2 hlt
        rw [hXi] at hcols
        have herr : ∃ e, Space.columns dims.length ((v :: vs).map Val.items) = .error e := by
          refine mapE_error_iff.2 ⟨_, hj, mapE_error_iff.2 ⟨v.items, by simp, .indexError, ?_⟩⟩
          simp [pyGet]
        obtain ⟨e, he⟩ := herr
        rw [hcols] at he
        cases he

omit [LinearOrder F] in
/-- Recorded points are sequences. -/
theorem record_lists {s t : Opt F M R} {x : XArg F} {y : YArg F} (h : record s x y = .ok t)
    (hs : is2D s.Xi = true) : is2D t.Xi = true := by
  unfold record at h
  split at h
  · split at h
    · split at h <;> (injection h with h; subst h)
      · next h2 => simpa [record.batch, is2D] using ⟨by simpa [is2D] using hs, by simpa [is2D] using h2⟩
      · simpa [record.single, is2D, Val.isSeq] using hs
    · split at h <;> (injection h with h; subst h)
      · next h2 =>
        simp only [Bool.and_eq_true] at h2
        simpa [record.batch, is2D] using ⟨by simpa [is2D] using hs, by simpa [is2D] using h2.2⟩
      · simpa [record.single, is2D, Val.isSeq] using hs
  · split at h
    · injection h with h; subst h; exact hs
    · cases h
  · cases h

theorem askOne_inSpace {A : Arith F} (hA : OrderlyRounding A) {W : World F M R G}
    (hW : WellBehaved A W) {dims : List (Dim F)} (hv : ∀ d ∈ dims, ValidDim A d) {s : Opt F M R}
    (hs : AllInSpace A dims s) {p : Point F} (h : (askOne A W dims s).2 = .ok p) :
    InSpace A dims p := by
  unfold askOne at h
  split at h
  · split at h
    · next hi =>
      simp only [bind_eq_ok] at h
      obtain ⟨pts, h1, h2⟩ := h
      have := (C05_rvs_in_space A hA dims hv 1 _ (hW.draws s.rng dims 1).1 (hW.draws s.rng dims 1).2
        pts h1).2
      exact this p (pyGet_mem h2)
    · next P hP =>
      simp only [pyGetI] at h
      split at h
      · exact hs.design P hP p (pyGet_mem h)
      · split at h
        · exact hs.design P hP p (pyGet_mem h)
        · cases h
  · split at h
    · cases h
    · split at h
      · cases h
      · next x hx =>
        simp only [bind_eq_ok] at h
        obtain ⟨ds, _, h⟩ := h
        split at h
        · cases h
        · injection h with h
          subst h
          obtain ⟨h1, v, hv', h2⟩ := hs.next x hx
          obtain ⟨r, hr⟩ : ∃ r, Space.distance A dims x v.items = .ok r := by
            cases hr : Space.distance A dims x v.items with
            | ok r => exact ⟨r, rfl⟩
            | error e =>
              obtain ⟨e', he'⟩ := (mapE_error_iff (f := fun xi : Val F => Space.distance A dims x xi.items)).2
                ⟨v, hv', e, hr⟩
              next hds _ => rw [hds] at he'; cases he'
          exact inSpace_of_both h1 (distance_within hr h1.length_eq.symm h2)

theorem refit_inSpace {A : Arith F} (hA : OrderlyRounding A) (W : World F M R G)
    {dims : List (Dim F)} (hv : ∀ d ∈ dims, ValidDim A d)
    {s : Opt F M R} (hs : AllInSpace A dims s) : AllInSpace A dims (refit A W dims s).1 := by
  obtain ⟨h1, _, h3, _⟩ := refit_frame A W dims s
  refine ⟨?_, ?_, by rw [h1.4]; exact hs.lists⟩
  · rw [h1.3]; exact hs.design
  · rw [h1.4]
    by_cases hsame : (refit A W dims s).1.nextX = s.nextX
    · rw [hsame]; exact hs.next
    · have hrec := refit_recorded hsame
      rcases h3 with h3 | ⟨r, ps, x, h4, h5, h6⟩
      · exact absurd h3 hsame
      · intro p hp
        rw [h6] at hp
        injection hp with hp
        subst hp
        exact ⟨inverse_loose hA hv h4 _ (pyGet_mem h5), hrec⟩

theorem tellCore_inSpace {A : Arith F} (hA : OrderlyRounding A) (W : World F M R G)
    {dims : List (Dim F)} (hv : ∀ d ∈ dims, ValidDim A d)
    {s : Opt F M R} (hs : AllInSpace A dims s) (x : XArg F) (y : YArg F) (fit : Bool) :
    AllInSpace A dims (tellCore A W dims s x y fit).1 := by
  rcases tellCore_cases A W dims s x y fit with ⟨e, _, h⟩ | ⟨u, hu, h⟩
  · rw [h]; exact hs
  · obtain ⟨r1, r2, r3, _, _, r6, _, _, xs, _, r9, _⟩ := record_frame hu
    have hu' : AllInSpace A dims u := by
      refine ⟨by rw [r2]; exact hs.design, ?_, record_lists hu hs.lists⟩
      rw [r6, r9]
      intro p hp
      obtain ⟨h1, v, h2, h3⟩ := hs.next p hp
      exact ⟨h1, v, List.mem_append_left _ h2, h3⟩
    rcases h with ⟨_, _, _, h, _⟩ | ⟨_, h⟩
    · rw [h]; exact refit_inSpace hA W hv hu'
    · rw [h]; exact hu'

/-- A batch is appended to the recorded points. -/
theorem tellCore_batch_Xi (A : Arith F) (W : World F M R G) (dims : List (Dim F)) (s : Opt F M R)
    (xs : List (Val F)) (ys : List (YArg F)) (fit : Bool) (h2 : is2D xs = true) :
    (tellCore A W dims s (.lst xs) (.seq ys) fit).1.Xi = s.Xi ++ xs := by
  have hrec : record s (.lst xs) (.seq ys) = .ok (record.batch s xs ys) := by
    unfold record
    by_cases hps : s.cfg.acq.isPs = true <;> simp [hps, h2, YArg.isSeq, YArg.items]
  rcases tellCore_cases A W dims s (.lst xs) (.seq ys) fit with ⟨e, h, _⟩ | ⟨u, hu, h⟩
  · rw [hrec] at h; cases h
  · rw [hrec] at hu
    injection hu with hu
    subst hu
    rcases h with ⟨_, _, _, h, _⟩ | ⟨_, h⟩
    · rw [h, (refit_frame A W dims _).1.4]; rfl
    · rw [h]; rfl

theorem copy_inSpace {A : Arith F} (hA : OrderlyRounding A) {W : World F M R G}
    (hW : WellBehaved A W) {sh sh' : Shared F G} (hv : ∀ d ∈ sh.dims, ValidDim A d)
    {s o : Opt F M R} {rng : R}
    (hgp : s.cfg.isGP = true → sh.dims.map Dim.normalized = sh.dims)
    (hs : AllInSpace A sh.dims s) (h : Opt.copy A W sh s rng = (sh', .ok o)) :
    AllInSpace A sh.dims o ∧ sh'.dims = sh.dims ∧ o.Xi = s.Xi := by
  have hl : ∀ d ∈ sh.dims, HasLegalTransform d := fun d hd => (hv d hd).legalTransform
  have hdims := copy_dims (A := A) hW.restores sh s rng hl hgp
  rw [h] at hdims
  suffices hsuf : AllInSpace A sh.dims o ∧ o.Xi = s.Xi from ⟨hsuf.1, hdims, hsuf.2⟩
  have hi := init_dims (M := M) (A := A) hW.restores sh { s.cfg with queueSize := none } rng hl hgp
  unfold Opt.copy at h
  split at h
  · cases h
  · next sh₁ o₁ hio =>
    rw [hio] at hi
    obtain ⟨r, pts, rfl, _, _⟩ := init_ok hio
    dsimp only at h hi
    have hf : AllInSpace A sh.dims ({ (Opt.fresh A { s.cfg with queueSize := none } r pts : Opt F M R) with
        initialSamples := s.initialSamples
        gains := match s.gains with
          | some g => some g
          | none => (Opt.fresh A { s.cfg with queueSize := none } r pts : Opt F M R).gains } :
            Opt F M R) := ⟨hs.design, fun p hp => (by cases hp), rfl⟩
    split at h
    · next hnil =>
      simp only [Prod.mk.injEq, Except.ok.injEq] at h
      rw [← h.2]
      exact ⟨hf, (List.isEmpty_iff.1 hnil).symm⟩
    · split at h
      · cases h
      · next o₂ res ht =>
        simp only [Prod.mk.injEq, Except.ok.injEq] at h
        rw [← h.2]
        constructor
        · have := tellCore_inSpace hA W hv hf (.lst s.Xi) (.seq s.yi) true
          rw [← hi] at this ⊢
          exact Eq.mp (congrArg (AllInSpace A sh₁.dims) (congrArg Prod.fst ht)) this
        · exact (congrArg (fun q => q.1.Xi) ht).symm.trans
            ((tellCore_batch_Xi A W sh₁.dims _ s.Xi s.yi true hs.lists).trans (List.nil_append _))

theorem liarLoop_inSpace {A : Arith F} (hA : OrderlyRounding A) {W : World F M R G}
    (hW : WellBehaved A W) {dims : List (Dim F)} (hv : ∀ d ∈ dims, ValidDim A d)
    {strat : Strategy} {n : Nat} {o o' : Opt F M R}
    {X : List (Point F)} (hs : AllInSpace A dims o)
    (h : liarLoop A W dims strat n o = (o', .ok X)) : ∀ p ∈ X, InSpace A dims p := by
  induction n generalizing o o' X with
  | zero =>
    simp only [liarLoop, Prod.mk.injEq, Except.ok.injEq] at h
    rw [← h.2]; simp
  | succ n ih =>
    obtain ⟨r, x, l, o₂, res, Y, ha, hl, ht, hl', rfl⟩ := liarLoop_succ h
    have hx : InSpace A dims x := askOne_inSpace hA hW hv hs (by rw [ha])
    have h2 := tellCore_inSpace hA W hv (s := { o with rng := r }) ⟨hs.design, hs.next, hs.lists⟩
      (.lst x) l true
    rw [ht] at h2
    intro p hp
    rcases List.mem_cons.1 hp with rfl | hp
    · exact hx
    · exact ih h2 hl' p hp

/-- **C33.** Whatever the surrogate, the acquisition function, the acquisition optimiser and the random
numbers do, every point returned by `ask` and every point of every batch is a point of the space: for
every optimizer that the constructor returns and every sequence of calls whatsoever (also calls that
raise, and calls with malformed arguments).

This holds for all transforms: a categorical dimension with the `identity` transform passes through whatever the
acquisition optimiser returns, but `ask` then raises instead of returning it, since it computes the distance to the
recorded points.

Missing: dimensions whose own random samples are not in the space, such as `Integer` with fractional bounds
(`C33_refuted_fractional_bounds`). -/
theorem C33_suggestions_in_space_partial (A : Arith F) (hA : OrderlyRounding A) (W : World F M R G)
    (hW : WellBehaved A W) (sh sh₁ : Shared F G) (cfg : Config) (rng : R) (s₀ : Opt F M R)
    (hv : ∀ d ∈ sh.dims, ValidDim A d)
    (hinit : Opt.init A W sh cfg rng = (sh₁, .ok s₀)) (ops : List (Op F)) :
    ∀ out ∈ (runOps A W sh₁ s₀ ops).2.2,
      (∀ p, out = .ok (.point p) → InSpace A sh.dims p) ∧
      (∀ ps, out = .ok (.points ps) → ∀ p ∈ ps, InSpace A sh.dims p) := by
  -- the dimensions during the run
  obtain ⟨D, hD, hDv, hDgp, hDin, hfresh⟩ : ∃ D, sh₁.dims = D ∧ (∀ d ∈ D, ValidDim A d) ∧
      (cfg.isGP = true → D.map Dim.normalized = D) ∧
      (∀ p, InSpace A D p ↔ InSpace A sh.dims p) ∧
      (s₀.cfg = cfg ∧ AllInSpace A D s₀ ∧ s₀.cache = none) := by
    have hdims : ∃ D, (if cfg.isGP then Space.setTransformer sh.dims .normalize else .ok sh.dims) =
        .ok D ∧ (∀ d ∈ D, ValidDim A d) ∧
        (cfg.isGP = true → D.map Dim.normalized = D) ∧ (∀ p, InSpace A D p ↔ InSpace A sh.dims p) := by
      cases hgp : cfg.isGP with
      | false => exact ⟨sh.dims, by simp, hv, by simp, fun _ => Iff.rfl⟩
      | true =>
        refine ⟨sh.dims.map Dim.normalized, by rw [if_pos rfl, setTransformer_normalize], ?_, ?_,
          fun p => inSpace_normalized⟩
        · intro d hd'
          obtain ⟨d', hd'', rfl⟩ := List.mem_map.1 hd'
          exact (hv d' hd'').normalized
        · intro _
          rw [List.map_map]
          apply List.map_congr_left
          intro d _
          cases d <;> rfl
    obtain ⟨D, h1, h2, h4, h5⟩ := hdims
    refine ⟨D, ?_, h2, h4, h5, ?_⟩
    · unfold Opt.init at hinit
      rw [h1] at hinit
      dsimp only at hinit
      split at hinit
      · simp only [Prod.mk.injEq] at hinit
        rw [← hinit.1]
      · next g hg =>
        have hr := hW.restores g D cfg.nInitial (W.seed rng).2
        split at hinit
        · cases hinit
        · next g' dims' P hgen =>
          rw [hgen] at hr
          simp only at hr
          subst hr
          rw [set_own_transformers fun d hd => (h2 d hd).legalTransform] at hinit
          simp only [Prod.mk.injEq] at hinit
          rw [← hinit.1]
    · obtain ⟨r, pts, rfl, i1, i2⟩ := init_ok hinit
      refine ⟨rfl, ⟨?_, fun p hp => (by cases hp), rfl⟩, rfl⟩
      intro P hP
      change pts = some P at hP
      cases hg : sh.gen with
      | none => rw [i1 hg] at hP; cases hP
      | some g =>
        obtain ⟨dims, dims', r', g', P', e1, e2, e3, _⟩ := i2 g hg
        rw [h1] at e3
        injection e3 with e3
        subst e3
        rw [e1] at hP
        injection hP with hP
        subst hP
        have := hW.generated g D cfg.nInitial r' P' h2 (by rw [e2])
        exact this
  have key : ∀ (ops : List (Op F)) (sh₁ : Shared F G) (s : Opt F M R), sh₁.dims = D → s.cfg = cfg →
      AllInSpace A D s →
      (∀ k st X, s.cache = some ((k, st), X) → ∀ p ∈ X, InSpace A D p) →
      ∀ out ∈ (runOps A W sh₁ s ops).2.2,
        (∀ p, out = .ok (.point p) → InSpace A D p) ∧
        (∀ ps, out = .ok (.points ps) → ∀ p ∈ ps, InSpace A D p) := by
    intro ops
    induction ops with
    | nil => intro sh₁ s _ _ _ _ out h; simp [runOps] at h
    | cons op ops ih =>
      intro sh₁ s hsh hc hs hcache out hout
      -- the batch of a returning batch ask
      have hbatch : ∀ n strat X, (askMany A W sh₁ s n strat).2.2 = .ok X →
          ∀ p ∈ X, InSpace A D p := by
        intro n strat X hX
        obtain ⟨_, _, ⟨e1, _⟩ | ⟨sh₂, o, o', e1, e2, _⟩⟩ := askMany_ok hX
        · exact hcache _ _ _ e1
        · obtain ⟨c1, c2, _⟩ := copy_inSpace hA hW (s := { s with rng := (W.seed s.rng).1 })
            (by rw [hsh]; exact hDv) (by rw [hsh]; simpa [hc] using hDgp)
            (by rw [hsh]; exact ⟨hs.design, hs.next, hs.lists⟩) e1
          rw [hsh] at c1 c2
          rw [c2] at e2
          exact liarLoop_inSpace hA hW hDv c1 e2
      have hl : ∀ d ∈ sh₁.dims, HasLegalTransform d := by
        rw [hsh]; exact fun d hd => (hDv d hd).legalTransform
      have hcd : ∀ (o' : Opt F M R) r, o'.cfg = s.cfg → (Opt.copy A W sh₁ o' r).1.dims = D := by
        intro o' r h
        rw [copy_dims hW.restores sh₁ o' r hl (by rw [hsh, h, hc]; exact hDgp), hsh]
      have hstep : (step A W sh₁ s op).1.dims = D ∧ AllInSpace A D (step A W sh₁ s op).2.1 ∧
          (∀ p, (step A W sh₁ s op).2.2 = .ok (.point p) → InSpace A D p) ∧
          (∀ ps, (step A W sh₁ s op).2.2 = .ok (.points ps) → ∀ p ∈ ps, InSpace A D p) := by
        cases op with
        | ask =>
          obtain ⟨r, e⟩ := askOne_frame A W sh₁.dims s
          refine ⟨hsh, ?_, ?_, ?_⟩
          · simp only [step, e]; exact ⟨hs.design, hs.next, hs.lists⟩
          · intro p hp
            simp only [step, bind_eq_ok] at hp
            obtain ⟨q, hq, hp⟩ := hp
            injection hp with hp
            injection hp with hp
            subst hp
            rw [hsh] at hq
            exact askOne_inSpace hA hW hDv hs hq
          · intro ps hp
            simp only [step, bind_eq_ok] at hp
            obtain ⟨q, hq, hp⟩ := hp
            injection hp with hp
            cases hp
        | askMany n strat =>
          obtain ⟨r, c, e⟩ := askMany_frame A W sh₁ s n strat
          refine ⟨?_, ?_, ?_, ?_⟩
          · simp only [step, askMany]
            split
            · exact hsh
            · split
              · exact hsh
              · split
                · exact hsh
                · have := hcd { s with rng := (W.seed s.rng).1 } (W.seed s.rng).2 rfl
                  split
                  · next h => rw [h] at this; exact this
                  · next h =>
                    rw [h] at this
                    split <;> exact this
          · simp only [step, e]; exact ⟨hs.design, hs.next, hs.lists⟩
          · intro p hp
            simp only [step, bind_eq_ok] at hp
            obtain ⟨q, hq, hp⟩ := hp
            injection hp with hp
            cases hp
          · intro ps hp
            simp only [step, bind_eq_ok] at hp
            obtain ⟨q, hq, hp⟩ := hp
            injection hp with hp
            injection hp with hp
            subst hp
            exact hbatch n strat _ hq
        | tell x y fit =>
          refine ⟨hsh, ?_, ?_, ?_⟩
          · simp only [step]
            rcases tell_cases A W sh₁.dims s x y fit with ⟨e, h⟩ | ⟨y', _, _, _, h⟩
            · rw [h]; exact hs
            · rw [h, hsh]; exact tellCore_inSpace hA W hDv hs x y' fit
          all_goals
            intro p hp
            simp only [step, bind_eq_ok] at hp
            obtain ⟨q, hq, hp⟩ := hp
            injection hp with hp
            cases hp
        | getResult =>
          refine ⟨hsh, hs, ?_, ?_⟩
          all_goals
            intro p hp
            simp only [step, bind_eq_ok] at hp
            obtain ⟨q, hq, hp⟩ := hp
            injection hp with hp
            cases hp
        | updateNext =>
          refine ⟨?_, ?_, ?_, ?_⟩
          · simp only [step, updateNext]
            split
            · exact hsh
            · have := hcd { s with cache := none } s.rng rfl
              split
              · next h => rw [h] at this; exact this
              · next h =>
                rw [h] at this
                split <;> exact this
          · simp only [step, updateNext]
            split
            · exact ⟨hs.design, hs.next, hs.lists⟩
            · next x₀ hx₀ =>
              split
              · exact ⟨hs.design, hs.next, hs.lists⟩
              · next sh₂ o hco =>
                obtain ⟨c1, _, c3⟩ := copy_inSpace hA hW (s := { s with cache := none })
                  (by rw [hsh]; exact hDv)
                  (by rw [hsh]; simpa [hc] using hDgp)
                  (by rw [hsh]; exact ⟨hs.design, hs.next, hs.lists⟩) hco
                rw [hsh] at c1
                split
                · exact ⟨hs.design, hs.next, hs.lists⟩
                · next x hx =>
                  refine ⟨hs.design, ?_, hs.lists⟩
                  intro p hp
                  simp only [Option.some.injEq] at hp
                  subst hp
                  obtain ⟨n1, n2⟩ := c1.next _ hx
                  exact ⟨n1, by rwa [c3] at n2⟩
          all_goals
            intro p hp
            simp only [step, bind_eq_ok] at hp
            obtain ⟨q, hq, hp⟩ := hp
            injection hp with hp
            cases hp
      obtain ⟨t1, t2, t3, t4⟩ := hstep
      simp only [runOps, List.mem_cons] at hout
      rcases hout with rfl | hout
      · exact ⟨t3, t4⟩
      · refine ih (step A W sh₁ s op).1 (step A W sh₁ s op).2.1 t1
          ((step_frame A W sh₁ s op).1.trans hc) t2 ?_ out hout
        rcases step_cache A W sh₁ s op with ⟨g1, _⟩ | g1 | ⟨n, strat, X, _, g2, g3, _⟩
        · rw [g1]; exact hcache
        · intro k st X hX; rw [g1] at hX; cases hX
        · intro k st Y hY
          rw [g3] at hY
          simp only [Option.some.injEq, Prod.mk.injEq] at hY
          obtain ⟨⟨rfl, rfl⟩, rfl⟩ := hY
          exact hbatch n strat _ g2
  obtain ⟨hf1, hf2, hf3⟩ := hfresh
  intro out hout
  obtain ⟨k1, k2⟩ := key ops sh₁ s₀ hD hf1 hf2 (by rw [hf3]; intro k st X hX; cases hX) out hout
  exact ⟨fun p hp => (hDin p).1 (k1 p hp), fun ps hps p hp => (hDin p).1 (k2 ps hps p hp)⟩

/-! ## C31: in the model phase `ask` answers -/

theorem Dim.distance_defined (A : Arith F) {d : Dim F} {a b : Val F} (ha : Within d a)
    (hb : Within d b) : ∃ r, d.distance A a b = .ok r := by
  have h1 := Dim.contains_true.2 ha
  have h2 := Dim.contains_true.2 hb
  unfold Dim.distance
  rw [h1, h2]
  cases d with
  | cat c => exact ⟨_, rfl⟩
  | real c =>
    obtain ⟨x, rfl, _⟩ := ha
    obtain ⟨y, rfl, _⟩ := hb
    exact ⟨_, rfl⟩
  | int c =>
    obtain ⟨x, rfl, _⟩ := ha
    obtain ⟨y, rfl, _⟩ := hb
    exact ⟨_, rfl⟩

theorem Space.distance_defined (A : Arith F) {dims : List (Dim F)} {a b : Point F}
    (ha : List.Forall₂ Within dims a) (hb : List.Forall₂ Within dims b) :
    ∃ r, Space.distance A dims a b = .ok r := by
  unfold Space.distance
  generalize A.ofInt 0 = acc
  induction ha generalizing b acc with
  | nil => cases hb; exact ⟨acc, rfl⟩
  | @cons d x ds xs h1 _ ih =>
    cases hb with
    | @cons _ y _ ys g1 g2 =>
    obtain ⟨r, hr⟩ := Dim.distance_defined A h1 g1
    obtain ⟨s, hs⟩ := ih g2 (A.add acc r)
    refine ⟨s, ?_⟩
    have e : Space.distanceFrom A acc (d :: ds) (x :: xs) (y :: ys) =
      (d.distance A x y >>= fun z => Space.distanceFrom A (A.add acc z) ds xs ys) := rfl
    rw [e, hr, ok_bind, hs]

theorem Legal.within {A : Arith F} {d : Dim F} {v : Val F} (h : Legal A d v) : Within d v := by
  cases d with
  | real r => exact h
  | int r =>
    obtain ⟨k, h1, h2, h3⟩ := h
    exact ⟨_, h1, h2, h3⟩
  | cat c => exact h

theorem mapE_defined {α β : Type} {f : α → Except PyErr β} {xs : List α}
    (h : ∀ x ∈ xs, ∃ y, f x = .ok y) : ∃ ys, mapE f xs = .ok ys := by
  induction xs with
  | nil => exact ⟨[], rfl⟩
  | cons x xs ih =>
    obtain ⟨y, hy⟩ := h x (by simp)
    obtain ⟨ys, hys⟩ := ih fun z hz => h z (by simp [hz])
    exact ⟨y :: ys, mapE_cons_ok.2 ⟨y, ys, hy, hys, rfl⟩⟩

/-- **C31, `ask` answers.** After a fitting `tell` that returned, with the initial points used up and
all recorded points inside the dimensions, `ask` does return a point, and it is a point of the space. -/
theorem C31_ask_answers (A : Arith F) (hA : OrderlyRounding A) (W : World F M R G)
    (dims : List (Dim F)) (hv : ∀ d ∈ dims, ValidDim A d) (hd : ∀ d ∈ dims, Decoding d)
    (s : Opt F M R) (x : XArg F) (y : YArg F) (r : Result F M)
    (hret : (tell A W dims s x y true).2 = .ok r) (hest : s.cfg.hasEst = true)
    (hused : (tell A W dims s x y true).1.nInit ≤ 0)
    (hin : ∀ v ∈ (tell A W dims s x y true).1.Xi, ∃ p, v = .seq p ∧ List.Forall₂ Within dims p) :
    ∃ p, askOne A W dims (tell A W dims s x y true).1 = ((tell A W dims s x y true).1, .ok p) ∧
      InSpace A dims p := by
  rcases tell_cases A W dims s x y true with ⟨e, h⟩ | ⟨y', _, _, _, h⟩
  · rw [h] at hret; cases hret
  · rw [h] at hret hused hin ⊢
    have hres := (tellCore_ok hret).1
    generalize ht : (tellCore A W dims s x y' true).1 = t at hused hin hres ⊢
    have hXi : t.Xi ≠ [] := by
      intro hnil
      simp only [getResult, createResult, bind_eq_ok, hnil] at hres
      obtain ⟨_, _, _, _, _, h3, _⟩ := hres
      simp [pyGet] at h3
    obtain ⟨hm, p, hp, hps, hc⟩ : t.models ≠ [] ∧ ∃ p, t.nextX = some p ∧ InSpace A dims p ∧
        t.cfg = s.cfg := by
      rcases tellCore_cases A W dims s x y' true with ⟨e, _, g⟩ | ⟨u, hu, g⟩
      · rw [g] at hret; cases hret
      · obtain ⟨r1, -⟩ := record_frame hu
        rcases g with ⟨_, _, _, g1, ⟨e, _, g2⟩ | ⟨g2, _⟩⟩ | ⟨g0, g1⟩
        · rw [g2] at hret; cases hret
        · obtain ⟨f1, _, _, f4⟩ := refit_frame A W dims u
          obtain ⟨⟨est, f5⟩, row, ps, q, f6, f7, f8⟩ := f4 g2
          rw [← g1, ht] at f5 f8
          have hct : t.cfg = s.cfg := by rw [← ht, g1, f1.1, r1]
          refine ⟨?_, q, f8, ?_, hct⟩
          · intro hnil
            have := pushModel_getLast f5
            rw [hnil] at this
            cases this
          · exact (C01_inverse_transform_in_space_partial A hA dims hv hd [row] ps f6).2 _
              (pyGet_mem f7)
        · exfalso
          rw [g1] at ht
          subst ht
          exact g0 ⟨rfl, hused, by rw [r1]; exact hest⟩
    refine ⟨p, ?_, hps⟩
    unfold askOne
    rw [if_neg (by rw [hc, hest]; simp; omega), if_neg (by simpa using hm), hp]
    have hps' : List.Forall₂ Within dims p := hps.imp fun _ _ => Legal.within
    have hds : ∃ ds, mapE (fun xi : Val F => Space.distance A dims p xi.items) t.Xi = .ok ds :=
      mapE_defined fun v hv => by
        obtain ⟨q, rfl, hq⟩ := hin v hv
        exact Space.distance_defined A hps' hq
    obtain ⟨ds, hds⟩ := hds
    have hlen := mapE_length hds
    simp only [hds, ok_bind]
    rw [if_neg]
    intro he
    rw [List.isEmpty_iff] at he
    rw [he] at hlen
    exact hXi (List.length_eq_zero_iff.1 hlen.symm)

/-! ## Examples -/

/-- A legal value: the lower bound, or the first category. -/
def Dim.lowest : Dim ℚ → Val ℚ
  | .real d => .num d.low
  | .int d => .num d.low
  | .cat d => d.cats.headD (.num 0)

/-- The toy world with a generator that repeats one legal point. -/
def safeWorld : World ℚ Nat Nat Unit :=
  { okWorld with
    generate := fun g dims n _ => (g, (dims, .ok (List.replicate n.toNat (dims.map Dim.lowest)))) }

theorem safeWorld_wellBehaved : WellBehaved ratArith safeWorld := by
  refine ⟨?_, fun _ _ _ _ => rfl, ?_⟩
  · intro r dims n
    constructor
    · simp [safeWorld, okWorld, toyWorld]
    · intro d hd
      simp only [safeWorld, okWorld, toyWorld, List.mem_map] at hd
      obtain ⟨_, _, rfl⟩ := hd
      simp
  · intro g dims n r pts hv h p hp
    simp only [safeWorld, Except.ok.injEq] at h
    subst h
    rw [List.eq_of_mem_replicate hp]
    unfold InSpace
    rw [List.forall₂_map_right_iff, List.forall₂_same]
    intro d hd
    have := hv d hd
    cases d with
    | real d => exact ⟨_, rfl, le_refl _, this.1.le⟩
    | int d =>
      obtain ⟨l, h, h1, h2, h3, _⟩ := this
      refine ⟨l, ?_, by rw [h2], ?_⟩
      · show Val.num d.low = _
        rw [h2]
      · rw [h3]
        exact ratArith_orderly.ofInt_mono h1.le
    | cat d =>
      obtain ⟨h1, _⟩ := this
      show d.cats.headD _ ∈ d.cats
      cases hc : d.cats with
      | nil => exact absurd hc h1
      | cons a l => simp

/-- An optimizer over a mixed space, with an initial point generator. -/
def mixedInit : Shared ℚ Unit × Except PyErr (Opt ℚ Nat Nat) :=
  Opt.init ratArith safeWorld ⟨exDims, some ()⟩ (toyCfg .EI) 0

/-- The started optimizer. -/
def mixedOpt : Opt ℚ Nat Nat :=
  match mixedInit.2 with
  | .ok s => s
  | .error _ => toyOpt .EI

/-- A point of `exDims`. -/
def mixedPoint : List (Val ℚ) := [.num 3, .num 2, .str "b"]

/-- The calls of the example: a suggestion of the design, two observations, a suggestion of the model, a
batch. -/
def mixedOps : List (Op ℚ) :=
  [.ask, .tell (.lst mixedPoint) (.num (.fin 3)) true, .tell (.lst mixedPoint) (.num (.fin 4)) true,
    .ask, .askMany 2 .clMin]

/-- The hypotheses of C33 hold for this optimizer, and the run produces the points shown.
Meets the hypotheses of `C33_suggestions_in_space_partial`. -/
example :
    (∀ d ∈ exDims, ValidDim ratArith d) ∧
    OrderlyRounding ratArith ∧ WellBehaved ratArith safeWorld ∧
    mixedInit.2.toOption.isSome = true ∧
    ((runOps ratArith safeWorld mixedInit.1 mixedOpt mixedOps).2.2.map fun o => match o with
      | .ok (.point p) => [p]
      | .ok (.points ps) => ps
      | _ => []) =
      [[[.num 0, .num (-5), .str "a"]], [], [], [[.num 5, .num 0, .str "b"]],
       [[.num 5, .num 0, .str "b"], [.num 5, .num 0, .str "b"]]] := by
  refine ⟨exDims_valid, ratArith_orderly, safeWorld_wellBehaved, ?_, ?_⟩ <;>
    decide +kernel

/-- A categorical dimension of numbers that passes entries through, next to a real one. -/
def passDims : List (Dim ℚ) :=
  [.cat ⟨[.num 0, .num 1], none, .identity, none, fun _ => "", fun s => .ok (.str s)⟩,
   .real ⟨0, 10, .uniform, 10, .identity, none, id⟩]

/-- The hypotheses of C33 hold for this space, too. -/
example : (∀ d ∈ passDims, ValidDim ratArith d) ∧
    ((runOps ratArith safeWorld ⟨passDims, none⟩
      (Opt.fresh ratArith { toyCfg .EI with isGP := false, nInitial := 1 } 0 none : Opt ℚ Nat Nat)
      [.ask, .tell (.lst [.num 1, .num 2]) (.num (.fin 3)) true, .ask]).2.2.map fun o => match o with
      | .ok (.point p) => [p]
      | _ => []) = [[[.num 0, .num (1/2)]], [], [[.num 0, .num (1/2)]]] := by
  refine ⟨?_, by decide +kernel⟩
  intro d hd
  simp only [passDims, List.mem_cons, List.not_mem_nil, or_false] at hd
  rcases hd with rfl | rfl
  · refine ⟨by simp, by decide, ?_, Or.inl ?_⟩ <;> decide
  · exact ⟨by norm_num, Or.inl rfl, fun x h1 h2 => ⟨h1, h2⟩⟩

/-- **C33 is false for fractional integer bounds**: `Integer(0.4, 0.6)` is accepted, and the random points suggested
are outside. -/
theorem C33_refuted_fractional_bounds :
    ∃ d : Dim ℚ, mkInt (2/5) (3/5) .uniform 10 none none id = .ok d ∧
      ((runOps ratArith safeWorld ⟨[d], none⟩ (toyOpt .EI) [.ask]).2.2.map fun o => match o with
        | .ok (.point p) => [p]
        | _ => []) = [[[.num 0]]] ∧
      Space.contains [d] [.num 0] = .ok false :=
  ⟨.int ⟨2/5, 3/5, .uniform, 10, .identity, none, id⟩,
    by rw [mkInt, if_neg (by norm_num)]; rfl, by decide +kernel, by decide +kernel⟩

/-- The hypotheses of `C31_ask_answers`. -/
example :
    let s := (runOps ratArith safeWorld mixedInit.1 mixedOpt (mixedOps.take 2)).2.1
    let t := (tell ratArith safeWorld exDims s (.lst mixedPoint) (.num (.fin 4)) true).1
    t.nInit ≤ 0 ∧ s.cfg.hasEst = true ∧ t.Xi = [.seq mixedPoint, .seq mixedPoint] ∧
    (tell ratArith safeWorld exDims s (.lst mixedPoint) (.num (.fin 4)) true).2.toOption.isSome =
      true := by
  refine ⟨?_, ?_, ?_, ?_⟩ <;> decide +kernel

end Skopt

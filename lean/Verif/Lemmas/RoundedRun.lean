import Verif.Lemmas.LiveRun
import Verif.Lemmas.RoundedBox

/-!
# Lemmas for C145: every step of `tell` and `ask` returns, in floating-point arithmetic

The same steps as in `Verif.Lemmas.LiveRun`, for any arithmetic in which encoding, decoding, sampling and
measuring distances work (`Workable`).
-/

namespace Skopt.Rounded

set_option linter.unusedSectionVars false

variable {F : Type} [LinearOrder F] {A : Arith F} {M R G : Type}

/-- A finite objective value. -/
def FiniteNum (y : YArg F) : Prop := ∃ v, y = .num (.fin v)

/-- A finite objective value with the time it took: a pair of a number and a positive number. -/
def TimedNum (A : Arith F) (y : YArg F) : Prop := ∃ v t, A.ofInt 0 < t ∧ y = .seq [.num (.fin v), .num (.fin t)]

/-- What has to be told: a finite number or, in the per-second modes (`ps`), a value and a time. -/
def Told (A : Arith F) (ps : Bool) (y : YArg F) : Prop := if ps then TimedNum A y else FiniteNum y

/-- What is on record: a finite number or, in the per-second modes, a value and the logarithm of a time. -/
def Observed (ps : Bool) (y : YArg F) : Prop :=
  if ps then ∃ v t, y = .seq [.num (.fin v), .num (.fin t)] else FiniteNum y

/-- What the third-party calls promise for a given space: fitting numbers (in the per-second modes pairs of
numbers) and rows inside the transformed bounds succeeds, so do predictions and acquisition values at such rows (one for each), draws are in range,
`np.argsort` returns positions, `fmin_l_bfgs_b` respects the bounds it is given, and `multinomial`
accepts the three probabilities computed by `gp_hedge` and returns one count each; the logarithm of a positive number is a number. -/
structure Reliable (A : Arith F) (W : World F M R G) (dims : List (Dim F)) : Prop where
  fit : ∀ r X y, X ≠ [] → X.length = y.length → (∀ x ∈ X, InBox (Space.transformedBounds A dims) x) →
    ∀ ps, (∀ v ∈ y, Observed ps v) → ∃ est, (W.fit r X y).2 = .ok est
  predict : ∀ est X, X ≠ [] → (∀ x ∈ X, InBox (Space.transformedBounds A dims) x) →
    ∃ p, W.predict est X = .ok p ∧ p.length = X.length
  draws : ∀ r n, List.Forall₂ (UsableDraw A) dims (W.draws r dims n).2 ∧
    ∀ d ∈ (W.draws r dims n).2, d.nums.length = n ∧ d.idxs.length = n
  acquisition : ∀ est X y a, X ≠ [] → (∀ x ∈ X, InBox (Space.transformedBounds A dims) x) →
    ∃ v, W.acquisition est X y a = .ok v ∧ v.length = X.length
  argsort : ∀ v, v ≠ [] → W.argsort v ≠ [] ∧ ∀ i ∈ W.argsort v, i < v.length
  lbfgs : ∀ r est y a x, InBox (Space.transformedBounds A dims) x →
    ∃ x' f, (W.lbfgs r est y a x).2 = .ok (x', f) ∧ InBox (Space.transformedBounds A dims) x'
  multinomial : ∀ r g, g.length = 3 → (W.multinomial r (hedgeProbs A W.exp W.eta g)).2.length = 3
  log : ∀ t, A.ofInt 0 < t → ∃ l, W.log (.fin t) = .ok (.fin l)

/-- A space on which encoding, decoding, sampling and measuring distances work. -/
structure Workable (A : Arith F) (dims : List (Dim F)) : Prop where
  nonempty : dims ≠ []
  valid : ∀ d ∈ dims, ValidDim A d
  encode : ∀ X : List (Point F), X ≠ [] → (∀ p ∈ X, InSpace A dims p) → ∃ Xt, Space.transform A dims X = .ok Xt ∧
    Xt.length = X.length ∧ ∀ r ∈ Xt, InBox (Space.transformedBounds A dims) r
  unfold : ∀ r, InBox (Space.transformedBounds A dims) r →
    ∃ p, Space.inverseTransform A dims [r] = .ok [p] ∧ InSpace A dims p
  sample : ∀ (n : ℕ) (raws : List (RawDraw F)), List.Forall₂ (UsableDraw A) dims raws →
    (∀ r ∈ raws, r.nums.length = n ∧ r.idxs.length = n) →
    ∃ pts, Space.rvs A dims raws = .ok pts ∧ pts.length = n ∧ ∀ p ∈ pts, InSpace A dims p
  apart : ∀ p q, InSpace A dims p → InSpace A dims q → ∃ t, Space.distance A dims p q = .ok t

section
variable {W : World F M R G} {dims : List (Dim F)}

theorem minimizeAll_ok (hW : Reliable A W dims) (est : M) (yOpt : Flt F) (cand : AcqFunc) (rng : R)
    {x0 : List (List (Val F))} (h : ∀ x ∈ x0, InBox (Space.transformedBounds A dims) x) :
    ∃ rng' rs, proposeOne.minimizeAll W est yOpt cand rng x0 = (rng', .ok rs) ∧ rs.length = x0.length ∧
      ∀ r ∈ rs, InBox (Space.transformedBounds A dims) r.1 := by
  induction x0 generalizing rng with
  | nil => exact ⟨rng, [], rfl, rfl, by simp⟩
  | cons x xs ih =>
    obtain ⟨x', f, h1, h2⟩ := hW.lbfgs rng est yOpt cand x (h x List.mem_cons_self)
    obtain ⟨rng', rs, h3, h4, h5⟩ := ih (W.lbfgs rng est yOpt cand x).1
      (fun x hx => h x (List.mem_cons_of_mem _ hx))
    refine ⟨rng', (x', f) :: rs, ?_, by simp [h4], ?_⟩
    · simp only [proposeOne.minimizeAll]
      generalize hq : W.lbfgs rng est yOpt cand x = q at h1 h3
      obtain ⟨a, b⟩ := q
      simp only at h1 h3
      subst h1
      simp only [h3]
    · intro r hr
      rcases List.mem_cons.1 hr with rfl | hr
      · exact h2
      · exact h5 r hr

theorem proposeOne_ok (hW : Reliable A W dims) (cfg : Config) (hres : cfg.lbfgs = true → cfg.nRestarts ≠ 0)
    (est : M) (yOpt : Flt F) (cand : AcqFunc) (rng : R) {X : List (List (Val F))} (hX : X ≠ [])
    (h : ∀ x ∈ X, InBox (Space.transformedBounds A dims) x) :
    ∃ rng' row, proposeOne A W cfg dims est yOpt X rng cand = (rng', .ok row) ∧
      InBox (Space.transformedBounds A dims) row := by
  obtain ⟨values, hv, hvl⟩ := hW.acquisition est X yOpt cand hX h
  have hvne : values ≠ [] := by
    rintro rfl
    exact hX (List.length_eq_zero_iff.1 hvl.symm)
  have fin : ∀ (rng' : R) (row : List (Val F)), InBox (Space.transformedBounds A dims) row →
      (if Space.isCategorical dims = true then (rng', (.ok row : Except PyErr (List (Val F))))
        else (rng', clipRow (Space.transformedBounds A dims) row)) = (rng', .ok row) := by
    intro rng' row hbox
    split
    · rfl
    · rw [clipRow_noop hbox]
  unfold proposeOne
  rw [hv]
  simp only
  by_cases hl : cfg.lbfgs = true
  · simp only [hl, if_true]
    obtain ⟨hs1, hs2⟩ := hW.argsort values hvne
    have hx0 : mapE (pyGet X) ((W.argsort values).take cfg.nRestarts) =
        .ok (((W.argsort values).take cfg.nRestarts).map fun i => X.getD i []) := by
      refine mapE_ok_of_forall fun i hi => ?_
      have := hs2 i (List.mem_of_mem_take hi)
      rw [pyGet_lt (by omega), getD_lt (by omega)]
    rw [hx0]
    obtain ⟨rng', rs, h1, h2, h3⟩ := minimizeAll_ok hW est yOpt cand rng
      (x0 := ((W.argsort values).take cfg.nRestarts).map fun i => X.getD i []) (by
        intro x hx
        obtain ⟨i, hi, rfl⟩ := List.mem_map.1 hx
        have := hs2 i (List.mem_of_mem_take hi)
        rw [getD_lt (by omega)]
        exact h _ (List.getElem_mem _))
    have hrs : rs ≠ [] := by
      rintro rfl
      simp only [List.length_nil, List.length_map, List.length_take] at h2
      have : (W.argsort values).length ≠ 0 := fun h0 => hs1 (List.length_eq_zero_iff.1 h0)
      have := hres hl
      omega
    obtain ⟨i, hi⟩ := npArgmin_ok (xs := rs.map Prod.snd) (by simpa using hrs)
    obtain ⟨hi', -⟩ := npArgmin_spec hi
    rw [List.length_map] at hi'
    refine ⟨rng', rs[i].1, ?_, h3 _ (List.getElem_mem _)⟩
    simp only [proposeOne.runAll, h1, hi, ok_bind, pyGet_lt hi']
    exact fin _ _ (h3 _ (List.getElem_mem _))
  · simp only [hl]
    obtain ⟨i, hi⟩ := npArgmin_ok hvne
    obtain ⟨hi', -⟩ := npArgmin_spec hi
    rw [hvl] at hi'
    refine ⟨rng, X[i], ?_, h _ (List.getElem_mem _)⟩
    simp only [hi, ok_bind, pyGet_lt hi']
    exact fin _ _ (h _ (List.getElem_mem _))

theorem proposeAll_ok (hW : Reliable A W dims) (est : M) (yOpt : Flt F) {X : List (List (Val F))} (hX : X ≠ [])
    (h : ∀ x ∈ X, InBox (Space.transformedBounds A dims) x) (cands : List AcqFunc) (s : Opt F M R)
    (hres : s.cfg.lbfgs = true → s.cfg.nRestarts ≠ 0) (xs : List (List (Val F))) (hs : s.nextXs = some xs)
    (hxs : ∀ x ∈ xs, InBox (Space.transformedBounds A dims) x) :
    ∃ t, proposeAll A W dims est yOpt X cands s = (t, .ok ()) ∧ ∃ rows, t.nextXs = some rows ∧
      rows.length = xs.length + cands.length ∧ (∀ x ∈ rows, InBox (Space.transformedBounds A dims) x) ∧
      t.cfg = s.cfg ∧ t.Xi = s.Xi ∧ t.yi = s.yi ∧ t.gains = s.gains ∧ t.models = s.models := by
  induction cands generalizing s xs with
  | nil => exact ⟨s, rfl, xs, hs, by simp, hxs, rfl, rfl, rfl, rfl, rfl⟩
  | cons c cs ih =>
    obtain ⟨rng', row, h1, h2⟩ := proposeOne_ok hW s.cfg hres est yOpt c s.rng hX h
    obtain ⟨t, h3, rows, h4, h5, h6, h7⟩ := ih
      { s with rng := rng', nextXs := some (s.nextXs.getD [] ++ [row]) } hres (xs ++ [row]) (by simp [hs]) (by
        intro x hx
        rcases List.mem_append.1 hx with hx | hx
        · exact hxs x hx
        · rw [List.mem_singleton] at hx
          subst hx
          exact h2)
    refine ⟨t, ?_, rows, h4, ?_, h6, h7⟩
    · simp only [proposeAll, h1]
      exact h3
    · rw [h5]; simp; omega

/-- Invariant: everything on record is a member of the space with a number, and the bookkeeping of `gp_hedge`
has three entries inside the bounds. -/
structure Live (A : Arith F) (dims : List (Dim F)) (s : Opt F M R) : Prop where
  points : ∀ v ∈ s.Xi, ∃ p, v = .seq p ∧ InSpace A dims p
  values : ∀ y ∈ s.yi, Observed s.cfg.acq.isPs y
  aligned : s.Xi.length = s.yi.length
  hedge : s.cfg.acq = .gpHedge → ∃ g, s.gains = some g ∧ g.length = 3
  proposals : s.cfg.acq = .gpHedge → ∀ xs, s.nextXs = some xs → xs.length = s.cfg.acq.candidates.length ∧
    ∀ x ∈ xs, InBox (Space.transformedBounds A dims) x

theorem observed_nums {yi : List (YArg F)} (h : ∀ y ∈ yi, Observed false y) :
    ∃ fs : List F, yi = fs.map fun y => .num (.fin y) := by
  induction yi with
  | nil => exact ⟨[], rfl⟩
  | cons y ys ih =>
    obtain ⟨fs, rfl⟩ := ih fun y hy => h y (List.mem_cons_of_mem _ hy)
    obtain ⟨v, rfl⟩ := h y List.mem_cons_self
    exact ⟨v :: fs, rfl⟩

theorem observed_pairs {yi : List (YArg F)} (h : ∀ y ∈ yi, Observed true y) :
    ∃ fs : List (F × F), yi = fs.map fun p => .seq [.num (.fin p.1), .num (.fin p.2)] := by
  induction yi with
  | nil => exact ⟨[], rfl⟩
  | cons y ys ih =>
    obtain ⟨fs, rfl⟩ := ih fun y hy => h y (List.mem_cons_of_mem _ hy)
    obtain ⟨v, t, rfl⟩ := h y List.mem_cons_self
    exact ⟨(v, t) :: fs, rfl⟩

theorem asColumns_of_pairs {fs : List (F × F)} (hne : fs ≠ []) :
    asColumns (fs.map fun p => (.seq [.num (.fin p.1), .num (.fin p.2)] : YArg F)) =
      .ok (.inr (fs.map fun p => (Flt.fin p.1, Flt.fin p.2))) := by
  unfold asColumns
  rw [if_pos]
  · rw [mapE_map]
    have : mapE (fun p : F × F => YArg.toPair (.seq [.num (.fin p.1), .num (.fin p.2)] : YArg F)) fs =
        .ok (fs.map fun p => (Flt.fin p.1, Flt.fin p.2)) := by
      clear hne
      induction fs with
      | nil => rfl
      | cons p fs ih => exact mapE_cons_ok.2 ⟨_, _, rfl, ih, rfl⟩
    rw [this, ok_bind]
  · cases fs with
    | nil => exact absurd rfl hne
    | cons p fs => rfl

theorem asColumns_of_nums (fs : List F) :
    asColumns (fs.map fun y => (.num (.fin y) : YArg F)) = .ok (.inl (fs.map Flt.fin)) := by
  unfold asColumns
  rw [if_neg]
  · rw [mapE_map]
    have : mapE (fun y : F => YArg.toFlt (.num (.fin y) : YArg F)) fs = .ok (fs.map Flt.fin) := by
      induction fs with
      | nil => rfl
      | cons p fs ih => exact mapE_cons_ok.2 ⟨_, _, rfl, ih, rfl⟩
    rw [this, ok_bind]
  · simp [YArg.isSeq]

/-- The numbers over which minimum, mean and maximum are taken are finite, and there is one at least. -/
theorem flatNums_observed {ps : Bool} {yi : List (YArg F)} (h : ∀ y ∈ yi, Observed ps y) (hne : yi ≠ []) :
    ∃ f fs, flatNums yi = .ok ((f :: fs : List F).map Flt.fin) := by
  unfold flatNums
  cases ps with
  | false =>
    obtain ⟨fs, rfl⟩ := observed_nums h
    rw [asColumns_of_nums, ok_bind]
    cases fs with
    | nil => exact absurd rfl hne
    | cons f fs => exact ⟨f, fs, rfl⟩
  | true =>
    obtain ⟨fs, rfl⟩ := observed_pairs h
    rw [asColumns_of_pairs (by simpa using hne), ok_bind]
    cases fs with
    | nil => exact absurd rfl hne
    | cons f fs =>
      refine ⟨f.1, f.2 :: fs.flatMap fun p => [p.1, p.2], ?_⟩
      simp [List.flatMap_map, List.map_flatMap]

theorem createResult_live {s : Opt F M R} (hs : Live A dims s) (hne : s.Xi ≠ []) :
    ∃ r, createResult s.Xi s.yi s.models = .ok r := by
  obtain ⟨ys, lt, h1, h2⟩ : ∃ (ys : List (Flt F)) (lt : Option (List (Flt F))),
      (∃ c, asColumns s.yi = .ok c ∧ (match c with
        | .inl ys => (ys, none)
        | .inr ps => (ps.map Prod.fst, some (ps.map Prod.snd))) = (ys, lt)) ∧ ys.length = s.yi.length := by
    have hv := hs.values
    have hyne : s.yi ≠ [] := by
      intro h0
      have := hs.aligned
      rw [h0] at this
      exact hne (List.length_eq_zero_iff.1 this)
    generalize s.cfg.acq.isPs = ps at hv
    cases ps with
    | false =>
      obtain ⟨fs, hfs⟩ := observed_nums hv
      rw [hfs]
      exact ⟨_, _, ⟨_, asColumns_of_nums fs, rfl⟩, by simp⟩
    | true =>
      obtain ⟨fs, hfs⟩ := observed_pairs hv
      rw [hfs] at hyne ⊢
      exact ⟨_, _, ⟨_, asColumns_of_pairs (by simpa using hyne), rfl⟩, by simp⟩
  obtain ⟨c, hc, hm⟩ := h1
  have hy : ys ≠ [] := by
    rintro rfl
    rw [List.length_nil, ← hs.aligned] at h2
    exact hne (List.length_eq_zero_iff.1 h2.symm)
  obtain ⟨i, hi⟩ := npArgmin_ok hy
  obtain ⟨hi', -⟩ := npArgmin_spec hi
  have hi2 : i < s.Xi.length := by rw [hs.aligned]; omega
  refine ⟨⟨s.Xi[i], ys[i], ys, lt, s.Xi, s.models⟩, ?_⟩
  unfold createResult
  rw [hc, ok_bind]
  cases c with
  | inl a =>
    injection hm with e1 e2
    subst e1 e2
    simp only [ok_bind, hi, pyGet_lt hi2, pyGet_lt hi']
  | inr a =>
    injection hm with e1 e2
    subst e1 e2
    simp only [ok_bind, hi, pyGet_lt hi2, pyGet_lt hi']

/-- The second half of the fit block returns, keeps the invariant and stores a member of the space. -/
theorem suggest_live (hd : Workable A dims) (hW : Reliable A W dims) (est : M) {s : Opt F M R}
    (hs : Live A dims s) (hne : s.Xi ≠ []) (hn : s.cfg.nPoints ≠ 0)
    (hres : s.cfg.lbfgs = true → s.cfg.nRestarts ≠ 0) :
    ∃ t p, suggest A W dims est s = (t, .ok ()) ∧ Live A dims t ∧ t.nextX = some p ∧ InSpace A dims p ∧
      t.Xi = s.Xi ∧ t.models = s.models := by
  obtain ⟨hdr1, hdr2⟩ := hW.draws s.rng s.cfg.nPoints
  obtain ⟨pts, hpts, hpl, hpin⟩ := hd.sample _ _ hdr1 hdr2
  have hpne : pts ≠ [] := by
    rintro rfl
    exact hn (by simpa using hpl.symm)
  obtain ⟨X, hX, hXl, hbox⟩ := hd.encode _ hpne hpin
  have hXne : X ≠ [] := by
    rintro rfl
    exact hpne (List.length_eq_zero_iff.1 (by simpa using hXl.symm))
  obtain ⟨yOpt, hy⟩ : ∃ yOpt, (do let ys ← flatNums s.yi; fltMin ys) = .ok yOpt := by
    obtain ⟨f, fs, hf⟩ := flatNums_observed hs.values (by
      intro h0
      have := hs.aligned
      rw [h0] at this
      exact hne (List.length_eq_zero_iff.1 this))
    rw [hf, ok_bind]
    exact ⟨_, rfl⟩
  obtain ⟨t, ht, rows, hrows, hlen, hin, hcfg, hXi, hyi, hgain, hmod⟩ := proposeAll_ok hW est yOpt hXne hbox
    s.cfg.acq.candidates { s with rng := (W.draws s.rng dims s.cfg.nPoints).1, nextXs := some [] } hres [] rfl
    (by simp)
  rw [List.length_nil, Nat.zero_add] at hlen
  simp only at hcfg hXi hyi hgain
  obtain ⟨rng', row, hrow, hrin⟩ : ∃ rng' row, choose A W t = (rng', .ok row) ∧ row ∈ rows := by
    unfold choose
    simp only [hrows, Option.getD_some, hcfg]
    cases hacq : s.cfg.acq with
    | gpHedge =>
      obtain ⟨g, hg, hg3⟩ := hs.hedge hacq
      simp only [hgain, hg]
      have hc := hW.multinomial t.rng g hg3
      obtain ⟨i, hi⟩ := npArgmax_ok (xs := (W.multinomial t.rng (hedgeProbs A W.exp W.eta g)).2) (by
        intro h0; rw [h0] at hc; simp at hc)
      obtain ⟨hi', -⟩ := npArgmax_spec hi
      have hr3 : rows.length = 3 := by rw [hlen, hacq]; rfl
      refine ⟨(W.multinomial t.rng (hedgeProbs A W.exp W.eta g)).1, rows[i], ?_, List.getElem_mem _⟩
      rw [hi, ok_bind, pyGet_lt (by omega)]
    | _ =>
      have hr : 0 < rows.length := by rw [hlen, hacq]; simp [AcqFunc.candidates]
      exact ⟨t.rng, rows[0], by simp only [pyGet_lt hr], List.getElem_mem _⟩
  obtain ⟨p, hp, hpS⟩ := hd.unfold _ (hin row hrin)
  refine ⟨{ t with rng := rng', nextX := some p }, p, ?_, ?_, rfl, hpS, hXi, hmod⟩
  · unfold suggest
    simp only [hpts, ok_bind, hX, hy, ht, hrow, hp]
    rfl
  · refine ⟨?_, ?_, ?_, ?_, ?_⟩
    · show ∀ v ∈ t.Xi, _
      rw [hXi]; exact hs.points
    · show ∀ v ∈ t.yi, Observed t.cfg.acq.isPs v
      rw [hyi, hcfg]; exact hs.values
    · show t.Xi.length = t.yi.length
      rw [hXi, hyi]; exact hs.aligned
    · show t.cfg.acq = _ → ∃ g, t.gains = some g ∧ _
      rw [hcfg, hgain]; exact hs.hedge
    · show t.cfg.acq = _ → ∀ xs, t.nextXs = some xs → xs.length = t.cfg.acq.candidates.length ∧ _
      rw [hcfg, hrows]
      rintro - xs ⟨⟩
      exact ⟨hlen, hin⟩

theorem pushModel_ne_nil {q : Option ℤ} {ms ms' : List M} {est : M} (h : pushModel q ms est = .ok ms') :
    ms' ≠ [] := by
  unfold pushModel at h
  split at h
  · injection h with h; subst h; simp
  · split at h
    · injection h with h; subst h; simp
    · split at h
      · cases h
      · injection h with h; subst h; simp

/-- The fit block returns and keeps the invariant. -/
theorem refit_live (hd : Workable A dims) (hW : Reliable A W dims) {s : Opt F M R}
    (hs : Live A dims s) (hne : s.Xi ≠ []) (hn : s.cfg.nPoints ≠ 0)
    (hres : s.cfg.lbfgs = true → s.cfg.nRestarts ≠ 0) (hq : ∀ k, s.cfg.queueSize = some k → 0 < k) :
    ∃ t p, refit A W dims s = (t, .ok ()) ∧ Live A dims t ∧ t.nextX = some p ∧ InSpace A dims p ∧
      t.Xi = s.Xi ∧ t.models ≠ [] := by
  have hitems : ∀ p ∈ s.Xi.map Val.items, InSpace A dims p := by
    intro p hp
    obtain ⟨v, hv, rfl⟩ := List.mem_map.1 hp
    obtain ⟨q, rfl, hq⟩ := hs.points v hv
    exact hq
  obtain ⟨Xt, hXt, hXl, hXb⟩ := hd.encode (s.Xi.map Val.items) (by simpa using hne) hitems
  rw [List.length_map] at hXl
  obtain ⟨est, hest⟩ := hW.fit s.rng Xt s.yi (by
    rintro rfl
    exact hne (List.length_eq_zero_iff.1 (by simpa using hXl.symm))) (by rw [hXl, hs.aligned]) hXb _ hs.values
  have hgains : ∀ rng, ∃ g, updateGains A W { s with rng := rng } est = .ok g ∧
      (s.cfg.acq = .gpHedge → ∃ g', g = some g' ∧ g'.length = 3) := by
    intro rng
    unfold updateGains
    simp only
    split
    · next xs hacq hxs =>
      obtain ⟨g, hg, hg3⟩ := hs.hedge hacq
      obtain ⟨hl, hb⟩ := hs.proposals hacq xs hxs
      rw [hacq] at hl
      have hl3 : xs.length = 3 := hl
      obtain ⟨p, hp, hpl⟩ := hW.predict est xs (by rintro rfl; simp at hl3) hb
      have hp3 : p.length = 3 := by rw [hpl, hl3]
      have hxe : xs.isEmpty = false := by cases xs with | nil => simp at hl3 | cons => rfl
      simp only [hg, hp, hxe, ok_bind, Bool.false_eq_true, if_false]
      rw [if_neg (by omega), if_neg (by omega)]
      exact ⟨_, rfl, fun _ => ⟨_, rfl, by simp [hg3, hp3]⟩⟩
    · exact ⟨_, rfl, fun h => hs.hedge h⟩
  generalize hfit : W.fit s.rng Xt s.yi = q at hest
  obtain ⟨rng1, m⟩ := q
  simp only at hest
  subst hest
  obtain ⟨g, hg, hg3⟩ := hgains rng1
  obtain ⟨ms, hms⟩ : ∃ ms, pushModel s.cfg.queueSize s.models est = .ok ms := by
    unfold pushModel
    cases hk : s.cfg.queueSize with
    | none => exact ⟨_, rfl⟩
    | some k =>
      simp only
      split
      · exact ⟨_, rfl⟩
      · next hlt =>
        have := hq k hk
        cases hm : s.models with
        | nil => rw [hm] at hlt; simp at hlt; omega
        | cons a b => exact ⟨_, rfl⟩
  obtain ⟨t, p, h1, h2, h3, h4, h5, h6⟩ := suggest_live hd hW est
    (s := { s with rng := rng1, gains := g, models := ms })
    ⟨hs.points, hs.values, hs.aligned, hg3, hs.proposals⟩ hne hn hres
  refine ⟨t, p, ?_, h2, h3, h4, h5, ?_⟩
  · unfold refit
    simp only [hXt, hfit, hg, hms]
    exact h1
  · rw [h6]; exact pushModel_ne_nil hms

/-- `_tell` after recording: returns and keeps the invariant. -/
theorem tellCore_live (hd : Workable A dims) (hW : Reliable A W dims) {s s' : Opt F M R} {x : XArg F} {y : YArg F}
    {fit : Bool} (hrec : record s x y = .ok s') (hs : Live A dims s') (hne : s'.Xi ≠ []) (hc : Sane s'.cfg) :
    ∃ t r, tellCore A W dims s x y fit = (t, .ok r) ∧ Live A dims t ∧ t.Xi ≠ [] ∧
      (fit = true → s'.nInit ≤ 0 → s'.cfg.hasEst = true →
        t.models ≠ [] ∧ ∃ p, t.nextX = some p ∧ InSpace A dims p) := by
  unfold tellCore
  simp only [hrec]
  split
  · obtain ⟨t, p, h1, h2, h3, h4, h5, h6⟩ := refit_live hd hW hs hne hc.points hc.restarts hc.queue
    have hne' : t.Xi ≠ [] := by rw [h5]; exact hne
    obtain ⟨r, hr⟩ := createResult_live h2 hne'
    exact ⟨t, r, by rw [h1]; simp only [hr], h2, hne', fun _ _ _ => ⟨h6, p, h3, h4⟩⟩
  · next hcond =>
    obtain ⟨r, hr⟩ := createResult_live hs hne
    refine ⟨s', r, by rw [hr], hs, hne, ?_⟩
    intro h1 h2 h3
    simp [h1, h2, h3] at hcond

theorem inSpace_within {p : Point F} (h : InSpace A dims p) : List.Forall₂ Within dims p :=
  h.imp fun _ _ => Legal.within

/-- Recording good observations keeps the invariant. -/
theorem Live.record {s : Opt F M R} (hs : Live A dims s) {xs : List (Val F)} {ys : List (YArg F)} {n : ℤ}
    (hx : ∀ v ∈ xs, ∃ p, v = .seq p ∧ InSpace A dims p) (hy : ∀ y ∈ ys, Observed s.cfg.acq.isPs y)
    (hl : xs.length = ys.length) :
    Live A dims { s with Xi := s.Xi ++ xs, yi := s.yi ++ ys, nInit := n, cache := none } := by
  refine ⟨?_, ?_, ?_, hs.hedge, hs.proposals⟩
  · intro v hv
    rcases List.mem_append.1 hv with hv | hv
    · exact hs.points v hv
    · exact hx v hv
  · intro v hv
    rcases List.mem_append.1 hv with hv | hv
    · exact hs.values v hv
    · exact hy v hv
  · simp [hl, hs.aligned]

/-- The logarithm of a positive time is a number. -/
def LogWorks (A : Arith F) (W : World F M R G) : Prop := ∀ t, A.ofInt 0 < t → ∃ l, W.log (.fin t) = .ok (.fin l)

theorem logTime_told (hW : LogWorks A W) {y : YArg F} (h : TimedNum A y) :
    ∃ y', logTime W y = .ok y' ∧ Observed true y' := by
  obtain ⟨v, t, ht, rfl⟩ := h
  obtain ⟨l, hl⟩ := hW t ht
  exact ⟨_, by simp only [logTime, hl, ok_bind], v, l, rfl⟩

/-- Recording one observation of the space. -/
theorem record_one {s : Opt F M R} {p : Point F} (hf : Flat p) (y : YArg F) :
    record s (.lst p) y = .ok (record.single s p y) := by
  have h2 := is2D_false_of_flat hf
  simp only [record, h2, Bool.and_false]
  split <;> rfl

/-- Recording several observations of the space. -/
theorem record_many {s : Opt F M R} {xs : List (Val F)} (hx : ∀ v ∈ xs, ∃ p, v = .seq p) (ys : List (YArg F)) :
    record s (.lst xs) (.seq ys) = .ok (record.batch s xs ys) := by
  have h2 : is2D xs = true := by
    unfold is2D
    rw [List.all_eq_true]
    intro v hv
    obtain ⟨p, rfl⟩ := hx v hv
    rfl
  simp only [record, YArg.isSeq, h2, Bool.true_and, YArg.items, if_true]
  split <;> rfl

/-- Telling one observation of the space puts it on record. -/
theorem tell_one_records (hW : LogWorks A W) {s : Opt F M R} (hs : Live A dims s)
    {p : Point F} (hp : InSpace A dims p) (hf : Flat p) {y : YArg F}
    (hy : Told A s.cfg.acq.isPs y) (fit : Bool) :
    ∃ y', tell A W dims s (.lst p) y fit = tellCore A W dims s (.lst p) y' fit ∧
      record s (.lst p) y' = .ok (record.single s p y') ∧ Live A dims (record.single s p y') := by
  have h2 := is2D_false_of_flat hf
  have h1 : checkX dims (.lst p) = .ok () := (C07_point_accepted_iff_partial dims p hf).2 (inSpace_within hp)
  obtain ⟨y', e, hy'⟩ : ∃ y', tell A W dims s (.lst p) y fit = tellCore A W dims s (.lst p) y' fit ∧
      Observed s.cfg.acq.isPs y' := by
    cases hps : s.cfg.acq.isPs with
    | false =>
      rw [hps] at hy
      obtain ⟨v, rfl⟩ := hy
      refine ⟨_, ?_, v, rfl⟩
      simp only [tell, h1, ok_bind, checkY, takeLogs, hps, YArg.isSeq, YArg.isNumber, Bool.false_and, if_true]
      rfl
    | true =>
      rw [hps] at hy
      obtain ⟨y', hl, ho⟩ := logTime_told hW hy
      refine ⟨y', ?_, ho⟩
      obtain ⟨v, t, ht, rfl⟩ := hy
      simp only [tell, h1, ok_bind, checkY, takeLogs, hps, h2, YArg.isPair, YArg.isSeq, Bool.not_false,
        Bool.and_self, if_true, hl]
      rfl
  exact ⟨y', e, record_one hf y', hs.record (by simpa using hp) (by simpa using hy') rfl⟩

/-- Telling one observation of the space returns. -/
theorem tell_one_live (hd : Workable A dims) (hW : Reliable A W dims) {s : Opt F M R} (hs : Live A dims s)
    (hc : Sane s.cfg) {p : Point F} (hp : InSpace A dims p) (hf : Flat p) {y : YArg F}
    (hy : Told A s.cfg.acq.isPs y) (fit : Bool) :
    ∃ t r, tell A W dims s (.lst p) y fit = (t, .ok r) ∧ Live A dims t ∧ t.Xi ≠ [] ∧
      (fit = true → s.nInit - 1 ≤ 0 → s.cfg.hasEst = true →
        t.models ≠ [] ∧ ∃ p, t.nextX = some p ∧ InSpace A dims p) := by
  obtain ⟨y', e, hrec, hl⟩ := tell_one_records hW.log hs hp hf hy fit
  rw [e]
  exact tellCore_live hd hW hrec hl (by simp [record.single]) hc

/-- Telling a batch of observations of the space puts it on record. -/
theorem tell_batch_records (hW : LogWorks A W) {s : Opt F M R} (hs : Live A dims s)
    {obs : List (Point F × YArg F)} (hne : obs ≠ [])
    (ho : ∀ o ∈ obs, InSpace A dims o.1 ∧ Told A s.cfg.acq.isPs o.2) (fit : Bool) :
    ∃ ys, tell A W dims s (.lst (obs.map fun o => .seq o.1)) (.seq (obs.map Prod.snd)) fit =
        tellCore A W dims s (.lst (obs.map fun o => .seq o.1)) (.seq ys) fit ∧ ys.length = obs.length ∧
      record s (.lst (obs.map fun o => .seq o.1)) (.seq ys) =
        .ok (record.batch s (obs.map fun o => .seq o.1) ys) ∧
      Live A dims (record.batch s (obs.map fun o => .seq o.1) ys) := by
  have h2 := is2D_points obs
  have h1 : checkX dims (.lst (obs.map fun o => .seq o.1)) = .ok () := by
    have := (C07_batch_accepted_iff dims (obs.map Prod.fst)).2 (by
      intro p hp
      obtain ⟨o, hm, rfl⟩ := List.mem_map.1 hp
      exact inSpace_within (ho o hm).1)
    rw [List.map_map] at this
    exact this
  obtain ⟨ys, e, hl, hys⟩ : ∃ ys, tell A W dims s (.lst (obs.map fun o => .seq o.1)) (.seq (obs.map Prod.snd)) fit =
      tellCore A W dims s (.lst (obs.map fun o => .seq o.1)) (.seq ys) fit ∧ ys.length = obs.length ∧
      ∀ y ∈ ys, Observed s.cfg.acq.isPs y := by
    cases hps : s.cfg.acq.isPs with
    | false =>
      rw [hps] at ho
      have hall : (obs.map Prod.snd).all YArg.isNumber = true := by
        rw [List.all_eq_true]
        intro y hy
        obtain ⟨o, hm, rfl⟩ := List.mem_map.1 hy
        obtain ⟨v, e⟩ := (ho o hm).2
        rw [e]; rfl
      refine ⟨obs.map Prod.snd, ?_, by simp, ?_⟩
      · simp only [tell, h1, ok_bind, checkY, takeLogs, hps, YArg.isSeq, h2, Bool.true_and, if_true, YArg.items, hall]
        rfl
      · intro y hy
        obtain ⟨o, hm, rfl⟩ := List.mem_map.1 hy
        exact (ho o hm).2
    | true =>
      rw [hps] at ho
      have hall : (obs.map Prod.snd).all YArg.isPair = true := by
        rw [List.all_eq_true]
        intro y hy
        obtain ⟨o, hm, rfl⟩ := List.mem_map.1 hy
        obtain ⟨v, t, _, e⟩ := (ho o hm).2
        rw [e]; rfl
      obtain ⟨ys, hl, hys⟩ : ∃ ys, mapE (logTime W) (obs.map Prod.snd) = .ok ys ∧ ∀ y ∈ ys, Observed true y := by
        have : ∀ y ∈ obs.map Prod.snd, TimedNum A y := by
          intro y hy
          obtain ⟨o, hm, rfl⟩ := List.mem_map.1 hy
          exact (ho o hm).2
        generalize obs.map Prod.snd = l at this
        induction l with
        | nil => exact ⟨[], rfl, by simp⟩
        | cons y l ih =>
          obtain ⟨ys, g1, g2⟩ := ih fun y hy => this y (List.mem_cons_of_mem _ hy)
          obtain ⟨y', g3, g4⟩ := logTime_told hW (this y List.mem_cons_self)
          refine ⟨y' :: ys, mapE_cons_ok.2 ⟨_, _, g3, g1, rfl⟩, ?_⟩
          intro z hz
          rcases List.mem_cons.1 hz with rfl | hz
          · exact g4
          · exact g2 z hz
      refine ⟨ys, ?_, by simpa using mapE_length hl, hys⟩
      have hemp : (obs.map Prod.snd).isEmpty = false := by
        cases obs with
        | nil => exact absurd rfl hne
        | cons => rfl
      simp only [tell, h1, ok_bind, checkY, takeLogs, hps, YArg.isSeq, h2, Bool.true_and, if_true, YArg.items, hall,
        hemp, Bool.not_false, hl]
  have hrec : record s (.lst (obs.map fun o => .seq o.1)) (.seq ys) =
      .ok (record.batch s (obs.map fun o => .seq o.1) ys) :=
    record_many (by rintro v hv; obtain ⟨o, -, rfl⟩ := List.mem_map.1 hv; exact ⟨_, rfl⟩) ys
  exact ⟨ys, e, hl, hrec, hs.record (by
      intro v hv
      obtain ⟨o, hm, rfl⟩ := List.mem_map.1 hv
      exact ⟨_, rfl, (ho o hm).1⟩) hys (by simp [hl])⟩

/-- Telling a batch of observations of the space returns. -/
theorem tell_batch_live (hd : Workable A dims) (hW : Reliable A W dims) {s : Opt F M R} (hs : Live A dims s)
    (hc : Sane s.cfg) {obs : List (Point F × YArg F)} (hne : obs ≠ [])
    (ho : ∀ o ∈ obs, InSpace A dims o.1 ∧ Told A s.cfg.acq.isPs o.2) (fit : Bool) :
    ∃ t r, tell A W dims s (.lst (obs.map fun o => .seq o.1)) (.seq (obs.map Prod.snd)) fit = (t, .ok r) ∧
      Live A dims t ∧ t.Xi ≠ [] ∧ (fit = true → s.nInit - (obs.map Prod.snd).length ≤ 0 → s.cfg.hasEst = true →
        t.models ≠ [] ∧ ∃ p, t.nextX = some p ∧ InSpace A dims p) := by
  obtain ⟨ys, e, hl, hrec, hlive⟩ := tell_batch_records hW.log hs hne ho fit
  rw [e, List.length_map]
  have := tellCore_live hd hW hrec (fit := fit) hlive (by simpa [record.batch] using fun _ => hne) hc
  obtain ⟨t, r, g1, g2, g3, g4⟩ := this
  refine ⟨t, r, g1, g2, g3, fun f1 f2 f3 => g4 f1 ?_ f3⟩
  show s.nInit - (ys.length : ℤ) ≤ 0
  rw [hl]; exact f2

/-- Invariant: `ask` has something to return. -/
structure Ready (A : Arith F) (dims : List (Dim F)) (s : Opt F M R) : Prop where
  initial : ∀ P, s.initialSamples = some P → s.cfg.hasEst = true ∧ s.nInit ≤ P.length
  model : s.nInit ≤ 0 → s.cfg.hasEst = true →
    s.models ≠ [] ∧ s.Xi ≠ [] ∧ ∃ p, s.nextX = some p ∧ InSpace A dims p

theorem pyGetI_ok {α : Type} {xs : List α} {i : ℤ} (h0 : 0 ≤ i) (h1 : i < xs.length) :
    ∃ a, pyGetI xs i = .ok a := by
  unfold pyGetI
  rw [if_pos h0]
  exact ⟨_, pyGet_lt (by omega)⟩

/-- `ask` returns. -/
theorem askOne_live (hd : Workable A dims) (hW : Reliable A W dims) {s : Opt F M R} (hs : Live A dims s)
    (hr : Ready A dims s) : ∃ p, (askOne A W dims s).2 = .ok p := by
  unfold askOne
  by_cases hcond : 0 < s.nInit ∨ s.cfg.hasEst = false
  · rw [if_pos hcond]
    cases hi : s.initialSamples with
    | none =>
      obtain ⟨h1, h2⟩ := hW.draws s.rng 1
      obtain ⟨pts, hpts, hpl, -⟩ := hd.sample _ _ h1 h2
      simp only [hpts, ok_bind]
      exact ⟨_, pyGet_lt (by omega)⟩
    | some P =>
      obtain ⟨he, hl⟩ := hr.initial P hi
      have hpos : 0 < s.nInit := by
        rcases hcond with h | h
        · exact h
        · rw [he] at h; cases h
      exact pyGetI_ok (by omega) (by omega)
  · rw [if_neg hcond]
    rw [not_or] at hcond
    obtain ⟨hm, hx, p, hp, hpS⟩ := hr.model (by omega) (by simpa using hcond.2)
    rw [if_neg (by simpa using hm)]
    simp only [hp]
    obtain ⟨ds, hds⟩ : ∃ ds, mapE (fun xi : Val F => Space.distance A dims p xi.items) s.Xi = .ok ds := by
      have := hs.points
      generalize s.Xi = l at this
      induction l with
      | nil => exact ⟨[], rfl⟩
      | cons v vs ih =>
        obtain ⟨ds, e⟩ := ih fun v hv => this v (List.mem_cons_of_mem _ hv)
        obtain ⟨q, rfl, hq⟩ := this v List.mem_cons_self
        obtain ⟨ab, hab⟩ := hd.apart p q hpS hq
        exact ⟨ab :: ds, mapE_cons_ok.2 ⟨ab, ds, hab, e, rfl⟩⟩
    have hne : ds ≠ [] := by
      rintro rfl
      exact hx (List.length_eq_zero_iff.1 (by simpa using (mapE_length hds).symm))
    rw [hds, ok_bind, if_neg (by simpa using hne)]
    exact ⟨p, rfl⟩

end

/-- A call that should succeed: telling members of the space with finite numbers (in the per-second modes with
values and times), or asking. -/
def GoodCall (A : Arith F) (ps : Bool) (dims : List (Dim F)) : Call F → Prop
  | .one p y _ => InSpace A dims p ∧ Flat p ∧ Told A ps y
  | .batch obs _ => obs ≠ [] ∧ ∀ o ∈ obs, InSpace A dims o.1 ∧ Told A ps o.2
  | .ask => True
  | _ => False

/-- The call fits the model (`fit=True`, the default), if it is a `tell`. -/
def fitsCall : Call F → Prop
  | .one _ _ fit => fit = true
  | .batch _ fit => fit = true
  | _ => True

variable {W : World F M R G} {dims : List (Dim F)}

theorem live_fresh (dims : List (Dim F)) (cfg : Config) (rng : R) (pts : Option (List (Point F))) :
    Live A dims (Opt.fresh A cfg rng pts : Opt F M R) := by
  refine ⟨by simp [Opt.fresh], by simp [Opt.fresh], rfl, ?_, by simp [Opt.fresh]⟩
  intro h
  refine ⟨List.replicate 3 (A.ofInt 0), ?_, by simp⟩
  have : cfg.acq = .gpHedge := h
  simp [Opt.fresh, this]

/-- One good call returns and keeps the invariants. -/
theorem step_live (hd : Workable A dims) (hW : Reliable A W dims) (gen : Option G) {s : Opt F M R}
    (hs : Live A dims s) (hc : Sane s.cfg) {c : Call F} (hg : GoodCall A s.cfg.acq.isPs dims c)
    (hask : c = .ask → Ready A dims s) :
    let q := step A W ⟨dims, gen⟩ s c.toOp
    q.1 = ⟨dims, gen⟩ ∧ Returns q.2.2 ∧ Live A dims q.2.1 ∧ q.2.1.cfg = s.cfg ∧
      (fitsCall c → Ready A dims s → Ready A dims q.2.1) := by
  intro q
  obtain ⟨f1, f2, xs, ys, f3, f4, f5⟩ := step_frame A W (⟨dims, gen⟩ : Shared F G) s c.toOp
  cases c with
  | one p y fit =>
    obtain ⟨t, r, h1, h2, h3, h4⟩ := tell_one_live hd hW hs hc hg.1 hg.2.1 hg.2.2 fit
    have e : q = (⟨dims, gen⟩, t, .ok (.result r)) := by
      simp only [q, Call.toOp, step, h1, ok_bind]
    have hcall := step_call (A := A) (W := W) (sh := ⟨dims, gen⟩) (s := s) (c := .one p y fit)
      (fun p' y' f' h => by cases h; exact hg.2.1) (fun _ => ⟨.result r, by
        change q.2.2 = _; rw [e]⟩)
    change q.2.1.cfg = _ ∧ q.2.1.initialSamples = _ ∧ q.2.1.Xi = _ ∧ (∃ ys, q.2.1.yi = _ ∧ _ ∧ q.2.1.nInit = _) ∧ _
      at hcall
    rw [e] at hcall ⊢
    obtain ⟨g1, g2, -, ⟨ys, -, g4, g5⟩, -⟩ := hcall
    have hl : ys.length = 1 := by rw [← g4.length_eq]; rfl
    rw [hl] at g5
    refine ⟨rfl, ⟨_, rfl⟩, h2, g1, fun hfit hrd => ⟨?_, ?_⟩⟩
    · intro P hP
      rw [show t.initialSamples = _ from g2] at hP
      have := hrd.initial P hP
      show t.cfg.hasEst = true ∧ t.nInit ≤ _
      rw [show t.cfg = _ from g1, show t.nInit = _ from g5]
      exact ⟨this.1, by push_cast; omega⟩
    · intro hn he
      obtain ⟨m1, m2⟩ := h4 hfit (by rw [show t.nInit = _ from g5] at hn; exact hn) (by
        rw [show t.cfg = _ from g1] at he; exact he)
      exact ⟨m1, h3, m2⟩
  | batch obs fit =>
    obtain ⟨t, r, h1, h2, h3, h4⟩ := tell_batch_live hd hW hs hc hg.1 hg.2 fit
    have e : q = (⟨dims, gen⟩, t, .ok (.result r)) := by
      simp only [q, Call.toOp, step, h1, ok_bind]
    have hcall := step_call (A := A) (W := W) (sh := ⟨dims, gen⟩) (s := s) (c := .batch obs fit)
      (fun p' y' f' h => by cases h) (fun _ => ⟨.result r, by
        change q.2.2 = _; rw [e]⟩)
    change q.2.1.cfg = _ ∧ q.2.1.initialSamples = _ ∧ q.2.1.Xi = _ ∧ (∃ ys, q.2.1.yi = _ ∧ _ ∧ q.2.1.nInit = _) ∧ _
      at hcall
    rw [e] at hcall ⊢
    obtain ⟨g1, g2, -, ⟨ys, -, g4, g5⟩, -⟩ := hcall
    have hl : ys.length = (obs.map Prod.snd).length := by rw [← g4.length_eq]; rfl
    rw [hl] at g5
    refine ⟨rfl, ⟨_, rfl⟩, h2, g1, fun hfit hrd => ⟨?_, ?_⟩⟩
    · intro P hP
      rw [show t.initialSamples = _ from g2] at hP
      have := hrd.initial P hP
      show t.cfg.hasEst = true ∧ t.nInit ≤ _
      rw [show t.cfg = _ from g1, show t.nInit = _ from g5]
      exact ⟨this.1, by omega⟩
    · intro hn he
      obtain ⟨m1, m2⟩ := h4 hfit (by rw [show t.nInit = _ from g5] at hn; exact hn) (by
        rw [show t.cfg = _ from g1] at he; exact he)
      exact ⟨m1, h3, m2⟩
  | ask =>
    obtain ⟨p, hp⟩ := askOne_live hd hW hs (hask rfl)
    obtain ⟨r, hr⟩ := askOne_frame A W dims s
    have e : q = (⟨dims, gen⟩, { s with rng := r }, .ok (.point p)) := by
      simp only [q, Call.toOp, step, hr, hp, ok_bind]
    rw [e]
    exact ⟨rfl, ⟨_, rfl⟩, ⟨hs.points, hs.values, hs.aligned, hs.hedge, hs.proposals⟩, rfl,
      fun _ h => ⟨h.initial, h.model⟩⟩
  | askMany n st => exact hg.elim
  | updateNext => exact hg.elim
  | getResult => exact hg.elim

end Skopt.Rounded

import Verif.Lemmas.Refit

/-!
# C123 – fitting a `BayesSearchCV` again
-/

namespace Skopt

variable {F M R G : Type} [LinearOrder F]

/-! ## Lemmas -/

omit [LinearOrder F] in
theorem dictAfter_map {f : String → Dim F → Dim F} {s : SearchDict F} (hnd : (s.map Prod.fst).Nodup)
    {dims : List (Dim F)} (h : dimensionsAslist (mapDict f s) = .ok dims) : dictAfter s dims = mapDict f s := by
  have hks : (sortedKeys s).Nodup := (List.perm_insertionSort _ _).nodup_iff.2 hnd
  have hlen : (sortedKeys s).length = dims.length := by
    rw [← mapDict_keys f s]; exact (mapE_length h).symm
  unfold dictAfter mapDict
  refine List.map_congr_left fun p hp => ?_
  have hk : p.1 ∈ sortedKeys s := (List.perm_insertionSort _ _).mem_iff.2 (List.mem_map_of_mem hp)
  obtain ⟨i, hi, hpi⟩ := List.getElem_of_mem hk
  have h1 : dictGet ((sortedKeys s).zip dims) p.1 = .ok (dims[i]'(hlen ▸ hi)) := by
    refine dictGet_of_mem (by rw [List.map_fst_zip hlen.le]; exact hks) ?_
    rw [← hpi, ← List.getElem_zip (h := by simp; omega)]
    exact List.getElem_mem _
  have h2 : dictGet (mapDict f s) p.1 = .ok (dims[i]'(hlen ▸ hi)) := by
    have := mapE_eq_ok.1 h
    rw [mapDict_keys] at this
    have := (List.forall₂_iff_get.1 this).2 i hi (hlen ▸ hi)
    simp only [List.get_eq_getElem] at this
    rw [← hpi]; exact this
  rw [dictGet_mapDict, dictGet_of_mem hnd (k := p.1) (v := p.2) hp] at h2
  simp only [Except.map, Except.ok.injEq] at h2
  rw [h1, h2]

omit [LinearOrder F] in
theorem mapDims_elems (f : String → Dim F → Dim F) (s : SearchSpaces F) :
    (s.mapDims f).elems = s.elems.map (mapElem f) := by
  cases s with
  | dict s => rfl
  | list es =>
    simp only [SearchSpaces.mapDims, SearchSpaces.elems]
    refine List.map_congr_left fun e _ => ?_
    cases e <;> rfl

omit [LinearOrder F] in
theorem mapDims_check (f : String → Dim F → Dim F) (s : SearchSpaces F) :
    checkSearchSpaces (s.mapDims f) = checkSearchSpaces s := by
  cases s with
  | dict s => simp [SearchSpaces.mapDims, checkSearchSpaces]
  | list es =>
    simp only [SearchSpaces.mapDims, checkSearchSpaces, List.length_map, List.all_map]
    congr 1
    refine if_congr (Eq.congr_left ?_) rfl rfl
    congr 1
    funext e
    cases e <;> rfl

omit [LinearOrder F] in
theorem mapDims_mapDims (f g : String → Dim F → Dim F) (s : SearchSpaces F) :
    (s.mapDims f).mapDims g = s.mapDims fun k d => g k (f k d) := by
  cases s with
  | dict s => simp [SearchSpaces.mapDims]
  | list es =>
    simp only [SearchSpaces.mapDims, List.map_map, SearchSpaces.list.injEq]
    refine List.map_congr_left fun e _ => ?_
    cases e <;> simp

omit [LinearOrder F] in
theorem touch_touch (gp gp' : Bool) (k : String) (d : Dim F) :
    touch gp' k (touch gp k d) = touch (gp || gp') k d := by
  have h := normalized_twice [d]
  simp only [List.map_cons, List.map_nil, List.cons.injEq, and_true] at h
  cases gp <;> cases gp' <;> simp [touch, orName_orName, orName_normalized, h]

omit [LinearOrder F] in
theorem mkConfig_keeps_gp {a : Args} {cfg : Config} (h : mkConfig a = .ok cfg) : cfg.isGP = a.est.isGP := by
  simp only [mkConfig] at h
  split at h
  · cases h
  · split at h
    · cases h
    · split at h
      · cases h
      · split at h
        · cases h
        · split at h
          · cases h
          · injection h with h
            rw [← h]

/-! ## C123 -/

/-- **C123 (changes).** All that a completed fit changes in the search spaces of its caller: dimensions without
a name get the name of their parameter, and with a Gaussian process all transforms become `normalize`. -/
theorem C123_changes (A : Arith F) (W : World F M R G) (hW : PutsBack W) (f : FitCall F M R G)
    (spaces : SearchSpaces F) (hk : ∀ e ∈ spaces.elems, (e.space.map Prod.fst).Nodup)
    (hl : ∀ e ∈ spaces.elems, ∀ p ∈ e.space, HasLegalTransform p.2)
    (h : (f.run A W spaces).2 = .ok ()) :
    spacesAfter spaces (f.run A W spaces).1 = spaces.mapDims fun name d =>
      (if f.args.opt.est.isGP then d.normalized else d).orName name := by
  obtain ⟨subs, hsubs⟩ : ∃ subs, f.run A W spaces = (subs, .ok ()) := ⟨_, Prod.ext rfl h⟩
  rw [hsubs]
  simp only [FitCall.run, bayesSearch] at hsubs
  split at hsubs
  · cases hsubs
  · next cbs os rng' hb =>
    simp only [bind_eq_ok, Except.ok.injEq, Prod.mk.injEq] at hb
    obtain ⟨_, h0, cbs', h1, cfg, h2, ⟨os', r'⟩, h3, rfl, h4⟩ := hb
    obtain ⟨rfl, rfl⟩ := Prod.mk.injEq .. ▸ h4
    obtain ⟨s1, s2⟩ := makeOptimizers_dims hW hl h3
    have s3 := searchAll_settled hW s1 hsubs
    have hgp := mkConfig_keeps_gp h2
    rw [hgp] at s2
    clear h3 hsubs h h0
    have key : ∀ (es : List (SearchElem F)) (os : List (SearchElem F × Shared F G × Opt F M R)), (∀ e ∈ es, (e.space.map Prod.fst).Nodup) →
        List.Forall₂ (fun e q => dimensionsAslist (mapDict (touch f.args.opt.est.isGP) e.space) =
          .ok q.2.1.dims) es os → ∀ subs : List (SubSearch F M R G),
        List.Forall₂ (fun q sub => sub.final.shared.dims = q.2.1.dims) os subs →
        List.zipWith elemAfter es (subs.map fun sub => sub.final.shared.dims) =
          es.map (mapElem (touch f.args.opt.est.isGP)) := by
      intro es os hnd h
      induction h with
      | nil => intro subs _; rfl
      | @cons e q es os h _ ih =>
        intro subs hs
        cases hs with
        | @cons _ sub _ subs hsub hs =>
          rw [← hsub] at h
          have := dictAfter_map (hnd e List.mem_cons_self) h
          simp only [List.map_cons, List.zipWith_cons_cons,
            ih (fun e he => hnd e (List.mem_cons_of_mem _ he)) subs hs, List.cons.injEq, and_true]
          cases e with
          | plain s => simp only [elemAfter, mapElem, SearchElem.space] at this ⊢; rw [this]
          | withIter s n => simp only [elemAfter, mapElem, SearchElem.space] at this ⊢; rw [this]
    have := key _ _ hk s2 subs s3
    cases spaces with
    | dict s =>
      cases subs with
      | nil => simp [SearchSpaces.elems] at this
      | cons sub subs =>
        simp only [SearchSpaces.elems, List.map_cons, List.map_nil, List.zipWith_cons_cons,
          List.zipWith_nil_left, elemAfter, mapElem, List.cons.injEq, SearchElem.plain.injEq, and_true] at this
        simp only [spacesAfter, this]
        rfl
    | list es =>
      simp only [SearchSpaces.elems] at this
      have e2 := mapDims_elems (touch f.args.opt.est.isGP) (.list es)
      simp only [SearchSpaces.mapDims, SearchSpaces.elems] at e2
      simp only [spacesAfter, this]
      rw [← e2]
      rfl

/-- The search from changed dimensions. -/
theorem run_touched {A : Arith F} {W : World F M R G} (hW : PutsBack W) (hN : IgnoresNames W)
    (f : FitCall F M R G) {spaces : SearchSpaces F}
    (hl : ∀ e ∈ spaces.elems, ∀ p ∈ e.space, HasLegalTransform p.2) {gp : Bool}
    (hgp : gp = true → f.args.opt.est.isGP = true) :
    f.run A W (spaces.mapDims (touch gp)) = f.run A W spaces := by
  simp only [FitCall.run, bayesSearch, mapDims_check, mapDims_elems]
  cases checkSearchSpaces spaces with
  | error e => rfl
  | ok _ =>
    simp only [ok_bind]
    cases checkCallback f.args.callback with
    | error e => rfl
    | ok cbs =>
      simp only [ok_bind]
      cases hc : mkConfig f.args.opt with
      | error e => rfl
      | ok cfg =>
        simp only [ok_bind]
        rw [makeOptimizers_map hW hN hl f.rng (fun h => by rw [mkConfig_keeps_gp hc]; exact hgp h)]
        cases makeOptimizers (M := M) A W cfg f.args.gen spaces.elems f.rng with
        | error e => rfl
        | ok q =>
          obtain ⟨os, rng⟩ := q
          exact searchAll_map A W f.ev cbs f.args.nIter f.args.nPoints (touch gp) os rng [] [] none

theorem afterFits_form {A : Arith F} {W : World F M R G} (hW : PutsBack W)
    (fits : List (FitCall F M R G)) : ∀ (spaces : SearchSpaces F),
    (∀ e ∈ spaces.elems, (e.space.map Prod.fst).Nodup) →
    (∀ e ∈ spaces.elems, ∀ p ∈ e.space, HasLegalTransform p.2) → AllComplete A W spaces fits →
    afterFits A W spaces fits = spaces ∨
    ∃ gp, afterFits A W spaces fits = spaces.mapDims (touch gp) ∧
      (gp = true → ∃ f ∈ fits, f.args.opt.est.isGP = true) := by
  induction fits with
  | nil => exact fun _ _ _ _ => .inl rfl
  | cons f fs ih =>
    intro spaces hk hl hc
    right
    have h1 : spacesAfter spaces (f.run A W spaces).1 = spaces.mapDims (touch f.args.opt.est.isGP) :=
      C123_changes A W hW f spaces hk hl hc.1
    have hk' : ∀ e ∈ (spaces.mapDims (touch f.args.opt.est.isGP)).elems, (e.space.map Prod.fst).Nodup := by
      intro e he
      rw [mapDims_elems] at he
      obtain ⟨e', he', rfl⟩ := List.mem_map.1 he
      have := hk e' he'
      cases e' <;> simpa [mapElem, mapDict, SearchElem.space, Function.comp_def] using this
    have hl' : ∀ e ∈ (spaces.mapDims (touch f.args.opt.est.isGP)).elems, ∀ p ∈ e.space,
        HasLegalTransform p.2 := by
      intro e he p hp
      rw [mapDims_elems] at he
      obtain ⟨e', he', rfl⟩ := List.mem_map.1 he
      have e2 : (mapElem (touch f.args.opt.est.isGP) e').space =
          mapDict (touch f.args.opt.est.isGP) e'.space := by cases e' <;> rfl
      rw [e2] at hp
      obtain ⟨p', hp', rfl⟩ := List.mem_map.1 hp
      simp only [touch, orName_legal]
      have := hl e' he' p' hp'
      split
      · exact normalized_legal (dims := [p'.2]) (by simpa using this) _ (by simp)
      · exact this
    have hc2 := hc.2
    rw [h1] at hc2
    simp only [afterFits, h1]
    rcases ih _ hk' hl' hc2 with h | ⟨gp, h, hg⟩
    · rw [h]
      exact ⟨_, rfl, fun h => ⟨f, List.mem_cons_self, h⟩⟩
    · refine ⟨f.args.opt.est.isGP || gp, ?_, ?_⟩
      · rw [h, mapDims_mapDims]
        congr 1
        funext k d
        exact touch_touch _ _ k d
      · intro h
        rcases Bool.or_eq_true_iff.1 h with h | h
        · exact ⟨f, List.mem_cons_self, h⟩
        · obtain ⟨f', hf', h'⟩ := hg h
          exact ⟨f', List.mem_cons_of_mem _ hf', h'⟩

/-- **C123.** A fit does not depend on earlier completed fits with the same search spaces – on whatever data and
with whatever settings, as long as a Gaussian process came first only if one is used again: it evaluates the
same candidates, reports the same results and leaves the same optimizers as a fit with unused search spaces.
In particular fitting the same search again, from the same seed and data, gives the same search. -/
theorem C123_fit_again (A : Arith F) (W : World F M R G) (hW : PutsBack W) (hN : IgnoresNames W)
    (spaces : SearchSpaces F) (hk : ∀ e ∈ spaces.elems, (e.space.map Prod.fst).Nodup)
    (hl : ∀ e ∈ spaces.elems, ∀ p ∈ e.space, HasLegalTransform p.2)
    (fits : List (FitCall F M R G)) (hc : AllComplete A W spaces fits) (f : FitCall F M R G)
    (hgp : (∃ g ∈ fits, g.args.opt.est.isGP = true) → f.args.opt.est.isGP = true) :
    f.run A W (afterFits A W spaces fits) = f.run A W spaces := by
  rcases afterFits_form hW fits spaces hk hl hc with h | ⟨gp, h, hg⟩
  · rw [h]
  · rw [h]
    exact run_touched hW hN f hl fun h => hgp (hg h)

omit [LinearOrder F] in
theorem inverseCols_named [LinearOrder F] (A : Arith F) (dims : List (Dim F)) (names : List String)
    (h : dims.length = names.length) (start : Nat) (Xt : List (List (Val F))) :
    Space.inverseCols A (List.zipWith Dim.orName dims names) start Xt = Space.inverseCols A dims start Xt := by
  induction dims generalizing names start with
  | nil => rfl
  | cons d ds ih =>
    cases names with
    | nil => simp at h
    | cons k ks =>
      have h1 : (d.orName k).inverse A = d.inverse A := by
        rcases d with ⟨_, _, _, _, _, _ | _, _⟩ | ⟨_, _, _, _, _, _ | _, _⟩ | ⟨_, _, _, _ | _⟩ <;> rfl
      have h2 : (d.orName k).transformedSize = d.transformedSize := by
        rcases d with ⟨_, _, _, _, _, _ | _, _⟩ | ⟨_, _, _, _, _, _ | _, _⟩ | ⟨_, _, _, _ | _⟩ <;> rfl
      simp only [List.zipWith_cons_cons, Space.inverseCols, h1, h2, ih ks (by simpa using h)]

theorem inverseTransform_named (A : Arith F) (dims : List (Dim F)) (names : List String)
    (h : dims.length = names.length) (Xt : List (List (Val F))) :
    Space.inverseTransform A (List.zipWith Dim.orName dims names) Xt = Space.inverseTransform A dims Xt := by
  have he : (List.zipWith Dim.orName dims names).isEmpty = dims.isEmpty := by
    cases dims <;> cases names <;> simp_all
  unfold Space.inverseTransform
  rw [inverseCols_named A dims names h, he]

theorem UsesSobol.ignoresNames {A : Arith F} {mod1 : F → F} {shift : R → List F} {W : World F M R Sobol}
    (hW : UsesSobol A mod1 shift W) : IgnoresNames W := by
  intro s dims names n r hlen hl
  rw [hW, hW]
  have hz : (List.zipWith Dim.orName dims names).length = dims.length := by simp [hlen]
  have hn : (dims.map Dim.normalized).length = names.length := by simp [hlen]
  unfold Sobol.generate
  rw [hz]
  split
  · exact ⟨rfl, rfl⟩
  · simp only [withNormalized_eq hl, withNormalized_eq (orNames_legal hl names), orNames_normalized,
      inverseTransform_named A _ names hn]
    generalize (do
      let M ← (s.rows A dims.length n.toNat s.skip).2
      Space.inverseTransform A (dims.map Dim.normalized) (numRows
        (if s.randomize then randomShift A mod1 (shift r) M else M))) = q
    cases q <;> exact ⟨rfl, rfl⟩

/-- **C123 (Sobol).** The assumptions on the generator hold for the Sobol generator. -/
theorem C123_sobol (A : Arith F) (mod1 : F → F) (shift : R → List F) (W : World F M R Sobol)
    (hW : UsesSobol A mod1 shift W)
    (spaces : SearchSpaces F) (hk : ∀ e ∈ spaces.elems, (e.space.map Prod.fst).Nodup)
    (hl : ∀ e ∈ spaces.elems, ∀ p ∈ e.space, HasLegalTransform p.2)
    (fits : List (FitCall F M R Sobol)) (hc : AllComplete A W spaces fits) (f : FitCall F M R Sobol)
    (hgp : (∃ g ∈ fits, g.args.opt.est.isGP = true) → f.args.opt.est.isGP = true) :
    f.run A W (afterFits A W spaces fits) = f.run A W spaces :=
  C123_fit_again A W hW.putsBack hW.ignoresNames spaces hk hl fits hc f hgp

/-! ## Examples -/

/-- Two search spaces of dimensions without names and without `normalize`. -/
def freshSpaces : SearchSpaces ℚ :=
  .list [.plain [("b", .real ⟨0, 10, .uniform, 10, .identity, none, id⟩),
      ("a", .int ⟨1, 5, .uniform, 10, .identity, none, id⟩)],
    .withIter [("c", .real ⟨2, 3, .uniform, 10, .identity, some "own", id⟩)] 2]

/-- A fit with a Gaussian process. -/
def freshFit : FitCall ℚ Nat Nat Unit := ⟨toyEval, toySearchArgs .none, 0⟩

/-- An earlier fit on other data, from another seed, with another number of iterations. -/
def otherFit : FitCall ℚ Nat Nat Unit :=
  ⟨fun cs => .ok (cs.map fun _ => .fin 7), { toySearchArgs .none with nIter := 1, nPoints := 1 }, 5⟩

omit [LinearOrder F] in
theorem okWorld_putsBack : PutsBack okWorld :=
  ⟨fun _ _ _ _ _ _ _ => rfl, fun _ _ _ _ _ _ h => by cases h⟩

omit [LinearOrder F] in
theorem okWorld_ignoresNames : IgnoresNames okWorld := by
  intro g dims names n r hlen _
  refine ⟨rfl, ?_⟩
  show Except.ok _ = Except.ok _
  refine congrArg _ (List.map_congr_left fun i _ => ?_)
  rw [List.map_const', List.map_const', List.length_zipWith, hlen, min_self]

/-- What an observer sees of a search space: keys, names and whether the transform is `normalize`. -/
def SearchSpaces.look (s : SearchSpaces ℚ) : List (List (String × Option String × Bool)) :=
  s.elems.map fun e => e.space.map fun p => (p.1, p.2.name, p.2.tkind == .normalize)

theorem freshSpaces_legal : ∀ e ∈ freshSpaces.elems, ∀ p ∈ e.space, HasLegalTransform p.2 := by
  intro e he p hp
  simp only [freshSpaces, SearchSpaces.elems, List.mem_cons, List.not_mem_nil, or_false] at he
  rcases he with rfl | rfl <;> simp only [SearchElem.space, List.mem_cons, List.not_mem_nil, or_false] at hp
  · rcases hp with rfl | rfl <;> exact .inl rfl
  · subst hp; exact .inl rfl

theorem freshSpaces_keys : ∀ e ∈ freshSpaces.elems, (e.space.map Prod.fst).Nodup := by
  simp [freshSpaces, SearchSpaces.elems, SearchElem.space]

/-- Non-vacuity of C123: two fits complete and change the dimensions of the caller; the fit that follows runs as
without them.  Meets the hypotheses of `C123_changes` and `C123_fit_again`. -/
example :
    AllComplete ratArith okWorld freshSpaces [otherFit, freshFit] ∧
    freshSpaces.look = [[("b", none, false), ("a", none, false)], [("c", some "own", false)]] ∧
    (afterFits ratArith okWorld freshSpaces [otherFit, freshFit]).look =
      [[("b", some "b", true), ("a", some "a", true)], [("c", some "own", true)]] ∧
    freshFit.run ratArith okWorld (afterFits ratArith okWorld freshSpaces [otherFit, freshFit]) =
      freshFit.run ratArith okWorld freshSpaces ∧
    (freshFit.run ratArith okWorld freshSpaces).2 = .ok () := by
  have hc : AllComplete ratArith okWorld freshSpaces [otherFit, freshFit] :=
    ⟨by decide +kernel, by decide +kernel, trivial⟩
  exact ⟨hc, by decide +kernel, by decide +kernel, C123_fit_again ratArith okWorld okWorld_putsBack
    okWorld_ignoresNames freshSpaces freshSpaces_keys freshSpaces_legal _ hc freshFit fun _ => rfl,
    by decide +kernel⟩

/-- A fit with Sobol points, without Gaussian process. -/
def sobolFit : FitCall ℚ Nat Nat Sobol where
  ev := toyEval
  args :=
    { spaces := freshSpaces
      opt := { (toySearchArgs .none).opt with est := { isGP := false, hasGradients := true } }
      gen := some { randomize := false }
      nIter := 3 }
  rng := 0

/-- Non-vacuity of C123 (Sobol): after a completed fit the names are set and nothing else; the next fit is the
same. -/
example :
    UsesSobol ratArith id (fun _ => []) sobolWorld ∧
    AllComplete ratArith sobolWorld freshSpaces [sobolFit] ∧
    (afterFits ratArith sobolWorld freshSpaces [sobolFit]).look =
      [[("b", some "b", false), ("a", some "a", false)], [("c", some "own", false)]] ∧
    sobolFit.run ratArith sobolWorld (afterFits ratArith sobolWorld freshSpaces [sobolFit]) =
      sobolFit.run ratArith sobolWorld freshSpaces := by
  have hc : AllComplete ratArith sobolWorld freshSpaces [sobolFit] := ⟨by decide +kernel, trivial⟩
  refine ⟨fun _ _ _ _ => rfl, hc, by decide +kernel, ?_⟩
  exact C123_sobol ratArith id (fun _ => []) sobolWorld (fun _ _ _ _ => rfl) freshSpaces freshSpaces_keys
    freshSpaces_legal _ hc sobolFit (by simp [sobolFit])

end Skopt

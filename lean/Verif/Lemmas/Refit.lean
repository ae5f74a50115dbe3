import Verif.Spec.Refit
import Verif.Props.SearchCV
import Verif.Props.RepeatCall

/-!
# Lemmas for C123: fitting a `BayesSearchCV` again
-/

namespace Skopt

variable {F M R G : Type}

/-! ## Lemmas: names -/

theorem orName_orName (d : Dim F) (k : String) : (d.orName k).orName k = d.orName k := by
  rcases d with ⟨_, _, _, _, _, _ | _, _⟩ | ⟨_, _, _, _, _, _ | _, _⟩ | ⟨_, _, _, _ | _⟩ <;> rfl

theorem orName_normalized (d : Dim F) (k : String) : (d.orName k).normalized = d.normalized.orName k := by
  rcases d with ⟨_, _, _, _, _, _ | _, _⟩ | ⟨_, _, _, _, _, _ | _, _⟩ | ⟨_, _, _, _ | _⟩ <;> rfl

theorem orName_legal (d : Dim F) (k : String) : HasLegalTransform (d.orName k) ↔ HasLegalTransform d := by
  rcases d with ⟨_, _, _, _, _, _ | _, _⟩ | ⟨_, _, _, _, _, _ | _, _⟩ | ⟨_, _, _, _ | _⟩ <;> exact Iff.rfl

theorem orNames_orNames (ds : List (Dim F)) (ks : List String) :
    List.zipWith Dim.orName (List.zipWith Dim.orName ds ks) ks = List.zipWith Dim.orName ds ks := by
  induction ds generalizing ks with
  | nil => rfl
  | cons d ds ih =>
    cases ks with
    | nil => rfl
    | cons k ks => simp [orName_orName, ih]

theorem orNames_normalized (ds : List (Dim F)) (ks : List String) :
    (List.zipWith Dim.orName ds ks).map Dim.normalized = List.zipWith Dim.orName (ds.map Dim.normalized) ks := by
  induction ds generalizing ks with
  | nil => rfl
  | cons d ds ih =>
    cases ks with
    | nil => rfl
    | cons k ks => simp [orName_normalized, ih]

theorem orNames_legal {ds : List (Dim F)} (h : ∀ d ∈ ds, HasLegalTransform d) (ks : List String) :
    ∀ d ∈ List.zipWith Dim.orName ds ks, HasLegalTransform d := by
  induction ds generalizing ks with
  | nil => simp
  | cons d ds ih =>
    cases ks with
    | nil => simp
    | cons k ks =>
      intro x hx
      rcases List.mem_cons.1 hx with rfl | hx
      · exact (orName_legal d k).2 (h d List.mem_cons_self)
      · exact ih (fun d hd => h d (List.mem_cons_of_mem _ hd)) ks x hx

/-! ## Lemmas: dictionaries -/

theorem dictAfter_keys (space : SearchDict F) (dims : List (Dim F)) :
    (dictAfter space dims).map Prod.fst = space.map Prod.fst := by
  simp [dictAfter]

theorem sortedKeys_after (space : SearchDict F) (dims : List (Dim F)) :
    sortedKeys (dictAfter space dims) = sortedKeys space := by
  unfold sortedKeys; rw [dictAfter_keys]

theorem mapE_zip {ks : List String} (hnd : ks.Nodup) {ds : List (Dim F)} (hl : ks.length = ds.length) :
    mapE (dictGet (ks.zip ds)) ks = .ok ds := by
  have hk : (ks.zip ds).map Prod.fst = ks := by rw [List.map_fst_zip hl.le]
  have : ∀ (l : List (String × Dim F)), (∀ p ∈ l, p ∈ ks.zip ds) →
      mapE (dictGet (ks.zip ds)) (l.map Prod.fst) = .ok (l.map Prod.snd) := by
    intro l
    induction l with
    | nil => intro _; rfl
    | cons p l ih =>
      intro h
      have e := dictGet_of_mem (d := ks.zip ds) (k := p.1) (v := p.2) (by rw [hk]; exact hnd)
        (h p List.mem_cons_self)
      have := ih fun q hq => h q (List.mem_cons_of_mem _ hq)
      simp [mapE, e, this]
  have := this _ fun p hp => hp
  rwa [hk, List.map_snd_zip hl.ge] at this

theorem dictGet_after (space : SearchDict F) (dims : List (Dim F)) (k : String) (d : Dim F)
    (hk : k ∈ space.map Prod.fst) (hd : dictGet ((sortedKeys space).zip dims) k = .ok d) :
    dictGet (dictAfter space dims) k = .ok d := by
  obtain ⟨f, hf⟩ : ∃ f : String → Dim F → Dim F, f = fun k e =>
      match dictGet ((sortedKeys space).zip dims) k with
      | .ok d => d
      | .error _ => e := ⟨_, rfl⟩
  have hfk : ∀ e, f k e = d := fun e => by rw [hf]; simp only [hd]
  have : ∀ l : SearchDict F, k ∈ l.map Prod.fst → dictGet (l.map fun p => (p.1, f p.1 p.2)) k = .ok d := by
    intro l
    induction l with
    | nil => simp
    | cons p l ih =>
      intro h
      by_cases hp : p.1 = k
      · simp [dictGet, hp, hfk]
      · have hl : k ∈ l.map Prod.fst := by
          rcases List.mem_cons.1 h with h | h
          · exact absurd h.symm hp
          · exact h
        have := ih hl
        simp only [dictGet] at this ⊢
        simpa [hp] using this
  have := this space hk
  rw [hf] at this
  exact this

theorem sortedKeys_mem {space : SearchDict F} {k : String} (h : k ∈ sortedKeys space) :
    k ∈ space.map Prod.fst := (List.perm_insertionSort _ _).mem_iff.1 h

theorem dimensionsAslist_after {space : SearchDict F} (hnd : (space.map Prod.fst).Nodup)
    {dims : List (Dim F)} (hl : (sortedKeys space).length = dims.length) :
    dimensionsAslist (dictAfter space dims) = .ok dims := by
  have hks : (sortedKeys space).Nodup := (List.perm_insertionSort _ _).nodup_iff.2 hnd
  unfold dimensionsAslist
  rw [sortedKeys_after, ← mapE_zip hks hl]
  refine mapE_congr fun k hk => ?_
  obtain ⟨i, hi, rfl⟩ := List.getElem_of_mem hk
  have hd : dictGet ((sortedKeys space).zip dims) (sortedKeys space)[i] = .ok (dims[i]'(hl ▸ hi)) := by
    refine dictGet_of_mem (by rw [List.map_fst_zip hl.le]; exact hks) ?_
    rw [← List.getElem_zip (h := by simp; omega)]
    exact List.getElem_mem _
  rw [hd]
  exact dictGet_after space dims _ _ (sortedKeys_mem hk) hd

/-! ## Lemmas: the search leaves the dimensions alone -/

section
variable [LinearOrder F]

theorem tell_cfg (A : Arith F) (W : World F M R G) (dims : List (Dim F)) (s : Opt F M R) (x : XArg F)
    (y : YArg F) (fit : Bool) : (tell A W dims s x y fit).1.cfg = s.cfg := by
  unfold tell
  split
  · rfl
  · next y' _ =>
    cases hr : record s x y' with
    | error e => simp [tellCore, hr]
    | ok t => rw [(tellCore_frame A W dims s x y' fit hr).cfg, (record_frame hr).1]

/-- Dimensions as the constructor leaves them. -/
def Settled (cfg : Config) (dims : List (Dim F)) : Prop :=
  (∀ d ∈ dims, HasLegalTransform d) ∧ (cfg.isGP = true → dims.map Dim.normalized = dims)

omit [LinearOrder F] in
theorem init_settled {A : Arith F} {W : World F M R G} (hW : PutsBack W) {sh sh' : Shared F G} {cfg : Config}
    (hs : Settled cfg sh.dims) {rng : R} {o : Opt F M R} (h : Opt.init A W sh cfg rng = (sh', .ok o)) :
    sh'.dims = sh.dims := by
  obtain ⟨-, h2, h3⟩ := init_shared (A := A) (M := M) hW sh hs.1 cfg rng
  rw [h] at h2 h3
  cases hg : cfg.isGP with
  | false => exact h3 hg (.inr ⟨o, rfl⟩)
  | true =>
    rcases h2 with h2 | h2
    · exact h2
    · exact h2.trans (hs.2 hg)

theorem copy_settled {A : Arith F} {W : World F M R G} (hW : PutsBack W) {sh sh' : Shared F G}
    {s o : Opt F M R} (hs : Settled s.cfg sh.dims) {rng : R} (h : Opt.copy A W sh s rng = (sh', .ok o)) :
    sh'.dims = sh.dims := by
  unfold Opt.copy at h
  split at h
  · cases h
  · next sh₁ o₁ hi =>
    have h0 := init_settled (cfg := { s.cfg with queueSize := none }) hW hs hi
    simp only at h
    split at h
    · simp only [Prod.mk.injEq] at h
      rw [← h.1]; exact h0
    · split at h
      · cases h
      · simp only [Prod.mk.injEq] at h
        rw [← h.1]; exact h0

theorem askMany_settled {A : Arith F} {W : World F M R G} (hW : PutsBack W) {sh : Shared F G}
    {s : Opt F M R} (hs : Settled s.cfg sh.dims) {n : ℤ} {strat : Strategy} {X : List (Point F)}
    (h : (askMany A W sh s n strat).2.2 = .ok X) : (askMany A W sh s n strat).1.dims = sh.dims := by
  obtain ⟨_, _, ⟨_, h1⟩ | ⟨sh₁, o, o', h1, _, h2⟩⟩ := askMany_ok h
  · rw [h1]
  · rw [h2]; exact copy_settled (s := { s with rng := (W.seed s.rng).1 }) hW hs h1

theorem searchStep_settled {A : Arith F} {W : World F M R G} (hW : PutsBack W) {ev : Evaluator F}
    {space : SearchDict F} {st st' : SearchState F M R G} (hs : Settled st.opt.cfg st.shared.dims) {n : ℤ}
    {r : Result F M} (h : searchStep A W ev space st n = (st', .ok r)) :
    st'.shared.dims = st.shared.dims ∧ st'.opt.cfg = st.opt.cfg := by
  have ha := fun X => askMany_settled (A := A) hW hs (n := n) (strat := .clMin) (X := X)
  obtain ⟨r', c, hf⟩ := askMany_frame A W st.shared st.opt n .clMin
  unfold searchStep at h
  split at h
  · cases h
  · next sh o pts hask =>
    rw [hask] at ha hf
    have hd := ha pts rfl
    simp only at hf hd
    split at h
    · cases h
    · simp only at h
      split at h
      · cases h
      · simp only [Prod.mk.injEq] at h
        rw [← h.1]
        exact ⟨hd, by rw [tell_cfg, hf]⟩

theorem searchLoop_settled {A : Arith F} {W : World F M R G} (hW : PutsBack W) {ev : Evaluator F}
    {cbs : List (Callback F M)} {space : SearchDict F} {nPoints : ℤ} {fuel : Nat} {n : ℤ}
    {st st' : SearchState F M R G} (hs : Settled st.opt.cfg st.shared.dims)
    (h : searchLoop A W ev cbs space nPoints fuel n st = (st', .ok ())) :
    st'.shared.dims = st.shared.dims := by
  induction fuel generalizing n st with
  | zero => simp only [searchLoop, Prod.mk.injEq, and_true] at h; rw [h]
  | succ fuel ih =>
    simp only [searchLoop] at h
    split at h
    · simp only [Prod.mk.injEq, and_true] at h; rw [h]
    · split at h
      · cases h
      · next st₁ r hst =>
        obtain ⟨h1, h2⟩ := searchStep_settled hW hs hst
        split at h
        · cases h
        · simp only [Prod.mk.injEq, and_true] at h; rw [← h]; exact h1
        · have := ih (st := { st₁ with
            hist := st₁.hist ++ [r]
            last := some r
            calls := st₁.calls ++ (evalCallbacks (st₁.hist ++ [r]) r cbs 0 false).1 })
            (by simp only [h1, h2]; exact hs) h
          rw [this]; exact h1

theorem searchAll_settled {A : Arith F} {W : World F M R G} (hW : PutsBack W) {ev : Evaluator F}
    {cbs : List (Callback F M)} {nIter nPoints : ℤ}
    {os : List (SearchElem F × Shared F G × Opt F M R)} {rng : R} {cands : List (Candidate F)}
    {hist : List (Result F M)} {last : Option (Result F M)} {subs : List (SubSearch F M R G)}
    (hs : ∀ q ∈ os, Settled q.2.2.cfg q.2.1.dims)
    (h : searchAll A W ev cbs nIter nPoints os rng cands hist last = (subs, .ok ())) :
    List.Forall₂ (fun q sub => sub.final.shared.dims = q.2.1.dims) os subs := by
  induction os generalizing rng cands hist last subs with
  | nil =>
    simp only [searchAll, Prod.mk.injEq, and_true] at h
    rw [← h]; exact .nil
  | cons q os ih =>
    obtain ⟨e, sh, o⟩ := q
    simp only [searchAll] at h
    split at h
    · cases h
    · next st u hl =>
      split at h
      · cases h
      · simp only [Prod.mk.injEq] at h
        obtain ⟨h1, h2⟩ := h
        rw [← h1]
        refine .cons ?_ (ih (fun q hq => hs q (List.mem_cons_of_mem _ hq)) (Prod.ext rfl h2))
        exact searchLoop_settled hW (st := ⟨sh, { o with rng := rng }, cands, [], hist, last, []⟩)
          (hs (e, sh, o) List.mem_cons_self) hl

/-! ## Lemmas: the same search from changed dimensions -/

/-- The change of one dimension by a fit. -/
def touch (gp : Bool) (k : String) (d : Dim F) : Dim F := (if gp then d.normalized else d).orName k

/-- A search space with every dimension changed. -/
def mapDict (f : String → Dim F → Dim F) (s : SearchDict F) : SearchDict F := s.map fun p => (p.1, f p.1 p.2)

/-- The same for an element of a list of search spaces. -/
def mapElem (f : String → Dim F → Dim F) : SearchElem F → SearchElem F
  | .plain s => .plain (mapDict f s)
  | .withIter s n => .withIter (mapDict f s) n

omit [LinearOrder F] in
theorem mapDict_keys (f : String → Dim F → Dim F) (s : SearchDict F) :
    sortedKeys (mapDict f s) = sortedKeys s := by
  unfold sortedKeys mapDict
  rw [List.map_map]
  rfl

omit [LinearOrder F] in
theorem dictGet_mapDict (f : String → Dim F → Dim F) (s : SearchDict F) (k : String) :
    dictGet (mapDict f s) k = (dictGet s k).map (f k) := by
  unfold mapDict dictGet
  induction s with
  | nil => rfl
  | cons p s ih =>
    by_cases hp : p.1 = k
    · simp [hp, Except.map]
    · simpa [hp] using ih

omit [LinearOrder F] in
theorem dimensionsAslist_mapDict (f : String → Dim F → Dim F) (s : SearchDict F) :
    dimensionsAslist (mapDict f s) =
      (dimensionsAslist s).map fun dims => List.zipWith (fun d k => f k d) dims (sortedKeys s) := by
  unfold dimensionsAslist
  rw [mapDict_keys]
  generalize sortedKeys s = ks
  induction ks with
  | nil => rfl
  | cons k ks ih =>
    simp only [mapE, dictGet_mapDict, ih]
    cases dictGet s k with
    | error e => rfl
    | ok d =>
      cases mapE (dictGet s) ks with
      | error e => rfl
      | ok ds => rfl

theorem searchStep_map (A : Arith F) (W : World F M R G) (ev : Evaluator F) (f : String → Dim F → Dim F)
    (space : SearchDict F) (st : SearchState F M R G) (n : ℤ) :
    searchStep A W ev (mapDict f space) st n = searchStep A W ev space st n := by
  have : (pointAsdict (mapDict f space) : List (Val F) → _) = pointAsdict space := by
    funext p; unfold pointAsdict; rw [mapDict_keys]
  unfold searchStep
  rw [this]

theorem searchLoop_map (A : Arith F) (W : World F M R G) (ev : Evaluator F) (cbs : List (Callback F M))
    (f : String → Dim F → Dim F) (space : SearchDict F) (nPoints : ℤ) (fuel : Nat) (n : ℤ)
    (st : SearchState F M R G) :
    searchLoop A W ev cbs (mapDict f space) nPoints fuel n st =
      searchLoop A W ev cbs space nPoints fuel n st := by
  induction fuel generalizing n st with
  | zero => rfl
  | succ fuel ih => simp only [searchLoop, searchStep_map, ih]

theorem searchAll_map (A : Arith F) (W : World F M R G) (ev : Evaluator F) (cbs : List (Callback F M))
    (nIter nPoints : ℤ) (f : String → Dim F → Dim F)
    (os : List (SearchElem F × Shared F G × Opt F M R))
    (rng : R) (cands : List (Candidate F)) (hist : List (Result F M)) (last : Option (Result F M)) :
    searchAll A W ev cbs nIter nPoints (os.map fun q => (mapElem f q.1, q.2)) rng cands hist last =
      searchAll A W ev cbs nIter nPoints os rng cands hist last := by
  induction os generalizing rng cands hist last with
  | nil => rfl
  | cons q os ih =>
    obtain ⟨e, sh, o⟩ := q
    have h1 : (mapElem f e).iters nIter = e.iters nIter := by cases e <;> rfl
    have h2 : (mapElem f e).space = mapDict f e.space := by cases e <;> rfl
    simp only [List.map_cons, searchAll, h1, h2, searchLoop_map, ih]

omit [LinearOrder F] in
/-- The constructor for dimensions with legal transforms. -/
theorem init_legal {A : Arith F} {W : World F M R G} (hW : PutsBack W)
    {dims : List (Dim F)} (hl : ∀ d ∈ dims, HasLegalTransform d) (gen : Option G) (cfg : Config) (rng : R)
    {D : List (Dim F)} (hD : (if cfg.isGP then dims.map Dim.normalized else dims) = D) :
    (∃ sh e, Opt.init (M := M) A W ⟨dims, gen⟩ cfg rng = (sh, .error e) ∧
      ∃ g, gen = some g ∧ (W.generate g D cfg.nInitial (W.seed rng).2).2.2 = .error e) ∨
    (Opt.init (M := M) A W ⟨dims, gen⟩ cfg rng = (⟨D, none⟩, .ok (Opt.fresh A cfg rng none)) ∧ gen = none) ∨
    ∃ g g' pts, Opt.init (M := M) A W ⟨dims, gen⟩ cfg rng =
        (⟨D, some g'⟩, .ok (Opt.fresh A cfg (W.seed rng).1 (some pts))) ∧ gen = some g ∧
      (W.generate g D cfg.nInitial (W.seed rng).2).1 = g' ∧
      (W.generate g D cfg.nInitial (W.seed rng).2).2.2 = .ok pts := by
  have hdims : (if cfg.isGP then Space.setTransformer dims .normalize else .ok dims) = .ok D := by
    rw [← hD]
    split
    · exact setTransformer_normalize _
    · rfl
  have hleg : ∀ d ∈ D, HasLegalTransform d := by
    rw [← hD]; split
    · exact normalized_legal hl
    · exact hl
  unfold Opt.init
  simp only [hdims]
  cases gen with
  | none => exact .inr (.inl ⟨rfl, rfl⟩)
  | some g =>
    have hback := fun pts => hW.returns g D cfg.nInitial (W.seed rng).2 pts hleg
    dsimp only
    obtain ⟨q, hq⟩ : ∃ q, W.generate g D cfg.nInitial (W.seed rng).2 = q := ⟨_, rfl⟩
    rw [hq] at hback ⊢
    obtain ⟨g', D', out⟩ := q
    cases out with
    | error e => exact .inl ⟨_, _, rfl, g, rfl, by rw [hq]⟩
    | ok pts =>
      have e1 := hback pts rfl
      dsimp only at e1
      subst e1
      refine .inr (.inr ⟨g, g', pts, ?_, rfl, by rw [hq], by rw [hq]⟩)
      simp only [set_own_transformers hleg]

omit [LinearOrder F] in
/-- What the constructor of one optimizer returns. -/
theorem makeOptimizer_dims {A : Arith F} {W : World F M R G} (hW : PutsBack W)
    {cfg : Config} {gen : Option G} {space : SearchDict F}
    (hl : ∀ p ∈ space, HasLegalTransform p.2) {rng : R} {sh : Shared F G} {o : Opt F M R}
    (h : makeOptimizer A W cfg gen space rng = .ok (sh, o)) :
    Settled o.cfg sh.dims ∧ dimensionsAslist (mapDict (touch cfg.isGP) space) = .ok sh.dims := by
  simp only [makeOptimizer, bind_eq_ok] at h
  obtain ⟨dims, hd, h⟩ := h
  have hleg : ∀ d ∈ dims, HasLegalTransform d := by
    intro d hd'
    obtain ⟨k, -, hk⟩ := mapE_mem hd hd'
    exact hl _ (dictGet_eq_ok_mem hk)
  obtain ⟨D, hD⟩ : ∃ D, (if cfg.isGP then dims.map Dim.normalized else dims) = D := ⟨_, rfl⟩
  have hlegD : ∀ d ∈ D, HasLegalTransform d := by
    rw [← hD]; split
    · exact normalized_legal hleg
    · exact hleg
  have key : ∀ sh₁ : Shared F G, ∀ o₁ : Opt F M R, Opt.init A W ⟨dims, gen⟩ cfg rng = (sh₁, .ok o₁) →
      sh₁.dims = D ∧ o₁.cfg = cfg := by
    intro sh₁ o₁ hi
    rcases init_legal (A := A) (M := M) hW hleg gen cfg rng hD with ⟨_, _, h', -⟩ | ⟨h', -⟩ | ⟨_, _, _, h', -⟩
    · rw [hi] at h'; cases h'
    · rw [hi] at h'; cases h'; exact ⟨rfl, rfl⟩
    · rw [hi] at h'; cases h'; exact ⟨rfl, rfl⟩
  split at h
  · cases h
  · next sh₁ o₁ hi =>
    obtain ⟨k1, k2⟩ := key _ _ hi
    simp only [Except.ok.injEq, Prod.mk.injEq] at h
    obtain ⟨rfl, rfl⟩ := h
    refine ⟨⟨?_, ?_⟩, ?_⟩
    · rw [k1]; exact orNames_legal hlegD _
    · intro hg
      rw [k2] at hg
      dsimp only
      rw [orNames_normalized, k1, ← hD, if_pos hg, normalized_twice]
    · rw [dimensionsAslist_mapDict, hd, k1, ← hD]
      simp only [Except.map, touch]
      split
      · rw [List.zipWith_map_left]
      · rfl

omit [LinearOrder F] in
/-- The optimizer built from changed dimensions is the same. -/
theorem makeOptimizer_map {A : Arith F} {W : World F M R G} (hW : PutsBack W) (hN : IgnoresNames W)
    {cfg : Config} {gen : Option G} {space : SearchDict F} (hl : ∀ p ∈ space, HasLegalTransform p.2)
    (rng : R) {gp : Bool} (hgp : gp = true → cfg.isGP = true) :
    makeOptimizer (M := M) A W cfg gen (mapDict (touch gp) space) rng =
      makeOptimizer A W cfg gen space rng := by
  simp only [makeOptimizer, dimensionsAslist_mapDict, mapDict_keys]
  cases hd : dimensionsAslist space with
  | error e => rfl
  | ok dims =>
    simp only [Except.map, ok_bind]
    have hlen : dims.length = (sortedKeys space).length := mapE_length hd
    have hleg : ∀ d ∈ dims, HasLegalTransform d := by
      intro d hd'
      obtain ⟨k, -, hk⟩ := mapE_mem hd hd'
      exact hl _ (dictGet_eq_ok_mem hk)
    obtain ⟨D, hD⟩ : ∃ D, (if cfg.isGP then dims.map Dim.normalized else dims) = D := ⟨_, rfl⟩
    obtain ⟨dims₂, hd₂⟩ : ∃ ds, (if gp then dims.map Dim.normalized else dims) = ds := ⟨_, rfl⟩
    have hleg₂ : ∀ d ∈ dims₂, HasLegalTransform d := by
      rw [← hd₂]; split
      · exact normalized_legal hleg
      · exact hleg
    have e2 : List.zipWith (fun d k => touch gp k d) dims (sortedKeys space) =
        List.zipWith Dim.orName dims₂ (sortedKeys space) := by
      rw [← hd₂]
      unfold touch
      split
      · rw [List.zipWith_map_left]
      · rfl
    have hD₂ : (if cfg.isGP then (List.zipWith Dim.orName dims₂ (sortedKeys space)).map Dim.normalized
        else List.zipWith Dim.orName dims₂ (sortedKeys space)) = List.zipWith Dim.orName D (sortedKeys space) := by
      rw [← hD, ← hd₂]
      cases hg : gp with
      | false =>
        simp only [Bool.false_eq_true, if_false]
        split
        · rw [orNames_normalized]
        · rfl
      | true =>
        simp only [hgp hg, if_true]
        rw [orNames_normalized, normalized_twice]
    rw [e2]
    have hDl : D.length = (sortedKeys space).length := by rw [← hD, ← hlen]; split <;> simp
    have hlegD : ∀ d ∈ D, HasLegalTransform d := by
      rw [← hD]; split
      · exact normalized_legal hleg
      · exact hleg
    rcases init_legal (A := A) (M := M) hW hleg gen cfg rng hD with
      ⟨_, e, h1, g, hg, h2⟩ | ⟨h1, hg⟩ | ⟨g, g', pts, h1, hg, h2, h3⟩
    · rcases init_legal (A := A) (M := M) hW (orNames_legal hleg₂ (sortedKeys space)) gen cfg rng hD₂ with
        ⟨_, e', k1, g₂, hg₂, k2⟩ | ⟨k1, hg₂⟩ | ⟨g₂, _, pts, k1, hg₂, k2, k3⟩
      · rw [hg] at hg₂; cases hg₂
        rw [(hN g D _ _ _ hDl hlegD).2, h2] at k2
        cases k2
        rw [h1, k1]
      · rw [hg] at hg₂; cases hg₂
      · rw [hg] at hg₂; cases hg₂
        rw [(hN g D _ _ _ hDl hlegD).2, h2] at k3
        cases k3
    · rcases init_legal (A := A) (M := M) hW (orNames_legal hleg₂ (sortedKeys space)) gen cfg rng hD₂ with
        ⟨_, e', k1, g₂, hg₂, k2⟩ | ⟨k1, hg₂⟩ | ⟨g₂, _, pts, k1, hg₂, k2, k3⟩
      · rw [hg] at hg₂; cases hg₂
      · rw [h1, k1]; simp only [orNames_orNames]
      · rw [hg] at hg₂; cases hg₂
    · rcases init_legal (A := A) (M := M) hW (orNames_legal hleg₂ (sortedKeys space)) gen cfg rng hD₂ with
        ⟨_, e', k1, g₂, hg₂, k2⟩ | ⟨k1, hg₂⟩ | ⟨g₂, _, pts, k1, hg₂, k2, k3⟩
      · rw [hg] at hg₂; cases hg₂
        rw [(hN g D _ _ _ hDl hlegD).2, h3] at k2
        cases k2
      · rw [hg] at hg₂; cases hg₂
      · rw [hg] at hg₂; cases hg₂
        rw [(hN g D _ _ _ hDl hlegD).2, h3] at k3
        rw [(hN g D _ _ _ hDl hlegD).1, h2] at k2
        cases k3
        rw [h1, k1, k2]; simp only [orNames_orNames]

omit [LinearOrder F] in
theorem makeOptimizers_dims {A : Arith F} {W : World F M R G} (hW : PutsBack W)
    {cfg : Config} {gen : Option G} {es : List (SearchElem F)}
    (hl : ∀ e ∈ es, ∀ p ∈ e.space, HasLegalTransform p.2)
    {rng rng' : R} {os : List (SearchElem F × Shared F G × Opt F M R)}
    (h : makeOptimizers A W cfg gen es rng = .ok (os, rng')) :
    (∀ q ∈ os, Settled q.2.2.cfg q.2.1.dims) ∧
    List.Forall₂ (fun e q => dimensionsAslist (mapDict (touch cfg.isGP) e.space) = .ok q.2.1.dims) es os := by
  induction es generalizing rng os rng' with
  | nil =>
    simp only [makeOptimizers, Except.ok.injEq, Prod.mk.injEq] at h
    obtain ⟨rfl, rfl⟩ := h
    exact ⟨by simp, .nil⟩
  | cons e es ih =>
    simp only [makeOptimizers, bind_eq_ok, Except.ok.injEq, Prod.mk.injEq] at h
    obtain ⟨⟨sh, o⟩, h1, ⟨rest, rng₁⟩, h2, rfl, rfl⟩ := h
    obtain ⟨g1, g2⟩ := ih (fun e he => hl e (List.mem_cons_of_mem _ he)) h2
    obtain ⟨k1, k2⟩ := makeOptimizer_dims hW (hl e List.mem_cons_self) h1
    refine ⟨?_, .cons k2 g2⟩
    intro q hq
    rcases List.mem_cons.1 hq with rfl | hq
    · exact k1
    · exact g1 q hq

omit [LinearOrder F] in
theorem makeOptimizers_map {A : Arith F} {W : World F M R G} (hW : PutsBack W) (hN : IgnoresNames W)
    {cfg : Config} {gen : Option G} {es : List (SearchElem F)}
    (hl : ∀ e ∈ es, ∀ p ∈ e.space, HasLegalTransform p.2) (rng : R) {gp : Bool}
    (hgp : gp = true → cfg.isGP = true) :
    makeOptimizers (M := M) A W cfg gen (es.map (mapElem (touch gp))) rng =
      (makeOptimizers A W cfg gen es rng).map fun q => (q.1.map fun q => (mapElem (touch gp) q.1, q.2), q.2) := by
  induction es generalizing rng with
  | nil => rfl
  | cons e es ih =>
    have h2 : (mapElem (touch gp) e).space = mapDict (touch gp) e.space := by cases e <;> rfl
    simp only [List.map_cons, makeOptimizers, h2, makeOptimizer_map hW hN (hl e List.mem_cons_self) rng hgp]
    cases makeOptimizer (M := M) A W cfg gen e.space rng with
    | error e => rfl
    | ok so =>
      obtain ⟨sh, o⟩ := so
      simp only [ok_bind, ih (fun e he => hl e (List.mem_cons_of_mem _ he))]
      cases makeOptimizers (M := M) A W cfg gen es o.rng with
      | error e => rfl
      | ok q => rfl

end

end Skopt

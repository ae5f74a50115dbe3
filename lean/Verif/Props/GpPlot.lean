import Verif.Model.GpPlot
import Verif.Props.OptimizerCopy
import Verif.Props.PartialDependence
import Verif.Props.Acquisition
import Verif.Props.ExpectedMinimum
import Verif.Props.PairPlots

/-!
# C79: which observations a surrogate was fitted to, and what `plot_gaussian_process` shows
-/

namespace Skopt

variable {F M R G : Type}

/-! ## Specification -/

/-- `m` is a surrogate fitted to the first `n` observations. -/
def FittedTo [LinearOrder F] (A : Arith F) (W : World F M R G) (dims : List (Dim F)) (Xi : List (Val F))
    (yi : List (YArg F)) (n : Nat) (m : M) : Prop :=
  n ≤ yi.length ∧ ∃ rng Xt, Space.transform A dims ((Xi.take n).map Val.items) = .ok Xt ∧
    (W.fit rng Xt (yi.take n)).2 = .ok m

/-- A call of the usual loop: `ask()`, `get_result()`, or `tell` of one point. -/
def OneByOne (op : Op F) : Prop :=
  op = .ask ∨ op = .getResult ∨ ∃ xs y, op = .tell (.lst xs) y true ∧ is2D xs = false

/-- A call that may come first: as above, or a `tell` with as many values as points. -/
def FirstCall (op : Op F) : Prop :=
  OneByOne op ∨ ∃ xs y fit, op = .tell (.lst xs) y fit ∧ (is2D xs = true → y.items.length = xs.length)

/-! ## Helpers -/

section
variable [LinearOrder F]

theorem refit_pushes {A : Arith F} {W : World F M R G} {dims : List (Dim F)} {u : Opt F M R}
    (h : (refit A W dims u).2 = .ok ()) :
    ∃ Xt m, Space.transform A dims (u.Xi.map Val.items) = .ok Xt ∧ (W.fit u.rng Xt u.yi).2 = .ok m ∧
      pushModel u.cfg.queueSize u.models m = .ok (refit A W dims u).1.models := by
  unfold refit at h ⊢
  split at h
  · cases h
  · next Xt hXt =>
    dsimp only at h
    split at h
    · cases h
    · next est hest =>
      split at h
      · cases h
      · next g hg =>
        split at h
        · cases h
        · next ms hms =>
          refine ⟨Xt, est, hXt, hest, ?_⟩
          simp only [hest, hg, hms]
          rw [(suggest_frame A W dims est _).2.1]

/-- The property of the listed models that is kept. -/
structure ModelsInv (A : Arith F) (W : World F M R G) (dims : List (Dim F)) (s : Opt F M R) : Prop where
  aligned : s.Xi.length = s.yi.length
  started : s.models ≠ [] → s.nInit ≤ 0 ∧ s.cfg.hasEst = true
  fitted : ∀ (k : Nat) (m : M), s.models[k]? = some m →
    ∃ n, n + s.models.length = s.yi.length + 1 + k ∧ FittedTo A W dims s.Xi s.yi n m

theorem FittedTo.extend {A : Arith F} {W : World F M R G} {dims : List (Dim F)} {Xi : List (Val F)} {yi : List (YArg F)}
    {n : Nat} {m : M} (ha : Xi.length = yi.length) (h : FittedTo A W dims Xi yi n m) (xs : List (Val F))
    (ys : List (YArg F)) : FittedTo A W dims (Xi ++ xs) (yi ++ ys) n m := by
  obtain ⟨h1, rng, Xt, h2, h3⟩ := h
  refine ⟨by rw [List.length_append]; omega, rng, Xt, ?_, ?_⟩
  · rw [List.take_append_of_le_length (by omega)]; exact h2
  · rw [List.take_append_of_le_length h1]; exact h3

/-- What a `tell` that returns does: it records, and fits at most one model. -/
theorem tell_models {A : Arith F} {W : World F M R G} {dims : List (Dim F)} {s : Opt F M R} {x : XArg F} {y : YArg F}
    {fit : Bool} {r : Result F M} (h : (tell A W dims s x y fit).2 = .ok r) :
    let t := (tell A W dims s x y fit).1
    ∃ y' u, takeLogs W s.cfg.acq x y = .ok y' ∧ record s x y' = .ok u ∧ t.cfg = s.cfg ∧ t.Xi = u.Xi ∧ t.yi = u.yi ∧
      t.nInit = u.nInit ∧
      ((fit = true ∧ u.nInit ≤ 0 ∧ s.cfg.hasEst = true ∧
          ∃ m, pushModel s.cfg.queueSize s.models m = .ok t.models ∧
            ∃ Xt, Space.transform A dims (t.Xi.map Val.items) = .ok Xt ∧ ∃ rng, (W.fit rng Xt t.yi).2 = .ok m) ∨
       (¬ (fit = true ∧ u.nInit ≤ 0 ∧ s.cfg.hasEst = true) ∧ t.models = s.models)) := by
  rcases tell_cases A W dims s x y fit with ⟨e, he⟩ | ⟨y', _, _, hy', he⟩
  · rw [he] at h; cases h
  · rw [he] at h ⊢
    rcases tellCore_cases A W dims s x y' fit with ⟨e, _, h3⟩ | ⟨u, hu, h3⟩
    · rw [h3] at h; cases h
    · obtain ⟨r1, r2, r3, _, _, r6, r7, _, xs', ys', _, r8, r9⟩ := record_frame hu
      have hf := tellCore_frame A W dims s x y' fit hu
      refine ⟨y', u, hy', hu, hf.1.trans r1, hf.4, hf.5, hf.2, ?_⟩
      rcases h3 with ⟨a1, a2, a3, h7, h8⟩ | ⟨h4, h5⟩
      · refine Or.inl ⟨a1, a2, r1 ▸ a3, ?_⟩
        rcases h8 with ⟨e, _, h9⟩ | ⟨h9, _⟩
        · rw [h9] at h; cases h
        · obtain ⟨Xt, m, g1, g2, g3⟩ := refit_pushes h9
          refine ⟨m, ?_, Xt, ?_, u.rng, ?_⟩
          · rw [h7, ← r1, ← r3]; exact g3
          · rw [hf.4]; exact g1
          · rw [hf.5]; exact g2
      · refine Or.inr ⟨fun hh => h4 ⟨hh.1, hh.2.1, r1 ▸ hh.2.2⟩, ?_⟩
        rw [h5]; exact r3

theorem pushModel_get {q : Option ℤ} {ms ms' : List M} {m : M} (h : pushModel q ms m = .ok ms') :
    (ms' = ms ++ [m]) ∨ ∃ a rest, ms = a :: rest ∧ ms' = rest ++ [m] := by
  unfold pushModel at h
  split at h
  · exact Or.inl (Except.ok.inj h).symm
  · split at h
    · exact Or.inl (Except.ok.inj h).symm
    · split at h
      · cases h
      · exact Or.inr ⟨_, _, rfl, (Except.ok.inj h).symm⟩

/-- A model pushed after one more observation. -/
theorem ModelsInv.push {A : Arith F} {W : World F M R G} {dims : List (Dim F)} {s t : Opt F M R}
    (hs : ModelsInv A W dims s) {m : M} (hp : pushModel s.cfg.queueSize s.models m = .ok t.models)
    {Xt : List (List (Val F))} (hX : Space.transform A dims (t.Xi.map Val.items) = .ok Xt) {rng : R}
    (hm : (W.fit rng Xt t.yi).2 = .ok m) (hn : t.nInit ≤ 0) (he : t.cfg.hasEst = true)
    (ha : t.Xi.length = t.yi.length)
    (hadd : s.models = [] ∨ ∃ v y, t.Xi = s.Xi ++ [v] ∧ t.yi = s.yi ++ [y]) : ModelsInv A W dims t := by
  have hlast : FittedTo A W dims t.Xi t.yi t.yi.length m := by
    refine ⟨le_refl _, rng, Xt, ?_, ?_⟩
    · rw [← ha, List.take_length]; exact hX
    · rw [List.take_length]; exact hm
  refine ⟨ha, fun _ => ⟨hn, he⟩, fun k m' hk => ?_⟩
  -- the new list is the old one without its first `j` entries and the new model
  have hform : ∃ j, t.models = s.models.drop j ++ [m] ∧ j ≤ s.models.length := by
    rcases pushModel_get hp with h | ⟨a, rest, h1, h2⟩
    · exact ⟨0, by simpa using h, Nat.zero_le _⟩
    · exact ⟨1, by rw [h1, h2]; rfl, by rw [h1]; simp⟩
  obtain ⟨j, hj, hjl⟩ := hform
  rw [hj] at hk ⊢
  rcases Nat.lt_or_ge k (s.models.drop j).length with hlt | hge
  · rw [List.getElem?_append_left hlt, List.getElem?_drop] at hk
    rcases hadd with h0 | ⟨v, y, e1, e2⟩
    · rw [h0] at hk; simp at hk
    · obtain ⟨n, hn', hf⟩ := hs.fitted (j + k) m' hk
      refine ⟨n, ?_, ?_⟩
      · rw [e2]
        simp only [List.length_append, List.length_drop, List.length_singleton] at hlt ⊢
        omega
      · rw [e1, e2]; exact hf.extend hs.aligned _ _
  · rw [List.getElem?_append_right hge] at hk
    have hk0 : k - (s.models.drop j).length = 0 := by
      by_contra hne
      rw [List.getElem?_eq_none (by simp only [List.length_singleton]; omega)] at hk
      cases hk
    rw [hk0] at hk
    have : m' = m := by simpa using hk.symm
    subst this
    exact ⟨t.yi.length, by rw [List.length_append]; simp only [List.length_singleton]; omega, hlast⟩

theorem tell_inv_first {A : Arith F} {W : World F M R G} {dims : List (Dim F)} {s : Opt F M R}
    (hs : ModelsInv A W dims s) (h0 : s.models = []) {xs : List (Val F)} {y : YArg F} {fit : Bool}
    (hlen : is2D xs = true → y.items.length = xs.length) {r : Result F M}
    (h : (tell A W dims s (.lst xs) y fit).2 = .ok r) : ModelsInv A W dims (tell A W dims s (.lst xs) y fit).1 := by
  obtain ⟨y', u, hy', hu, c1, c2, c3, c4, h5⟩ := tell_models h
  have ha : u.Xi.length = u.yi.length := by
    have hl' : is2D xs = true → y'.items.length = xs.length := by
      intro h2
      unfold takeLogs at hy'
      simp only at hy'
      split at hy'
      · simp only [bind_eq_ok] at hy'
        obtain ⟨ys, g1, g2⟩ := hy'
        cases g2
        rw [← hlen h2, ← mapE_length g1]
        rfl
      · cases hy'; exact hlen h2
    unfold record at hu
    simp only at hu
    split at hu
    · split at hu
      · next h2 => cases hu; simp only [record.batch, List.length_append, hs.aligned, hl' h2]
      · cases hu; simp only [record.single, List.length_append, hs.aligned]; rfl
    · split at hu
      · next h2 =>
        simp only [Bool.and_eq_true] at h2
        cases hu; simp only [record.batch, List.length_append, hs.aligned, hl' h2.2]
      · cases hu; simp only [record.single, List.length_append, hs.aligned]; rfl
  rcases h5 with ⟨_, b2, b3, m, b4, Xt, b5, rng, b6⟩ | ⟨_, b1⟩
  · exact hs.push b4 b5 b6 (c4 ▸ b2) (c1 ▸ b3) (by rw [c2, c3]; exact ha) (Or.inl h0)
  · exact ⟨by rw [c2, c3]; exact ha, fun hne => absurd (b1.trans h0) hne, fun k m hk => by
      rw [b1, h0] at hk; cases hk⟩

theorem tell_inv_one {A : Arith F} {W : World F M R G} {dims : List (Dim F)} {s : Opt F M R}
    (hs : ModelsInv A W dims s) {xs : List (Val F)} {y : YArg F} (h2 : is2D xs = false) {r : Result F M}
    (h : (tell A W dims s (.lst xs) y true).2 = .ok r) : ModelsInv A W dims (tell A W dims s (.lst xs) y true).1 := by
  obtain ⟨y', u, hy', hu, c1, c2, c3, c4, h5⟩ := tell_models h
  have hu' : u = record.single s xs y' := by
    unfold record at hu
    simp only [h2, Bool.and_false, Bool.false_eq_true, if_false] at hu
    split at hu <;> exact (Except.ok.inj hu).symm
  have ha : u.Xi.length = u.yi.length := by
    rw [hu']; simp only [record.single, List.length_append, hs.aligned]; rfl
  have e1 : u.Xi = s.Xi ++ [.seq xs] := by rw [hu']; rfl
  have e2 : u.yi = s.yi ++ [y'] := by rw [hu']; rfl
  rcases h5 with ⟨_, b2, b3, m, b4, Xt, b5, rng, b6⟩ | ⟨b0, b1⟩
  · exact hs.push b4 b5 b6 (c4 ▸ b2) (c1 ▸ b3) (by rw [c2, c3]; exact ha)
      (Or.inr ⟨_, _, c2.trans e1, c3.trans e2⟩)
  · have hnone : s.models = [] := by
      by_contra hne
      obtain ⟨g1, g2⟩ := hs.started hne
      refine b0 ⟨rfl, ?_, g2⟩
      rw [hu']; simp only [record.single]; omega
    exact ⟨by rw [c2, c3]; exact ha, fun hne => absurd (b1.trans hnone) hne, fun k m hk => by
      rw [b1, hnone] at hk; cases hk⟩

theorem step_one {A : Arith F} {W : World F M R G} {sh : Shared F G} {s : Opt F M R} {op : Op F} (hop : OneByOne op)
    (hs : ModelsInv A W sh.dims s) (hr : (∃ x y fit, op = .tell x y fit) → Returns (step A W sh s op).2.2) :
    (step A W sh s op).1 = sh ∧ ModelsInv A W sh.dims (step A W sh s op).2.1 := by
  rcases hop with rfl | rfl | ⟨xs, y, rfl, h2⟩
  · refine ⟨rfl, ?_⟩
    obtain ⟨r, e⟩ := askOne_frame A W sh.dims s
    simp only [step, e]
    exact ⟨hs.1, hs.2, hs.3⟩
  · exact ⟨rfl, hs⟩
  · refine ⟨rfl, ?_⟩
    obtain ⟨out, ho⟩ := hr ⟨_, _, _, rfl⟩
    simp only [step, bind_eq_ok] at ho ⊢
    obtain ⟨r, hr', _⟩ := ho
    exact tell_inv_one hs h2 hr'

theorem step_first {A : Arith F} {W : World F M R G} {sh : Shared F G} {s : Opt F M R} {op : Op F} (hop : FirstCall op)
    (hs : ModelsInv A W sh.dims s) (h0 : s.models = [])
    (hr : (∃ x y fit, op = .tell x y fit) → Returns (step A W sh s op).2.2) :
    (step A W sh s op).1 = sh ∧ ModelsInv A W sh.dims (step A W sh s op).2.1 := by
  rcases hop with hop | ⟨xs, y, fit, rfl, hl⟩
  · exact step_one hop hs hr
  · refine ⟨rfl, ?_⟩
    obtain ⟨out, ho⟩ := hr ⟨_, _, _, rfl⟩
    simp only [step, bind_eq_ok] at ho ⊢
    obtain ⟨r, hr', _⟩ := ho
    exact tell_inv_first hs h0 hl hr'

theorem runOps_inv {A : Arith F} {W : World F M R G} {sh : Shared F G} (ops : List (Op F)) :
    ∀ s : Opt F M R, (∀ op ∈ ops, OneByOne op) → ModelsInv A W sh.dims s →
      (∀ q ∈ ops.zip (runOps A W sh s ops).2.2, (∃ x y fit, q.1 = .tell x y fit) → Returns q.2) →
      ModelsInv A W sh.dims (runOps A W sh s ops).2.1 := by
  induction ops with
  | nil => intro s _ h _; exact h
  | cons op ops ih =>
    intro s hop hs hr
    have h1 := step_one (hop op List.mem_cons_self) hs fun ht => hr (op, _) List.mem_cons_self ht
    have hr' : ∀ q ∈ ops.zip (runOps A W (step A W sh s op).1 (step A W sh s op).2.1 ops).2.2,
        (∃ x y fit, q.1 = .tell x y fit) → Returns q.2 := fun q hq => hr q (List.mem_cons_of_mem _ hq)
    show ModelsInv A W sh.dims (runOps A W (step A W sh s op).1 (step A W sh s op).2.1 ops).2.1
    rw [h1.1] at hr' ⊢
    exact ih _ (fun o ho => hop o (List.mem_cons_of_mem _ ho)) h1.2 hr'

end

/-! ## C79: the listed surrogates -/

/-- **C79 (surrogates).** Points told one by one to a new optimizer (the first call may be a batch), every `tell`
returning, asks in between: the `k`-th of the `M` listed surrogates was fitted to exactly the first `N - M + 1 + k` of the
`N` observations; in particular the last one was fitted to all.  With or without a limit on the number of models. -/
theorem C79_models_fitted_to_prefixes [LinearOrder F] (A : Arith F) (W : World F M R G) (sh : Shared F G) (cfg : Config)
    (rng : R) (pts : Option (List (Point F))) (first : Op F) (ops : List (Op F)) (hfirst : FirstCall first)
    (hops : ∀ op ∈ ops, OneByOne op)
    (hok : ∀ q ∈ (first :: ops).zip (runOps A W sh (Opt.fresh A cfg rng pts : Opt F M R) (first :: ops)).2.2,
      (∃ x y fit, q.1 = .tell x y fit) → Returns q.2) :
    let t := (runOps A W sh (Opt.fresh A cfg rng pts : Opt F M R) (first :: ops)).2.1
    t.Xi.length = t.yi.length ∧ ∀ (k : Nat) (m : M), t.models[k]? = some m →
      ∃ n, n + t.models.length = t.yi.length + 1 + k ∧ FittedTo A W sh.dims t.Xi t.yi n m := by
  have h0 : ModelsInv A W sh.dims (Opt.fresh A cfg rng pts : Opt F M R) :=
    ⟨rfl, fun h => absurd rfl h, fun k m hk => by cases hk⟩
  have h1 := step_first hfirst h0 rfl fun ht => hok (first, _) List.mem_cons_self ht
  have hok' : ∀ q ∈ ops.zip (runOps A W (step A W sh (Opt.fresh A cfg rng pts : Opt F M R) first).1
      (step A W sh (Opt.fresh A cfg rng pts : Opt F M R) first).2.1 ops).2.2,
      (∃ x y fit, q.1 = .tell x y fit) → Returns q.2 := fun q hq => hok q (List.mem_cons_of_mem _ hq)
  rw [h1.1] at hok'
  have h2 := runOps_inv ops _ hops h1.2 hok'
  have e : (runOps A W sh (Opt.fresh A cfg rng pts : Opt F M R) (first :: ops)).2.1 =
      (runOps A W sh (step A W sh (Opt.fresh A cfg rng pts : Opt F M R) first).2.1 ops).2.1 := by
    show (runOps A W (step A W sh (Opt.fresh A cfg rng pts : Opt F M R) first).1
      (step A W sh (Opt.fresh A cfg rng pts : Opt F M R) first).2.1 ops).2.1 = _
    rw [h1.1]
  intro t
  have ht : t = (runOps A W sh (step A W sh (Opt.fresh A cfg rng pts : Opt F M R) first).2.1 ops).2.1 := e
  rw [ht]
  exact ⟨h2.aligned, h2.fitted⟩

/-- Four tells, three of them fitting: the surrogates of this world are the numbers of observations they were fitted to. -/
example :
    let ops : List (Op ℚ) := [.ask, .tell (.lst [.num 2]) (.num (.fin 5)) true, .tell (.lst [.num 2]) (.num (.fin 5)) true,
      .getResult, .tell (.lst [.num 2]) (.num (.fin 5)) true]
    let run := runOps ratArith okWorld toyShared (toyOpt .EI) (.tell (.lst [.num 1]) (.num (.fin 3)) true :: ops)
    FirstCall (.tell (.lst [.num 1]) (.num (.fin 3)) true : Op ℚ) ∧ (∀ op ∈ ops, OneByOne op) ∧
    (∀ r ∈ run.2.2, Returns r) ∧ run.2.1.models = [2, 3, 4] ∧ run.2.1.yi.length = 4 := by
  refine ⟨Or.inl (Or.inr (Or.inr ⟨_, _, rfl, rfl⟩)), ?_, ?_, by decide +kernel, by decide +kernel⟩
  · intro op hop
    simp only [List.mem_cons, List.not_mem_nil, or_false] at hop
    rcases hop with rfl | rfl | rfl | rfl | rfl
    · exact Or.inl rfl
    · exact Or.inr (Or.inr ⟨_, _, rfl, rfl⟩)
    · exact Or.inr (Or.inr ⟨_, _, rfl, rfl⟩)
    · exact Or.inr (Or.inl rfl)
    · exact Or.inr (Or.inr ⟨_, _, rfl, rfl⟩)
  · have : ∀ r : Except PyErr (Out ℚ Nat), (match r with | .ok _ => true | .error _ => false) = true → Returns r := by
      intro r h
      cases r with
      | ok a => exact ⟨a, rfl⟩
      | error e => cases h
    intro r hr
    refine this r ?_
    revert r
    rw [← List.all_eq_true]
    decide +kernel

/-! ## C79: the data shown -/

theorem pyPrefix_nat {α : Type} (xs : List α) (n : Nat) : pyPrefix xs (n : ℤ) = xs.take n := by
  unfold pyPrefix
  rw [if_pos (by omega), Int.toNat_natCast]

/-- **C79 (default view).** By default (`n_calls = -1`) the surrogate shown is the last one and all observations are shown:
those it was fitted to. -/
theorem C79_default_view [LinearOrder F] (A : Arith F) (W : World F M R G) (sh : Shared F G) (cfg : Config)
    (rng : R) (pts : Option (List (Point F))) (first : Op F) (ops : List (Op F)) (hfirst : FirstCall first)
    (hops : ∀ op ∈ ops, OneByOne op)
    (hok : ∀ q ∈ (first :: ops).zip (runOps A W sh (Opt.fresh A cfg rng pts : Opt F M R) (first :: ops)).2.2,
      (∃ x y fit, q.1 = .tell x y fit) → Returns q.2) (vals : List F) (nRandom : Option ℤ) (nCalls : ℤ) (hneg : nCalls < 0)
    (m : M) (xs : List (Val F)) (ys : List F) :
    let t := (runOps A W sh (Opt.fresh A cfg rng pts : Opt F M R) (first :: ops)).2.1
    gpPlotData nRandom nCalls t.models t.Xi vals = .ok (m, xs, ys) →
      xs = t.Xi ∧ ys = vals ∧ FittedTo A W sh.dims t.Xi t.yi xs.length m := by
  intro t h
  obtain ⟨h1, h2⟩ := C79_models_fitted_to_prefixes A W sh cfg rng pts first ops hfirst hops hok
  unfold gpPlotData at h
  rw [if_pos hneg] at h
  simp only [bind_eq_ok, pyGetI_last, Except.ok.injEq, Prod.mk.injEq] at h
  obtain ⟨m', hl, rfl, rfl, rfl⟩ := h
  refine ⟨rfl, rfl, ?_⟩
  rw [List.getLast?_eq_getElem?] at hl
  obtain ⟨n, hn, hf⟩ := h2 _ _ hl
  have hpos := (List.getElem?_eq_some_iff.1 hl).1
  have : n = t.Xi.length := by
    have h1' : t.Xi.length = t.yi.length := h1
    have hn' : n + t.models.length = t.yi.length + 1 + (t.models.length - 1) := hn
    omega
  rw [← this]
  exact hf

/-- What `n_calls = k ≥ 0` shows if the call specifications do not contain `n_random_starts` (the default): the `k`-th
surrogate, and one observation less than it was fitted to. -/
theorem C79_earlier_view [LinearOrder F] (A : Arith F) (W : World F M R G) (sh : Shared F G) (cfg : Config)
    (rng : R) (pts : Option (List (Point F))) (first : Op F) (ops : List (Op F)) (hfirst : FirstCall first)
    (hops : ∀ op ∈ ops, OneByOne op)
    (hok : ∀ q ∈ (first :: ops).zip (runOps A W sh (Opt.fresh A cfg rng pts : Opt F M R) (first :: ops)).2.2,
      (∃ x y fit, q.1 = .tell x y fit) → Returns q.2) (vals : List F) (k : Nat)
    (m : M) (xs : List (Val F)) (ys : List F) :
    let t := (runOps A W sh (Opt.fresh A cfg rng pts : Opt F M R) (first :: ops)).2.1
    t.models.length ≤ t.yi.length →
    gpPlotData none k t.models t.Xi vals = .ok (m, xs, ys) →
      ∃ n, FittedTo A W sh.dims t.Xi t.yi (n + 1) m ∧ xs = t.Xi.take n ∧ xs.length = n ∧ ys = vals.take n := by
  intro t hle h
  obtain ⟨h1, h2⟩ := C79_models_fitted_to_prefixes A W sh cfg rng pts first ops hfirst hops hok
  unfold gpPlotData at h
  rw [if_neg (by omega)] at h
  simp only [bind_eq_ok, pyGetI_nat, Except.ok.injEq, Prod.mk.injEq, gpPlotRandom] at h
  obtain ⟨m', hm, rfl, h3, h4⟩ := h
  obtain ⟨n, hn, hf⟩ := h2 _ _ hm
  have h1' : t.Xi.length = t.yi.length := h1
  have hn' : n + t.models.length = t.yi.length + 1 + k := hn
  have hN : n ≤ t.yi.length := hf.1
  have e : (t.Xi.length : ℤ) - t.models.length + k = ((n - 1 : ℕ) : ℤ) := by omega
  have e' : n - 1 + 1 = n := by omega
  rw [e, pyPrefix_nat] at h3 h4
  refine ⟨n - 1, by rw [e']; exact hf, h3.symm, ?_, h4.symm⟩
  rw [← h3, List.length_take]
  omega

/-- **C79 refuted (earlier view).** Four observations with `n_initial_points = 2`; `plot_gaussian_process(res, n_calls=1)`
shows the second surrogate, which was fitted to three observations (and, in this world, could not have been fitted to
two), but only two observations, without the one that the surrogate had learnt last.  By `C79_earlier_view` this is so for
every run and every `n_calls ≥ 0`: `n_random = len(res.x_iters) - len(res.models)` is one less than the number of
observations of the first surrogate (plots.py:187-200). -/
theorem C79_refuted_earlier_view :
    let run := runOps ratArith okWorld toyShared (toyOpt .EI) [.tell (.lst [.num 1]) (.num (.fin 3)) true,
      .tell (.lst [.num 2]) (.num (.fin 5)) true, .tell (.lst [.num 4]) (.num (.fin 6)) true,
      .tell (.lst [.num 7]) (.num (.fin 8)) true]
    let t := run.2.1
    gpPlotData none 1 t.models t.Xi [3, 5, 6, 8] = .ok (3, [.seq [.num 1], .seq [.num 2]], [3, 5]) ∧
    FittedTo ratArith okWorld toyShared.dims t.Xi t.yi 3 3 ∧ ¬ FittedTo ratArith okWorld toyShared.dims t.Xi t.yi 2 3 := by
  intro run t
  have hX : t.Xi = [.seq [.num 1], .seq [.num 2], .seq [.num 4], .seq [.num 7]] := by decide +kernel
  have hy : t.yi = [.num (.fin 3), .num (.fin 5), .num (.fin 6), .num (.fin 8)] := by decide +kernel
  refine ⟨by decide +kernel, ?_, ?_⟩
  · rw [hX, hy]
    refine ⟨by decide, 0, [[.num (1 / 10)], [.num (2 / 10)], [.num (4 / 10)]], by decide +kernel, rfl⟩
  · rw [hX, hy]
    rintro ⟨_, rng, Xt, _, h⟩
    have h' : (Except.ok 2 : Except PyErr Nat) = .ok 3 := h
    cases h'

section
variable [LinearOrder F]

/-- Number of models when points are told one by one and all models are kept. -/
structure CountInv (s : Opt F M R) : Prop where
  left : s.nInit = s.cfg.nInitial - s.yi.length
  before : (s.yi.length : ℤ) < s.cfg.nInitial → s.models = []
  after : s.cfg.nInitial ≤ s.yi.length → (s.models.length : ℤ) + s.cfg.nInitial = s.yi.length + 1

theorem step_modelCount {A : Arith F} {W : World F M R G} {sh : Shared F G} {s : Opt F M R} {op : Op F} (hop : OneByOne op)
    (hq : s.cfg.queueSize = none) (he : s.cfg.hasEst = true) (hs : CountInv s)
    (hr : (∃ x y fit, op = .tell x y fit) → Returns (step A W sh s op).2.2) :
    (step A W sh s op).1 = sh ∧ CountInv (step A W sh s op).2.1 ∧ (step A W sh s op).2.1.cfg = s.cfg := by
  rcases hop with rfl | rfl | ⟨xs, y, rfl, h2⟩
  · obtain ⟨r, e⟩ := askOne_frame A W sh.dims s
    simp only [step, e]
    exact ⟨trivial, ⟨hs.1, hs.2, hs.3⟩, trivial⟩
  · exact ⟨rfl, hs, rfl⟩
  · obtain ⟨out, ho⟩ := hr ⟨_, _, _, rfl⟩
    simp only [step, bind_eq_ok] at ho ⊢
    obtain ⟨r, h, _⟩ := ho
    obtain ⟨y', u, hy', hu, c1, c2, c3, c4, h5⟩ := tell_models h
    have hu' : u = record.single s xs y' := by
      unfold record at hu
      simp only [h2, Bool.and_false, Bool.false_eq_true, if_false] at hu
      split at hu <;> exact (Except.ok.inj hu).symm
    have e2 : u.yi = s.yi ++ [y'] := by rw [hu']; rfl
    have e3 : u.nInit = s.nInit - 1 := by rw [hu']; rfl
    have hl := hs.left
    refine ⟨trivial, ?_, c1⟩
    have hlen : (tell A W sh.dims s (.lst xs) y true).1.yi.length = s.yi.length + 1 := by
      rw [c3, e2, List.length_append]; rfl
    rcases h5 with ⟨_, b2, b3, m, b4, -⟩ | ⟨b0, b1⟩
    · rw [hq] at b4
      have hm := pushModel_none b4
      refine ⟨?_, ?_, ?_⟩
      · rw [c4, c1, hlen, e3]; push_cast; omega
      · rw [c1, hlen]; push_cast; intro hlt; omega
      · rw [c1, hlen, hm, List.length_append]
        push_cast
        intro _
        by_cases hb : (s.yi.length : ℤ) < s.cfg.nInitial
        · rw [hs.before hb]; simp; omega
        · have := hs.after (by omega)
          simp; omega
    · have hpos : 0 < u.nInit := by
        by_contra hn
        exact b0 ⟨rfl, by omega, he⟩
      refine ⟨?_, ?_, ?_⟩
      · rw [c4, c1, hlen, e3]; push_cast; omega
      · intro _
        rw [b1]
        exact hs.before (by omega)
      · rw [c1, hlen]; push_cast; intro hle; omega

theorem runOps_modelCount {A : Arith F} {W : World F M R G} {sh : Shared F G} (ops : List (Op F)) :
    ∀ s : Opt F M R, (∀ op ∈ ops, OneByOne op) → s.cfg.queueSize = none → s.cfg.hasEst = true → CountInv s →
      (∀ q ∈ ops.zip (runOps A W sh s ops).2.2, (∃ x y fit, q.1 = .tell x y fit) → Returns q.2) →
      CountInv (runOps A W sh s ops).2.1 ∧ (runOps A W sh s ops).2.1.cfg = s.cfg := by
  induction ops with
  | nil => intro s _ _ _ h _; exact ⟨h, rfl⟩
  | cons op ops ih =>
    intro s hop hq he hs hr
    have h1 := step_modelCount (hop op List.mem_cons_self) hq he hs fun ht => hr (op, _) List.mem_cons_self ht
    have hr' : ∀ q ∈ ops.zip (runOps A W (step A W sh s op).1 (step A W sh s op).2.1 ops).2.2,
        (∃ x y fit, q.1 = .tell x y fit) → Returns q.2 := fun q hq => hr q (List.mem_cons_of_mem _ hq)
    show CountInv (runOps A W (step A W sh s op).1 (step A W sh s op).2.1 ops).2.1 ∧
      (runOps A W (step A W sh s op).1 (step A W sh s op).2.1 ops).2.1.cfg = s.cfg
    rw [h1.1] at hr' ⊢
    obtain ⟨i1, i2⟩ := ih _ (fun o ho => hop o (List.mem_cons_of_mem _ ho)) (by rw [h1.2.2]; exact hq)
      (by rw [h1.2.2]; exact he) h1.2.1 hr'
    exact ⟨i1, i2.trans h1.2.2⟩

end

/-- **C79 (earlier view).** If the call specifications contain `n_random_starts`, if all points were told one by one and all
models are kept, `n_calls = k ≥ 0` shows the `k`-th surrogate with the observations it was fitted to.  Missing: the
default, see `C79_refuted_earlier_view`. -/
theorem C79_earlier_view_partial [LinearOrder F] (A : Arith F) (W : World F M R G) (sh : Shared F G) (cfg : Config)
    (hq : cfg.queueSize = none) (he : cfg.hasEst = true) (hpos : 0 < cfg.nInitial) (rng : R)
    (pts : Option (List (Point F))) (op : Op F) (ops : List (Op F)) (hops : ∀ o ∈ op :: ops, OneByOne o)
    (hok : ∀ q ∈ (op :: ops).zip (runOps A W sh (Opt.fresh A cfg rng pts : Opt F M R) (op :: ops)).2.2,
      (∃ x y fit, q.1 = .tell x y fit) → Returns q.2) (vals : List F) (k : Nat) (m : M) (xs : List (Val F)) (ys : List F) :
    let t := (runOps A W sh (Opt.fresh A cfg rng pts : Opt F M R) (op :: ops)).2.1
    gpPlotData (some cfg.nInitial) k t.models t.Xi vals = .ok (m, xs, ys) →
      ∃ n, FittedTo A W sh.dims t.Xi t.yi n m ∧ xs = t.Xi.take n ∧ xs.length = n ∧ ys = vals.take n := by
  intro t h
  obtain ⟨h1, h2⟩ := C79_models_fitted_to_prefixes A W sh cfg rng pts op ops (Or.inl (hops op List.mem_cons_self))
    (fun o ho => hops o (List.mem_cons_of_mem _ ho)) hok
  have hfresh : CountInv (Opt.fresh A cfg rng pts : Opt F M R) := by
    refine ⟨by simp [Opt.fresh], fun _ => rfl, fun h => ?_⟩
    have h' : cfg.nInitial ≤ 0 := by simpa [Opt.fresh] using h
    omega
  obtain ⟨c1, c2⟩ := runOps_modelCount (A := A) (W := W) (sh := sh) (op :: ops) _ hops hq he hfresh hok
  unfold gpPlotData at h
  rw [if_neg (by omega)] at h
  simp only [bind_eq_ok, pyGetI_nat, Except.ok.injEq, Prod.mk.injEq, gpPlotRandom] at h
  obtain ⟨m', hm, rfl, h3, h4⟩ := h
  obtain ⟨n, hn, hf⟩ := h2 _ _ hm
  have h1' : t.Xi.length = t.yi.length := h1
  have hn' : n + t.models.length = t.yi.length + 1 + k := hn
  have hN : n ≤ t.yi.length := hf.1
  have hcfg : t.cfg = cfg := c2
  have hc := c1.after
  have hb := c1.before
  have hc' : cfg.nInitial ≤ t.yi.length → (t.models.length : ℤ) + cfg.nInitial = t.yi.length + 1 := by
    rw [← hcfg]; exact hc
  have hb' : (t.yi.length : ℤ) < cfg.nInitial → t.models = [] := by
    rw [← hcfg]; exact hb
  have hge : cfg.nInitial ≤ t.yi.length := by
    by_contra hlt
    rw [show t.models = [] from hb' (by omega)] at hm
    cases hm
  have e : cfg.nInitial + k = (n : ℤ) := by have := hc' hge; omega
  rw [e, pyPrefix_nat] at h3 h4
  refine ⟨n, hf, h3.symm, ?_, h4.symm⟩
  rw [← h3, List.length_take]
  omega

/-- Meets the hypotheses of `C79_default_view`, `C79_earlier_view`. -/
example :
    let run := runOps ratArith okWorld toyShared (toyOpt .EI) [.tell (.lst [.num 1]) (.num (.fin 3)) true,
      .tell (.lst [.num 2]) (.num (.fin 5)) true, .tell (.lst [.num 4]) (.num (.fin 6)) true,
      .tell (.lst [.num 7]) (.num (.fin 8)) true]
    (toyCfg .EI).nInitial = 2 ∧ (toyCfg .EI).queueSize = none ∧ (toyCfg .EI).hasEst = true ∧
    gpPlotData (some 2) 1 run.2.1.models run.2.1.Xi [3, 5, 6, 8] =
      .ok (3, [.seq [.num 1], .seq [.num 2], .seq [.num 4]], [3, 5, 6]) := by
  refine ⟨rfl, rfl, rfl, by decide +kernel⟩

/-! ## C79: the drawing -/

/-- Predictions of a batch are the predictions of its rows (promise of the surrogate). -/
def GpRowwise (predict : M → List (List (Val ℝ)) → Except PyErr (Surrogate Pred)) : Prop :=
  ∀ m X p, predict m X = .ok (.one p) → p.muDim = 1 ∧ p.stdDim = 1 ∧ p.mu.length = p.std.length ∧
    List.Forall₂ (fun r (q : ℝ × ℝ) => predict m [r] = .ok (.one ⟨[q.1], [q.2], 1, 1⟩)) X (p.mu.zip p.std)

/-- The surrogate `m` predicts mean `μ` and standard deviation `σ` at the value `x` of the dimension. -/
def GpAt (d : Dim ℝ) (predict : M → List (List (Val ℝ)) → Except PyErr (Surrogate Pred)) (m : M) (x μ σ : ℝ) : Prop :=
  ∃ t, d.transform exact [.num x] = .ok [t] ∧ predict m [t] = .ok (.one ⟨[μ], [σ], 1, 1⟩)

/-- The true function `f` at the points `xs`, with a band for the noise. -/
def ShowsTruth (f : ℝ → ℝ) (noise : ℝ) (xs : List ℝ) (c : GpCurve) : Prop :=
  c.ys = xs.map f ∧ c.lower = c.ys.map (fun y => y - 1.96 * noise) ∧ c.upper = c.ys.map (fun y => y + 1.96 * noise)

/-- At every point the curve shows the predicted mean and the band shows 1.96 standard deviations around it. -/
def ShowsModel (d : Dim ℝ) (predict : M → List (List (Val ℝ)) → Except PyErr (Surrogate Pred)) (m : M) (xs : List ℝ)
    (c : GpCurve) : Prop :=
  c.ys.length = xs.length ∧ c.lower.length = xs.length ∧ c.upper.length = xs.length ∧
  ∀ (i : Nat) (x : ℝ), xs[i]? = some x → ∃ μ σ, GpAt d predict m x μ σ ∧
    c.ys[i]? = some μ ∧ c.lower[i]? = some (μ - 1.96 * σ) ∧ c.upper[i]? = some (μ + 1.96 * σ)

/-- At every point of positive standard deviation the curve shows the value of the acquisition function, computed for the
smallest shown observation `best`. -/
def ShowsAcquisition (d : Dim ℝ) (predict : M → List (List (Val ℝ)) → Except PyErr (Surrogate Pred)) (m : M)
    (acq : AcqFunc) (best xi : ℝ) (xs : List ℝ) (vals : List ℝ) : Prop :=
  ∀ (i : Nat) (x μ σ v : ℝ), xs[i]? = some x → GpAt d predict m x μ σ → vals[i]? = some v → 0 < σ →
    (acq = .EI → v = expectedImprovement (best - xi) μ σ) ∧ (acq = .PI → v = improvementProbability (best - xi) μ σ)


theorem evenlySample_numeric {d : Dim ℝ} (hnum : d.isCat = false) {n : Nat} {xs : List ℝ} {rows : List (List (Val ℝ))}
    (h : evenlySample d n = .ok (xs, rows)) :
    d.transform exact (xs.map .num) = .ok rows ∧ ∀ lo hi, d.boundVals = [.num lo, .num hi] → xs = linspaceReal lo hi n := by
  cases d with
  | cat c => cases hnum
  | real r =>
    simp only [evenlySample, bind_eq_ok, Except.ok.injEq, Prod.mk.injEq] at h
    obtain ⟨rs, hr, rfl, rfl⟩ := h
    refine ⟨hr, fun lo hi hb => ?_⟩
    simp only [Dim.boundVals, List.cons.injEq, Val.num.injEq, and_true] at hb
    rw [hb.1, hb.2]
  | int r =>
    simp only [evenlySample, bind_eq_ok, Except.ok.injEq, Prod.mk.injEq] at h
    obtain ⟨rs, hr, rfl, rfl⟩ := h
    refine ⟨hr, fun lo hi hb => ?_⟩
    simp only [Dim.boundVals, List.cons.injEq, Val.num.injEq, and_true] at hb
    rw [hb.1, hb.2]

theorem oneColumn_single {d : Dim ℝ} (hnum : d.isCat = false) {rows : List (List (Val ℝ))}
    (h : ∀ r ∈ rows, r.length = 1) : oneColumn d rows = .ok rows := by
  have e : rows.flatten.map (fun v => [v]) = rows := by
    induction rows with
    | nil => rfl
    | cons r rows ih =>
      obtain ⟨v, rfl⟩ := List.length_eq_one_iff.1 (h r List.mem_cons_self)
      have := ih fun q hq => h q (List.mem_cons_of_mem _ hq)
      rw [List.flatten_cons, List.map_append, this]
      rfl
  cases d with
  | cat c => cases hnum
  | real r => simp only [oneColumn, e]
  | int r => simp only [oneColumn, e]

theorem gpBest_spec {ys : List ℝ} {b : ℝ} (h : gpBest ys = .ok b) : b ∈ ys ∧ ∀ y ∈ ys, b ≤ y := by
  simp only [gpBest, bind_eq_ok, pyGet_eq_ok] at h
  obtain ⟨i, hi, hb⟩ := h
  obtain ⟨h1, h2, _⟩ := npArgmin_spec hi
  rw [List.getElem?_eq_getElem h1] at hb
  cases hb
  exact ⟨List.getElem_mem _, h2⟩

/-- **C79 (drawing).** `plot_gaussian_process` for one numeric dimension, exact arithmetic.  If it returns, then the grid is
evenly spaced between the bounds; the true function and its noise band are shown if given; at every grid point the curve
is the predicted mean of the chosen surrogate and the band is 1.96 standard deviations wide on each side; the
acquisition curve shows expected improvement or probability of improvement relative to the best shown observation; and
the next point is a grid point whose shown acquisition value is largest.

Missing: the curve of "LCB", which is shown with the wrong sign (`C79_refuted_lcb_sign`), `xi` and `kappa` of the run,
which are ignored (`C79_refuted_kappa`), categorical dimensions (`C79_refuted_categorical`). -/
theorem C79_drawing_partial (d : Dim ℝ) (hd : ValidDim exact d) (hnum : d.isCat = false)
    (predict : M → List (List (Val ℝ)) → Except PyErr (Surrogate Pred)) (hp : GpRowwise predict) (models : List M)
    (xIters : List (Val ℝ)) (funcVals : List ℝ) (specs : GpSpecs) (args : GpPlotArgs) (plot : GpPlot)
    (h : plotGaussianProcess [d] models xIters funcVals predict (some specs) args = .ok plot) :
    ∃ m xs ys, gpPlotData specs.nRandom args.nCalls models xIters funcVals = .ok (m, xs, ys) ∧
      plot.obs = (if args.showObs then some (xs, ys) else none) ∧
      (∀ lo hi, d.boundVals = [.num lo, .num hi] → plot.xs = linspaceReal lo hi args.nPoints) ∧
      (∀ f, args.objective = some f → ∃ c, plot.truth = some c ∧ ShowsTruth f args.noise plot.xs c) ∧
      (args.showMu = true → ∃ c, plot.mean = some c ∧ ShowsModel d predict m plot.xs c) ∧
      (args.showAcq = true → ∃ best vals, best ∈ ys ∧ (∀ y ∈ ys, best ≤ y) ∧ plot.acq = some vals ∧
        ShowsAcquisition d predict m (gpPlotAcq specs.acq) best (specs.xi.getD 0.01) plot.xs vals ∧
        (args.showNext = true → ∃ (i : Nat) (x v : ℝ), plot.next = some (x, v) ∧ plot.xs[i]? = some x ∧
          vals[i]? = some v ∧ ∀ w ∈ vals, w ≤ v)) := by
  simp only [plotGaussianProcess, onlyDim, ok_bind, bind_eq_ok] at h
  obtain ⟨⟨xs, rows⟩, hgrid, X, hX, ⟨m, oxs, oys⟩, hdata, p, hpred, mean, hmean, ⟨av, nx⟩, hacq, h⟩ := h
  cases h
  simp only at *
  obtain ⟨g1, g2⟩ := evenlySample_numeric hnum hgrid
  have hrows1 : ∀ r ∈ rows, r.length = 1 := by
    intro r hr
    rw [(Dim.transform_shape hd g1).2 r hr]
    cases d with
    | cat c => cases hnum
    | real r => rfl
    | int r => rfl
  rw [oneColumn_single hnum hrows1] at hX
  cases hX
  have hspec := evenlySample_spec hd hgrid
  -- predictions at the grid points
  have hat : ∀ q, p = .one q → q.muDim = 1 ∧ q.stdDim = 1 ∧ q.mu.length = xs.length ∧ q.std.length = xs.length ∧
      ∀ (i : Nat) (x μ σ : ℝ), xs[i]? = some x → q.mu[i]? = some μ → q.std[i]? = some σ → GpAt d predict m x μ σ := by
    intro q hq
    subst hq
    obtain ⟨k1, k2, k3, k4⟩ := hp m rows q hpred
    have hl := k4.length_eq
    have hl2 := hspec.length_eq
    rw [List.length_zip, ← k3, Nat.min_self] at hl
    refine ⟨k1, k2, by omega, by omega, fun i x μ σ hx hμ hσ => ?_⟩
    obtain ⟨hxi, hx⟩ := List.getElem?_eq_some_iff.1 hx
    have h1 := (List.forall₂_iff_get.1 hspec).2 i hxi (by omega)
    have h2 := (List.forall₂_iff_get.1 k4).2 i (by omega) (by rw [List.length_zip, ← k3, Nat.min_self]; omega)
    obtain ⟨v, a1, _, a2⟩ := h1
    simp only [List.get_eq_getElem, List.getElem_zip] at a1 a2 h2
    have hv : v = .num x := by
      cases d with
      | cat c => cases hnum
      | real r => rw [← hx]; exact a1
      | int r => rw [← hx]; exact a1
    obtain ⟨_, hμ⟩ := List.getElem?_eq_some_iff.1 hμ
    obtain ⟨_, hσ⟩ := List.getElem?_eq_some_iff.1 hσ
    refine ⟨rows[i], by rw [← hv]; exact a2, ?_⟩
    rw [← hμ, ← hσ]; exact h2
  refine ⟨m, oxs, oys, hdata, rfl, g2, ?_, ?_, ?_⟩
  · intro f hf
    rw [hf]
    exact ⟨_, rfl, rfl, rfl, rfl⟩
  · intro hmu
    rw [gpMeanIf, if_pos hmu, bind_eq_ok] at hmean
    obtain ⟨q, hq, hm⟩ := hmean
    cases hm
    have hone : p = .one q := by
      cases p with
      | one q' => cases hq; rfl
      | multi _ => cases hq
    obtain ⟨_, _, l1, l2, hpt⟩ := hat q hone
    refine ⟨_, rfl, l1, by simp [gpMean, l1, l2], by simp [gpMean, l1, l2], fun i x hx => ?_⟩
    have hi := (List.getElem?_eq_some_iff.1 hx).1
    have e1 : q.mu[i]? = some (q.mu[i]'(by omega)) := List.getElem?_eq_getElem (by omega)
    have e2 : q.std[i]? = some (q.std[i]'(by omega)) := List.getElem?_eq_getElem (by omega)
    refine ⟨_, _, hpt i x _ _ hx e1 e2, e1, ?_, ?_⟩
    · simp only [gpMean, List.getElem?_zipWith, e1, e2]
    · simp only [gpMean, List.getElem?_zipWith, e1, e2]
  · intro hsa
    rw [gpAcqIf, if_pos hsa] at hacq
    simp only [bind_eq_ok, pyGet_eq_ok, Except.ok.injEq, Prod.mk.injEq] at hacq
    obtain ⟨best, hbest, vals, hvals, i, hi, x, hx, a, ha, rfl, rfl⟩ := hacq
    obtain ⟨b1, b2⟩ := gpBest_spec hbest
    refine ⟨best, _, b1, b2, rfl, ?_, ?_⟩
    · intro j x' μ σ v hx' hG hv hσ
      rw [List.getElem?_map, Option.map_eq_some_iff] at hv
      obtain ⟨w, hw, rfl⟩ := hv
      have uniq : ∀ q, p = .one q → q.mu[j]? = some μ ∧ q.std[j]? = some σ := by
        intro q hq
        obtain ⟨_, _, l1, l2, hpt⟩ := hat q hq
        have hj := (List.getElem?_eq_some_iff.1 hx').1
        have e1 : q.mu[j]? = some (q.mu[j]'(by omega)) := List.getElem?_eq_getElem (by omega)
        have e2 : q.std[j]? = some (q.std[j]'(by omega)) := List.getElem?_eq_getElem (by omega)
        obtain ⟨t, t1, t2⟩ := hpt j x' _ _ hx' e1 e2
        obtain ⟨t', t1', t2'⟩ := hG
        rw [t1] at t1'
        cases t1'
        rw [t2] at t2'
        simp only [Except.ok.injEq, Surrogate.one.injEq, Pred.mk.injEq, List.cons.injEq, and_true] at t2'
        rw [e1, e2, t2'.1, t2'.2]
        exact ⟨rfl, rfl⟩
      constructor
      · intro he
        rw [he] at hvals
        simp only [gaussianAcquisition, bind_eq_ok, Except.ok.injEq] at hvals
        obtain ⟨q, hq, ei, hei, rfl⟩ := hvals
        have hone : p = .one q := by
          cases p with
          | one q' => cases hq; rfl
          | multi _ => cases hq
        obtain ⟨k1, k2, l1, l2, _⟩ := hat q hone
        obtain ⟨u1, u2⟩ := uniq q hone
        obtain ⟨ei', h1, _, h3⟩ := C53_expected_improvement_partial q k1 k2 (by omega) best (specs.xi.getD 0.01)
        rw [hei] at h1
        cases h1
        rw [List.getElem?_map, Option.map_eq_some_iff] at hw
        obtain ⟨e, hew, rfl⟩ := hw
        rw [neg_neg]
        exact (h3 j μ σ e u1 u2 hew).1 hσ
      · intro he
        rw [he] at hvals
        simp only [gaussianAcquisition, bind_eq_ok, Except.ok.injEq] at hvals
        obtain ⟨q, hq, ei, hei, rfl⟩ := hvals
        have hone : p = .one q := by
          cases p with
          | one q' => cases hq; rfl
          | multi _ => cases hq
        obtain ⟨k1, k2, l1, l2, _⟩ := hat q hone
        obtain ⟨u1, u2⟩ := uniq q hone
        obtain ⟨ei', h1, _, h3⟩ := C53_probability_of_improvement_partial q k1 k2 (by omega) best (specs.xi.getD 0.01)
        rw [hei] at h1
        cases h1
        rw [List.getElem?_map, Option.map_eq_some_iff] at hw
        obtain ⟨e, hew, rfl⟩ := hw
        rw [neg_neg]
        exact (h3 j μ σ e u1 u2 hew).1 hσ
    · intro hsn
      obtain ⟨n1, n2, _⟩ := npArgmin_spec hi
      rw [List.getElem?_eq_getElem n1] at ha
      cases ha
      refine ⟨i, x, -vals[i], by rw [if_pos hsn], hx, ?_, ?_⟩
      · rw [List.getElem?_map, List.getElem?_eq_getElem n1]; rfl
      · intro w hw
        obtain ⟨w', hw', rfl⟩ := List.mem_map.1 hw
        exact neg_le_neg (n2 w' hw')


/-! ### An example and two refutations -/

/-- The number of a one-column row. -/
def rowNum : List (Val ℝ) → ℝ
  | [.num x] => x
  | _ => 0

/-- A surrogate that predicts mean `x` and standard deviation `1` at `x`. -/
def slopeModel (_ : Unit) (X : List (List (Val ℝ))) : Except PyErr (Surrogate Pred) :=
  .ok (.one ⟨X.map rowNum, X.map fun _ => 1, 1, 1⟩)

theorem slopeModel_rowwise : GpRowwise slopeModel := by
  intro m X p h
  simp only [slopeModel, Except.ok.injEq, Surrogate.one.injEq] at h
  subst h
  refine ⟨rfl, rfl, by simp, ?_⟩
  rw [List.zip_map']
  rw [List.forall₂_map_right_iff]
  exact List.forall₂_same.2 fun r _ => rfl

/-- The dimension of the example, `Real(0, 4)`. -/
def gpDim : Dim ℝ := .real ⟨0, 4, .uniform, 10, .identity, none, id⟩

theorem gpDim_grid : evenlySample gpDim 2 = .ok ([0, 4], [[.num 0], [.num 4]]) := by
  simp only [gpDim, evenlySample, linspaceReal_two]
  rfl

/-- The plot of one observation `(1, 1)`, of the surrogate at 0 and 4, and of an acquisition function. -/
theorem gp_example (acq : AcqFunc) (xi : Option ℝ) (kappa : Option Kappa) (vals : List ℝ) (i : Nat) (x v : ℝ)
    (hv : gaussianAcquisition (.one ⟨[0, 4], [1, 1], 1, 1⟩) 1 (gpPlotAcq (some acq)) (xi.getD 0.01)
      (kappa.getD (.num 1.96)) = .ok vals) (hi : npArgmin vals = .ok i) (hx : [0, 4][i]? = some x) (hvi : vals[i]? = some v) :
    plotGaussianProcess [gpDim] [()] [.seq [.num 1]] [1] slopeModel (some ⟨none, some acq, xi, kappa⟩)
      { showAcq := true, showNext := true, nPoints := 2 } =
    .ok { xs := [0, 4], truth := none, mean := some (gpMean ⟨[0, 4], [1, 1], 1, 1⟩), obs := some ([.seq [.num 1]], [1]),
          acq := some (vals.map fun v => -v), next := some (x, -v) } := by
  have hb : gpBest [1] = .ok 1 := rfl
  have hc : oneColumn gpDim [[.num 0], [.num 4]] = .ok [[.num 0], [.num 4]] := rfl
  have hm : slopeModel () [[.num 0], [.num 4]] = .ok (.one ⟨[0, 4], [1, 1], 1, 1⟩) := rfl
  have hd : gpPlotData (F := ℝ) none (-1) [()] [.seq [.num 1]] [1] = .ok ((), [.seq [.num 1]], [1]) := rfl
  simp only [plotGaussianProcess, onlyDim, ok_bind, gpDim_grid, hc, hd, hm, gpMeanIf, if_true, Surrogate.single, gpAcqIf, hb, hv,
    hi, pyGet_eq_ok.2 hx, pyGet_eq_ok.2 hvi, Option.map_none]

theorem gp_lcb (k : ℝ) : gaussianAcquisition (.one ⟨[0, 4], [1, 1], 1, 1⟩) 1 .LCB 0.01 (.num k) = .ok [0 - k * 1, 4 - k * 1] :=
  rfl

theorem argmin_lcb (k : ℝ) : npArgmin [0 - k * 1, 4 - k * 1] = .ok 0 := by
  simp [npArgmin, argBest, argBest.go]

/-- The hypotheses of `C79_drawing_partial` hold for `plot_gaussian_process(res, show_acq_func=True,
show_next_point=True)`. -/
example : ValidDim exact gpDim ∧ gpDim.isCat = false ∧ GpRowwise slopeModel ∧
    ∃ plot, plotGaussianProcess [gpDim] [()] [.seq [.num 1]] [1] slopeModel (some ⟨none, some .LCB, none, none⟩)
      { showAcq := true, showNext := true, nPoints := 2 } = .ok plot := by
  refine ⟨?_, rfl, slopeModel_rowwise, _, gp_example .LCB none none _ 0 0 _ (gp_lcb 1.96) (argmin_lcb 1.96) rfl rfl⟩
  exact ⟨by norm_num, Or.inl rfl, fun x h1 h2 => ⟨h1, h2⟩⟩

/-- **C79 refuted (sign of LCB).** With `acq_func="LCB"` the curve labelled "LCB(x)" is minus the lower confidence bound:
the values are negated because expected improvement and probability of improvement come negated from
`_gaussian_acquisition`, but the lower confidence bound does not (plots.py:235-243, acquisition.py:43-58).  Here the
lower confidence bounds at 0 and 4 are -1.96 and 2.04, and 1.96 and -2.04 are shown. -/
theorem C79_refuted_lcb_sign :
    ∃ plot, plotGaussianProcess [gpDim] [()] [.seq [.num 1]] [1] slopeModel (some ⟨none, some .LCB, none, none⟩)
      { showAcq := true, showNext := true, nPoints := 2 } = .ok plot ∧
    gaussianLcb ⟨[0, 4], [1, 1], 1, 1⟩ (.num 1.96) = [-1.96, 2.04] ∧ plot.acq = some [1.96, -2.04] := by
  refine ⟨_, gp_example .LCB none none _ 0 0 _ (gp_lcb 1.96) (argmin_lcb 1.96) rfl rfl, ?_, ?_⟩
  · simp only [gaussianLcb, List.zipWith_cons_cons, List.zipWith_nil_right]
    norm_num
  · simp only [List.map_cons, List.map_nil, Option.some.injEq, List.cons.injEq, and_true]
    norm_num

/-- **C79 refuted (parameters of the acquisition function).** A run of `gp_minimize(…, acq_func="LCB", kappa=k)` with any
`k`: the plot shows the criterion with `kappa = 1.96`, because `plot_gaussian_process` looks for "acq_func_kwargs" among
the arguments of `base_minimize`, where `xi` and `kappa` are stored under their own names (plots.py:181, base.py:210).
For `kappa = 5` the criterion of the run at 0 is 5 in this sign convention, and 1.96 is shown. -/
theorem C79_refuted_kappa (xi : ℝ) :
    ∃ plot, plotGaussianProcess [gpDim] [()] [.seq [.num 1]] [1] slopeModel
        (some (specsOfMinimize none .LCB xi (.num 5))) { showAcq := true, showNext := true, nPoints := 2 } = .ok plot ∧
      plot.acq = some [1.96, -2.04] ∧ (gaussianLcb ⟨[0, 4], [1, 1], 1, 1⟩ (.num 5)).map (fun v => -v) = [5, 1] := by
  refine ⟨_, gp_example .LCB none none _ 0 0 _ (gp_lcb 1.96) (argmin_lcb 1.96) rfl rfl, ?_, ?_⟩
  · simp only [List.map_cons, List.map_nil, Option.some.injEq, List.cons.injEq, and_true]
    norm_num
  · simp only [gaussianLcb, List.zipWith_cons_cons, List.zipWith_nil_right, List.map_cons, List.map_nil]
    norm_num

/-- **C79 refuted (categorical dimensions).** `plot_gaussian_process` never returns for a space of one categorical dimension
with the label or string transform: the encoded grid is a Python list, which has no `reshape` (plots.py:177).  With the
one-hot transform of three categories it does not fail there, but the three rows of three numbers are handed to the model
as nine rows of one number. -/
theorem C79_refuted_categorical :
    (∀ (c : CatDim ℝ), c.transform = .label ∨ c.transform = .string → ∀ (models : List Unit) (xIters : List (Val ℝ))
      (funcVals : List ℝ) (specs : Option GpSpecs) (args : GpPlotArgs) (plot : GpPlot),
      plotGaussianProcess [.cat c] models xIters funcVals slopeModel specs args ≠ .ok plot) ∧
    ∃ rows, evenlySample (.cat ⟨[.str "a", .str "b", .str "c"], none, .onehot, none, fun _ => "", fun _ => .error .valueError⟩) 3 =
        .ok ([0, 1, 2], rows) ∧ rows.length = 3 ∧
      ∃ X, oneColumn (.cat ⟨[.str "a", .str "b", .str "c"], none, .onehot, none, fun _ => "", fun _ => .error .valueError⟩)
        rows = .ok X ∧ X.length = 9 := by
  constructor
  · intro c hc models xIters funcVals specs args plot h
    simp only [plotGaussianProcess, onlyDim, ok_bind, bind_eq_ok] at h
    obtain ⟨grid, -, X, hX, -⟩ := h
    simp only [oneColumn, if_pos hc] at hX
    cases hX
  · refine ⟨[[.num 1, .num 0, .num 0], [.num 0, .num 1, .num 0], [.num 0, .num 0, .num 1]], ?_, rfl, _, rfl, rfl⟩
    have e : evenlySampleCat 3 3 = [0, 1, 2] := by decide +kernel
    have e2 : Dim.transform exact (.cat ⟨[.str "a", .str "b", .str "c"], none, .onehot, none, fun _ => "",
        fun _ => .error .valueError⟩) [.str "a", .str "b", .str "c"] =
        .ok [[.num 1, .num 0, .num 0], [.num 0, .num 1, .num 0], [.num 0, .num 0, .num 1]] := by
      have hf : OneHot.fit ([.str "a", .str "b", .str "c"] : List (Val ℝ)) =
          .ok ⟨[(.str "a", 0), (.str "b", 1), (.str "c", 2)], [(0, .str "a"), (1, .str "b"), (2, .str "c")], [0, 1, 2]⟩ := by
        rw [OneHot.fit_nodup (by simp) (by simp)]
        rfl
      simp only [Dim.transform, Dim.transformer, CatDim.transformer, hf, ok_bind, Transformer.transform, OneHot.transform]
      simp [mapE, dictGet, binarize, exact, bind, Except.bind]
    simp only [evenlySample, List.isEmpty_cons, Bool.false_eq_true, if_false, List.length_cons, List.length_nil, e]
    simp [mapE, pyGet, e2, bind, Except.bind]

end Skopt

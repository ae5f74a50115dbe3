import Verif.Props.DesignSearch
import Verif.Props.StartsDesign
import Verif.Props.MinimizeRuns

/-!
# C140: starting points never hurt

The result of a minimisation with starting points is no worse than the best of these, and no worse than anything else that
was evaluated; points of the initial design count from the `k + 1`-st on (C124), and a design of Halton points leads to the
optimum as it does without starting points (C116).
-/

namespace Skopt

variable {M R G : Type}

/-! ## Specification -/

/-- The value given for a starting point, as a number. -/
def Y0.Offers (y0 : Y0 ℝ) (c : ℝ) : Prop := ∃ y ∈ y0.given, AtMost c y

/-! ## Lemmas -/

theorem atMost_value {c : ℝ} {y : YArg ℝ} {f : ℝ} (h : AtMost c y) (hv : valueOf y = some (.fin f)) : f ≤ c := by
  obtain ⟨g, hg, rfl | ⟨t, rfl⟩⟩ := h <;>
  · simp only [valueOf, Option.some.injEq, Flt.fin.injEq] at hv
    exact hv ▸ hg

/-- Every evaluated point has its answer. -/
theorem answers_mem {F : Type} {func : Objective F} : ∀ {done xs : List (Val F)} {ys : List (YArg F)} {v : Val F},
    Answers func done xs ys → v ∈ xs → ∃ y ∈ ys, ∃ done', func done' v = .ok y
  | _, [], [], _, _, h => by cases h
  | done, x :: xs, y :: ys, v, h, hv => by
    rcases List.mem_cons.1 hv with rfl | hv
    · exact ⟨y, List.mem_cons_self, done, h.1⟩
    · obtain ⟨y', h1, h2⟩ := answers_mem h.2 hv
      exact ⟨y', List.mem_cons_of_mem _ h1, h2⟩
  | _, [], _ :: _, _, h, _ => h.elim
  | _, _ :: _, [], _, h, _ => h.elim

/-- Callbacks that never ask to stop never appear to have asked. -/
theorem baseMinimize_quiet {W : World ℝ M R G} {sh : Shared ℝ G} {func : Objective ℝ} {m : MinArgs ℝ M} {rng : R}
    {res : Option (Result ℝ M)} (h : (baseMinimize exact W sh func m rng).result = .ok res)
    (hq : ∀ c ∈ m.callback.callables, ∀ hist, c hist ≠ .ok (some true)) (i : Nat) (r : Result ℝ M) :
    Event.call i r (.ok (some true)) ∉ (baseMinimize exact W sh func m rng).trace := by
  intro hin
  obtain ⟨x0, cfg, sh₁, s, cbs, -, -, -, -, h5, h6⟩ := baseMinimize_ok h
  rw [h] at h6
  obtain ⟨first, rest, -, g2, -⟩ := minimizeBody_ok h6.symm
  rw [g2] at hin
  obtain ⟨c, hc, hist, hch⟩ := traceOf_call hin
  rw [← h5] at hc
  rcases List.mem_append.1 hc with hc | hc
  · exact hq c hc hist hch.symm
  · split at hc
    · rw [List.mem_singleton] at hc
      subst hc
      cases hch
    · cases hc

theorem Patient.quiet {cbs : List (Callback ℝ M)} (h : Patient cbs) : ∀ c ∈ cbs, ∀ hist, c hist ≠ .ok (some true) := by
  intro c hc hist e
  obtain ⟨d, h1, h2⟩ := h c hc hist
  rw [e] at h1
  injection h1 with h1
  exact h2 h1.symm

/-! ## C140 -/

/-- **C140 (no worse than anything evaluated or given).** A well-posed minimisation – with or without starting points, with
or without their values, stopped early by a callback or not – returns a result whose reported value is at most the value of
every point that was evaluated and at most every value that was given for a starting point. -/
theorem C140_no_worse (W : World ℝ M R G) (sh : Shared ℝ G) (func : Objective ℝ) (m : MinArgs ℝ M)
    (st : Starts ℝ) (rng : R) (hset : SaneArgs m.opt) (hd : Workable (searched m.opt.est.isGP sh.dims))
    (hW : Reliable W (searched m.opt.est.isGP sh.dims))
    (hgen : sh.gen = none ∨ m.opt.est.isNone = false ∧ Generates W (searched m.opt.est.isGP sh.dims))
    (hfunc : TotalOn m.opt.perSecond sh.dims func) (hm : WellPosed sh.dims m st) :
    let out := baseMinimize exact W sh func m rng
    ∃ r f, out.result = .ok (some r) ∧ r.fun_ = .fin f ∧
      (∀ p c, Val.seq p ∈ evalsOf out.trace → p ∈ sublevel func c → f ≤ c) ∧
      ∀ c, m.y0.Offers c → f ≤ c := by
  intro out
  obtain ⟨⟨r, h1, fs, b, p, f, h2, h3, -, -, -, h7, h8⟩, hev, -⟩ :=
    C76_minimize_returns_partial W sh func m st rng hset hd hW hgen hfunc hm
  have hflat : ∀ p, Val.seq p ∈ evalsOf out.trace → Flat p := by
    intro p hp
    obtain ⟨q, e, hq⟩ := hev _ hp
    injection e with e
    subst e
    exact inSpace_flat hd.nonempty hd.valid (inSpace_searched.2 hq)
  obtain ⟨ys, c1, c2, c3⟩ := C42_result_records_partial exact W sh func m rng st r hm.x0 hm.proper h1 hflat
  have hleast : ∀ (zs : List (YArg ℝ)), List.Forall₂ (fun y f => valueOf y = some f) zs r.funcVals →
      ∀ y ∈ zs, ∀ c, AtMost c y → f ≤ c := by
    intro zs hz y hy c hc
    obtain ⟨i, hi⟩ := List.mem_iff_getElem?.1 hy
    rw [h2, List.forall₂_map_right_iff] at hz
    have hil : i < fs.length := by
      rw [← hz.length_eq]
      exact (List.getElem?_eq_some_iff.1 hi).1
    obtain ⟨hi', rfl⟩ := List.getElem?_eq_some_iff.1 hi
    have hv := (List.forall₂_iff_get.1 hz).2 i hi' hil
    obtain ⟨z, z1, z2, -⟩ := h3
    rw [h7] at z1
    injection z1 with z1
    subst z1
    exact (z2 _ (List.getElem_mem hil)).trans (atMost_value hc hv)
  have hall : ∃ zs, List.Forall₂ (fun y f => valueOf y = some f) (zs ++ ys) r.funcVals ∧ zs = m.y0.given := by
    by_cases e : m.y0 = .none
    · exact ⟨[], (c2 e).2, by rw [e]; rfl⟩
    · obtain ⟨-, d1, -⟩ := c3 e
      rcases hm.y0 with h | ⟨h, -⟩
      · exact absurd h e
      · exact ⟨m.y0.given, d1 h, rfl⟩
  obtain ⟨zs, hz, rfl⟩ := hall
  refine ⟨r, f, h1, h8, fun p c hp hsub => ?_, fun c => ?_⟩
  · obtain ⟨y, hy, done, hf⟩ := answers_mem c1 hp
    exact hleast _ hz y (List.mem_append_right _ hy) c (hsub done y hf)
  · rintro ⟨y, hy, hc⟩
    exact hleast _ hz y (List.mem_append_left _ hy) c hc

/-- Starting points without values are evaluated before any callback is asked. -/
theorem starts_evaluated {W : World ℝ M R G} {sh : Shared ℝ G} {func : Objective ℝ} {m : MinArgs ℝ M} {rng : R}
    {st : Starts ℝ} {res : Option (Result ℝ M)} (hx0 : m.x0 = st.toX0) (hst : st.Proper) (hy : m.y0 = .none)
    (h : (baseMinimize exact W sh func m rng).result = .ok res) {p : Point ℝ} (hp : p ∈ st.all) :
    Val.seq p ∈ evalsOf (baseMinimize exact W sh func m rng).trace := by
  obtain ⟨x0, cfg, sh₁, s, cbs, h1, -, -, -, -, h6⟩ := baseMinimize_ok h
  obtain ⟨-, hpts, -, -⟩ := prepare_ok h1
  rw [hx0, Starts.points_eq hst] at hpts
  injection hpts with hpts
  subst hpts
  rw [h] at h6
  obtain ⟨first, rest, g1, g2, -⟩ := minimizeBody_ok h6.symm
  have hmem : Val.seq p ∈ st.all.map (Val.seq (F := ℝ)) := List.mem_map_of_mem hp
  rw [g2, evalsOf_traceOf, List.flatMap_append]
  rcases g1 with ⟨e, -⟩ | ⟨-, r, rfl⟩
  · rw [e] at hmem
    cases hmem
  · refine List.mem_append_left _ ?_
    rw [hy]
    simpa [evaluatedFirst, Y0.values] using hp

/-- **C140 (the starting points).** A well-posed minimisation reports at most the value of the best of its starting points –
be the values given or computed, and also if a callback stops the run as soon as it can. -/
theorem C140_starts (W : World ℝ M R G) (sh : Shared ℝ G) (func : Objective ℝ) (m : MinArgs ℝ M)
    (st : Starts ℝ) (rng : R) (hset : SaneArgs m.opt) (hd : Workable (searched m.opt.est.isGP sh.dims))
    (hW : Reliable W (searched m.opt.est.isGP sh.dims))
    (hgen : sh.gen = none ∨ m.opt.est.isNone = false ∧ Generates W (searched m.opt.est.isGP sh.dims))
    (hfunc : TotalOn m.opt.perSecond sh.dims func) (hm : WellPosed sh.dims m st)
    (c : ℝ) (hgood : m.y0.Offers c ∨ m.y0 = .none ∧ ∃ p ∈ st.all, p ∈ sublevel func c) :
    Reports c (baseMinimize exact W sh func m rng) := by
  obtain ⟨r, f, h1, h2, h3, h4⟩ := C140_no_worse W sh func m st rng hset hd hW hgen hfunc hm
  refine ⟨r, f, h1, h2, ?_⟩
  rcases hgood with h | ⟨h, p, hp, hc⟩
  · exact h4 c h
  · exact h3 p c (starts_evaluated hm.x0 hm.proper h h1 hp) hc

/-- **C140 (the initial design).** A well-posed minimisation with `k` starting points, `n` initial points and a generator
that no callback stops reports at most the value of every point after the `k`-th of the design for `n + k` points. -/
theorem C140_design (W : World ℝ M R G) (sh : Shared ℝ G) (func : Objective ℝ) (m : MinArgs ℝ M)
    (st : Starts ℝ) (rng : R) (hset : SaneArgs m.opt) (hd : Workable (searched m.opt.est.isGP sh.dims))
    (hW : Reliable W (searched m.opt.est.isGP sh.dims)) (hest : m.opt.est.isNone = false)
    (hgen : Generates W (searched m.opt.est.isGP sh.dims))
    (hfunc : TotalOn m.opt.perSecond sh.dims func) (hm : WellPosed sh.dims m st)
    (hpat : Patient m.callback.callables) (n : Nat) (hn : m.nRandomStarts.getD m.nInitialPoints = n)
    (P : List (Point ℝ)) (hP : Designs W sh m.opt.est.isGP (n + st.all.length) rng P)
    (hlen : P.length = n + st.all.length) (hmem : ∀ p ∈ P, InSpace exact sh.dims p)
    (c : ℝ) (hgood : ∃ p ∈ P.drop st.all.length, p ∈ sublevel func c) :
    Reports c (baseMinimize exact W sh func m rng) := by
  obtain ⟨r, f, h1, h2, h3, -⟩ := C140_no_worse W sh func m st rng hset hd hW (.inr ⟨hest, hgen⟩) hfunc hm
  obtain ⟨p, hp, hc⟩ := hgood
  refine ⟨r, f, h1, h2, h3 p c ?_ hc⟩
  obtain ⟨g1, g2, -⟩ := C124_complete_partial exact W sh func m rng st hm.x0 hm.proper n hn.symm (by omega) P hP
    (by rw [hlen]; push_cast; rfl)
    (fun p hp => inSpace_flat hd.nonempty hd.valid (inSpace_searched.2 (hmem p hp))) _ h1
    (baseMinimize_quiet h1 hpat.quiet)
  by_cases e : m.y0 = .none
  · obtain ⟨rest, hr⟩ := g1 e
    rw [hr]
    exact List.mem_append_right _ (List.mem_append_left _ (List.mem_map_of_mem hp))
  · obtain ⟨rest, hr⟩ := g2 e
    rw [hr]
    exact List.mem_append_left _ (List.mem_map_of_mem hp)

open Classical in
theorem exists_of_regionCount_drop {box : List (ℝ × ℝ)} {pts : List (Point ℝ)} {k : Nat}
    (h : k < spaceRegionCount box pts) : ∃ xs : List ℝ, xs.map Val.num ∈ pts.drop k ∧ InRegion box xs := by
  refine exists_of_regionCount (pts := pts.drop k) ?_
  unfold spaceRegionCount at h ⊢
  conv at h => rw [← List.take_append_drop k pts, List.filter_append, List.length_append]
  have := List.length_filter_le (fun p => decide (∃ xs : List ℝ, p = xs.map Val.num ∧ InRegion box xs)) (pts.take k)
  have h' := List.length_take_le k pts
  omega

/-- **C140 (Halton, a box).** With `k` starting points, too, Halton points find every box: there is a number `N`, depending
on the space, the box and `k` only, such that every run with `k` starting points (with or without values) and `N` or more
initial points by `Halton()` reports at most `c` if the objective does not exceed `c` in the box. -/
theorem C140_halton_box (ds : List (RealDim ℝ)) (hne : ds ≠ []) (hd : ∀ d ∈ ds, PlainReal d) (box : List (ℝ × ℝ))
    (hbox : BoxOf ds box) (hvol : 0 < spaceShare ds box) (k : Nat) :
    ∃ N, ∀ n : Nat, N ≤ n → ∀ (M R G : Type) (W : World ℝ M R G) (func : Objective ℝ) (c : ℝ) (m : MinArgs ℝ M) (g : G)
      (rng : R) (h : Halton) (st : Starts ℝ), h.primes = none → SaneArgs m.opt → m.opt.est.isNone = false →
      WellPosed (ds.map Dim.real) m st → st.all.length = k → m.nRandomStarts.getD m.nInitialPoints = n →
      Patient m.callback.callables → Reliable W (searched m.opt.est.isGP (ds.map Dim.real)) →
      (∀ g, ProducesHalton W g h (searched m.opt.est.isGP (ds.map Dim.real))) →
      TotalOn m.opt.perSecond (ds.map Dim.real) func →
      (∀ xs, InRegion box xs → xs.map Val.num ∈ sublevel func c) →
      Reports c (baseMinimize exact W ⟨ds.map Dim.real, some g⟩ func m rng) := by
  set v := spaceShare ds box with hv
  have key : ∀ gp : Bool, ∃ N, ∀ n, N ≤ n → ∀ (h : Halton) (draw : ℤ), h.primes = none → GoodSkip h draw →
      ∃ pts, h.generate exact (searched gp (ds.map Dim.real)) n draw = (searched gp (ds.map Dim.real), .ok pts) ∧
        pts.length = n ∧ ∃ xs : List ℝ, xs.map Val.num ∈ pts.drop k ∧ InRegion box xs := by
    intro gp
    obtain ⟨ds', e, hl, hp, hb, hsh⟩ := searched_real gp ds
    have hne' : ds' ≠ [] := by rw [← List.length_pos_iff, hl]; exact List.length_pos_iff.2 hne
    obtain ⟨N, hN⟩ := C115_halton_converges ds' hne' (hp hd) (v / 2) (by linarith)
    obtain ⟨N', hN'⟩ := exists_nat_gt (k / (v / 2))
    refine ⟨max N (max N' 1), fun n hn h draw hpr hs => ?_⟩
    obtain ⟨pts, h1, h2, h3⟩ := hN n (le_trans (le_max_left _ _) hn) h draw hpr hs
    have hn' : N' ≤ n := le_trans (le_trans (le_max_left _ _) (le_max_right _ _)) hn
    have hn1 : 1 ≤ n := le_trans (le_trans (le_max_right _ _) (le_max_right _ _)) hn
    rw [e]
    refine ⟨pts, ?_, h2, exists_of_regionCount_drop ?_⟩
    · refine Prod.ext ?_ h1
      exact withNormalized_restores _ (fun d hd' => by
        obtain ⟨d', h', rfl⟩ := List.mem_map.1 hd'
        exact (hp hd d' h').valid.legalTransform) _ h1
    · have h4 := h3 box (hb box hbox)
      rw [hsh, ← hv, abs_le] at h4
      have h5 : v / 2 ≤ (spaceRegionCount box pts : ℝ) / n := by linarith [h4.1]
      have hnp : (0 : ℝ) < n := by exact_mod_cast hn1
      rw [le_div_iff₀ hnp] at h5
      rw [div_lt_iff₀ (by linarith)] at hN'
      have h6 : (N' : ℝ) ≤ n := by exact_mod_cast hn'
      have : (k : ℝ) < spaceRegionCount box pts := by nlinarith
      exact_mod_cast this
  obtain ⟨N₁, hN₁⟩ := key true
  obtain ⟨N₂, hN₂⟩ := key false
  refine ⟨max N₁ (max N₂ 1), fun n hn M R G W func c m g rng h st hpr hset hest hm hk hini hpat hW hg hfunc hsub => ?_⟩
  have h01 : 0 < n := le_trans (le_trans (le_max_right _ _) (le_max_right _ _)) hn
  have hboth : ∀ gp : Bool, ∀ (h : Halton) (draw : ℤ), h.primes = none → GoodSkip h draw →
      ∃ pts, h.generate exact (searched gp (ds.map Dim.real)) (n + k) draw = (searched gp (ds.map Dim.real), .ok pts) ∧
        pts.length = n + k ∧ ∃ xs : List ℝ, xs.map Val.num ∈ pts.drop k ∧ InRegion box xs := by
    intro gp
    cases gp with
    | true => exact hN₁ (n + k) (((le_max_left _ _).trans hn).trans (Nat.le_add_right _ _))
    | false =>
      exact hN₂ (n + k) ((((le_max_left _ _).trans (le_max_right _ _)).trans hn).trans (Nat.le_add_right _ _))
  obtain ⟨draw, hs, hgen⟩ := hg g (n + k : ℤ) (W.seed rng).2 (by omega)
  obtain ⟨pts, h1, h2, xs, h3, h4⟩ := hboth m.opt.est.isGP h draw hpr hs
  rw [show ((n + k : ℤ)).toNat = n + k by omega, h1] at hgen
  have hwork : Workable (searched m.opt.est.isGP (ds.map Dim.real)) := by
    obtain ⟨ds', e, hl, hp, -, -⟩ := searched_real m.opt.est.isGP ds
    rw [e]
    exact plainReal_workable (by rw [← List.length_pos_iff, hl]; exact List.length_pos_iff.2 hne) (hp hd)
  have hmem : ∀ p ∈ pts, InSpace exact (ds.map Dim.real) p := by
    obtain ⟨M', pts', -, -, -, -, h5, -, h6⟩ := C21_halton_partial h (searched m.opt.est.isGP (ds.map Dim.real)) draw
      hwork.nonempty hwork.valid (Or.inl hpr) hs (n + k) (by omega)
    rw [h1] at h5
    injection h5 with h5
    subst h5
    exact fun p hp => inSpace_searched.1 (h6 p hp)
  refine C140_design W ⟨ds.map Dim.real, some g⟩ func m st rng hset hwork hW hest
    (C116_halton_generates W h _ hwork.nonempty hwork.valid (Or.inl hpr) hg) hfunc hm hpat n hini pts
    ⟨g, rfl, ?_⟩ (by rw [h2, hk]) hmem c ⟨_, by rw [hk]; exact h3, hsub xs h4⟩
  rw [hk]
  have : (if m.opt.est.isGP then (ds.map Dim.real).map Dim.normalized else ds.map Dim.real) =
      searched m.opt.est.isGP (ds.map Dim.real) := rfl
  simp only [this, hgen]

/-- **C140 (Halton, convergence).** As C116 with `k` starting points: let `x` be a point of a space of uniform `Real`
dimensions near which the objective exceeds `f` only by little.  For every `ε > 0` and every `k` there is a number `N` such
that every run with `k` starting points and `N` or more initial points by `Halton()` reports at most `f + ε`. -/
theorem C140_halton_converges (ds : List (RealDim ℝ)) (hne : ds ≠ []) (hd : ∀ d ∈ ds, PlainReal d) (func : Objective ℝ)
    (xs : List ℝ) (hx : List.Forall₂ (fun (d : RealDim ℝ) (x : ℝ) => d.low ≤ x ∧ x ≤ d.high) ds xs) (f : ℝ)
    (hcont : ∀ ε > 0, ∃ δ > 0, ∀ q, InSpace exact (ds.map Dim.real) q → Near δ (ds.map Dim.real) (xs.map Val.num) q →
      q ∈ sublevel func (f + ε)) (ε : ℝ) (hε : 0 < ε) (k : Nat) :
    ∃ N, ∀ n : Nat, N ≤ n → ∀ (M R G : Type) (W : World ℝ M R G) (m : MinArgs ℝ M) (g : G) (rng : R) (h : Halton)
      (st : Starts ℝ), h.primes = none → SaneArgs m.opt → m.opt.est.isNone = false →
      WellPosed (ds.map Dim.real) m st → st.all.length = k → m.nRandomStarts.getD m.nInitialPoints = n →
      Patient m.callback.callables → Reliable W (searched m.opt.est.isGP (ds.map Dim.real)) →
      (∀ g, ProducesHalton W g h (searched m.opt.est.isGP (ds.map Dim.real))) →
      TotalOn m.opt.perSecond (ds.map Dim.real) func →
      Reports (f + ε) (baseMinimize exact W ⟨ds.map Dim.real, some g⟩ func m rng) := by
  obtain ⟨δ, hδ, hnear⟩ := hcont ε hε
  obtain ⟨box, b1, b2, b3⟩ := box_around ds xs hd hx δ hδ
  obtain ⟨N, hN⟩ := C140_halton_box ds hne hd box b1 b2 k
  exact ⟨N, fun n hn M R G W m g rng h st hpr h1 h2 h3 h4 h5 h6 h7 h8 h9 =>
    hN n hn M R G W func (f + ε) m g rng h st hpr h1 h2 h3 h4 h5 h6 h7 h8 h9
      fun ys hy => hnear _ (b3 ys hy).1 (b3 ys hy).2⟩

/-! ## Examples -/

/-- A model-based search from the points `(1, 0)` and `(4, 1)` with `n` generated initial points, which a callback stops
after the starting points if `stop`; the values of the starting points are given if `known`. -/
noncomputable def startedRun (n : Nat) (known stop : Bool) : MinArgs ℝ Unit :=
  { squareRun n with
    nCalls := n + 7
    x0 := (Starts.points [[.num 1, .num 0], [.num 4, .num 1]] : Starts ℝ).toX0
    y0 := if known then .iter [.num (.fin 8), .num (.fin 2)] else .none
    callback := if stop then .one (fun _ => .ok (some true)) else .none }

theorem startedRun_posed (n : Nat) (known stop : Bool) : WellPosed (squareDims.map Dim.real) (startedRun n known stop)
    (.points [[.num 1, .num 0], [.num 4, .num 1]]) := by
  refine ⟨rfl, by simp [Starts.Proper], ?_, ?_, ?_, .inr (by simp [Starts.all]), ?_, ?_, ?_, ?_⟩
  · intro p hp
    simp only [Starts.all, List.mem_cons, List.not_mem_nil, or_false] at hp
    rcases hp with rfl | rfl
    · exact .cons ⟨1, rfl, by norm_num, by norm_num⟩ (.cons ⟨0, rfl, by norm_num, by norm_num⟩ .nil)
    · exact .cons ⟨4, rfl, by norm_num, by norm_num⟩ (.cons ⟨1, rfl, by norm_num, by norm_num⟩ .nil)
  · cases known
    · exact .inl rfl
    · refine .inr ⟨by simp [Starts.all], rfl, ?_⟩
      intro y hy
      simp only [startedRun, if_true, Y0.given, List.mem_cons, List.not_mem_nil, or_false] at hy
      rcases hy with rfl | rfl
      · exact ⟨8, rfl⟩
      · exact ⟨2, rfl⟩
  · simp [startedRun, squareRun]
  · simp only [startedRun, squareRun, Option.getD_none]
    omega
  · intro _
    simp only [startedRun, squareRun, Option.getD_none, Starts.all, List.length_cons, List.length_nil]
    omega
  · cases stop <;> simp [startedRun]
  · cases stop <;> simp [startedRun, CbArg.callables]

theorem startedRun_sane (n : Nat) (known stop : Bool) : SaneArgs (startedRun n known stop).opt :=
  ⟨⟨_, rfl⟩, .inl rfl, .inl rfl, by norm_num [startedRun, squareRun], by norm_num [startedRun, squareRun], by rintro k ⟨⟩⟩

theorem haltonWorld_generates : Generates haltonWorld (squareDims.map Dim.real) :=
  C116_halton_generates haltonWorld {} _ (by simp [squareDims])
    (plainReal_workable (by simp [squareDims]) squareDims_plain).valid (Or.inl rfl) fun _ => haltonWorld_halton _

/-- Whether the value of `(4, 1)` is given or not and whether a callback stops the run at once or not: the result is at most
this value, 2.  Meets the hypotheses of `C140_no_worse`, `C140_starts`. -/
example (n : Nat) (known stop : Bool) (rng : List (List ℝ)) :
    Reports 2 (baseMinimize exact haltonWorld ⟨squareDims.map Dim.real, some ()⟩ bowl (startedRun n known stop) rng) := by
  refine C140_starts haltonWorld ⟨squareDims.map Dim.real, some ()⟩ bowl (startedRun n known stop) _ rng
    (startedRun_sane n known stop) (plainReal_workable (by simp [squareDims]) squareDims_plain) haltonWorld_reliable
    (.inr ⟨rfl, haltonWorld_generates⟩) bowl_square (startedRun_posed n known stop) 2 ?_
  cases known
  · refine .inr ⟨rfl, [.num 4, .num 1], by simp [Starts.all], ?_⟩
    intro done y hy
    simp only [bowl, Except.ok.injEq] at hy
    exact ⟨_, by norm_num, .inl hy.symm⟩
  · exact .inl ⟨.num (.fin 2), by simp [startedRun, Y0.given], 2, le_rfl, .inl rfl⟩

/-- The search of C116 from two starting points: with enough Halton points the reported value is at most `ε`.  Meets the
hypotheses of `C140_design`, `C140_halton_box`, `C140_halton_converges`. -/
example (ε : ℝ) (hε : 0 < ε) : ∃ N, ∀ n, N ≤ n → ∀ known rng,
    Reports ε (baseMinimize exact haltonWorld ⟨squareDims.map Dim.real, some ()⟩ bowl (startedRun n known false) rng) := by
  obtain ⟨N, hN⟩ := C140_halton_converges squareDims (by simp [squareDims]) squareDims_plain bowl [3, 2]
    (.cons ⟨by norm_num, by norm_num⟩ (.cons ⟨by norm_num, by norm_num⟩ .nil)) 0 (fun ε hε => by
      refine ⟨min (ε / 2) 1, by positivity, ?_⟩
      rintro q - ⟨hl, hn⟩ done y hy
      obtain ⟨v, w, rfl⟩ := List.length_eq_two.1 hl
      obtain ⟨x, a, e1, rfl, hxa⟩ := hn 0 _ _ _ rfl rfl rfl
      obtain ⟨x', b, e2, rfl, hxb⟩ := hn 1 _ _ _ rfl rfl rfl
      simp only [Val.num.injEq] at e1 e2
      subst e1 e2
      simp only [bowl, Except.ok.injEq] at hy
      refine ⟨_, ?_, .inl hy.symm⟩
      rw [lt_min_iff, abs_sub_comm] at hxa hxb
      rw [← sq_abs (a - 3), ← sq_abs (b - 2)]
      nlinarith [abs_nonneg (a - 3), abs_nonneg (b - 2), hxa.1, hxa.2, hxb.1, hxb.2]) ε hε 2
  refine ⟨N, fun n hn known rng => ?_⟩
  have := hN n hn Unit _ Unit haltonWorld (startedRun n known false) () rng {} _ rfl (startedRun_sane n known false) rfl
    (startedRun_posed n known false) rfl rfl (by simp [startedRun, Patient, CbArg.callables]) haltonWorld_reliable
    (fun _ => haltonWorld_halton _) bowl_square
  simpa using this

end Skopt

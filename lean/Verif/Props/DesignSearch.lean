import Verif.Lemmas.DesignSearch
import Verif.Props.RandomSearch
import Verif.Props.Discrepancy

/-!
# C116: a search with quasi-random initial points comes arbitrarily close to the optimum, whatever the luck

The counterpart of C108 without probabilities.
-/

namespace Skopt

variable {M R G : Type}

/-! ## Specification -/

/-- The generator object `g` answers as `Halton` with the attributes `h` does: for every number of points and every state
of the random generator the points are those of `Halton.generate` for some skip that the attributes allow. -/
def ProducesHalton (W : World ℝ M R G) (g : G) (h : Halton) (dims : List (Dim ℝ)) : Prop :=
  ∀ (n : ℤ) (r : R), 0 < n → ∃ draw, GoodSkip h draw ∧ W.generate g dims n r = (g, h.generate exact dims n.toNat draw)

/-- A minimisation of `n_calls` evaluations which begins with `n` generated points, by a surrogate of any kind, without
starting points, with callbacks that neither raise nor stop it. -/
structure BeginsWith (n : Nat) (m : MinArgs ℝ M) : Prop where
  sane : SaneArgs m.opt
  est : m.opt.est.isNone = false
  x0 : m.x0 = .none
  y0 : m.y0 = .none
  initial : m.nRandomStarts.getD m.nInitialPoints = n
  some : 0 < n
  budget : (n : ℤ) ≤ m.nCalls
  callback : m.callback ≠ .invalid
  patient : Patient m.callback.callables

/-! ## Lemmas -/

theorem plainReal_workable {ds : List (RealDim ℝ)} (hne : ds ≠ []) (hd : ∀ d ∈ ds, PlainReal d) :
    Workable (ds.map Dim.real) := by
  refine ⟨by simpa using hne, ?_, ?_, ?_, ?_⟩
  all_goals
    intro d h
    obtain ⟨d', h', rfl⟩ := List.mem_map.1 h
    obtain ⟨h1, h2, h3, h4⟩ := hd d' h'
  · exact (hd d' h').valid
  · intro h
    rw [h2] at h
    cases h
  · rcases h4 with h | h
    · exact Or.inr (Or.inl h2)
    · exact Or.inl h
  · rintro v ⟨x, rfl, _, _⟩
    show d'.cast x = x
    rw [h3]
    rfl

theorem searched_real (gp : Bool) (ds : List (RealDim ℝ)) : ∃ ds' : List (RealDim ℝ),
    searched gp (ds.map Dim.real) = ds'.map Dim.real ∧ ds'.length = ds.length ∧
    ((∀ d ∈ ds, PlainReal d) → ∀ d ∈ ds', PlainReal d) ∧ (∀ box, BoxOf ds box → BoxOf ds' box) ∧
    ∀ box, spaceShare ds' box = spaceShare ds box := by
  cases gp with
  | false => exact ⟨ds, rfl, rfl, id, fun _ h => h, fun _ => rfl⟩
  | true =>
    refine ⟨ds.map fun d => { d with transform := .normalize }, ?_, by simp, ?_, ?_, ?_⟩
    · simp [searched, Dim.normalized]
    · intro h d hd
      obtain ⟨d', hd', rfl⟩ := List.mem_map.1 hd
      obtain ⟨h1, h2, h3, h4⟩ := h d' hd'
      exact ⟨h1, h2, h3, Or.inr rfl⟩
    · intro box h
      unfold BoxOf at h ⊢
      rw [List.forall₂_map_left_iff]
      exact h
    · intro box
      unfold spaceShare
      rw [List.zipWith_map_left]

open Classical in
theorem exists_of_regionCount {box : List (ℝ × ℝ)} {pts : List (Point ℝ)} (h : 0 < spaceRegionCount box pts) :
    ∃ xs : List ℝ, xs.map Val.num ∈ pts ∧ InRegion box xs := by
  unfold spaceRegionCount at h
  obtain ⟨p, hp⟩ := List.exists_mem_of_length_pos h
  rw [List.mem_filter] at hp
  obtain ⟨h1, h2⟩ := hp
  rw [decide_eq_true_iff] at h2
  obtain ⟨xs, rfl, hx⟩ := h2
  exact ⟨xs, h1, hx⟩

/-! ## C116 -/

/-- **C116 (any generator).** If one of the points of the initial design is one at which the objective never exceeds `c`,
the run reports at most `c`: every point of the design is evaluated, and nothing that happens later spoils the result. -/
theorem C116_design (W : World ℝ M R G) (sh : Shared ℝ G) (func : Objective ℝ) (m : MinArgs ℝ M) (rng : R) (c : ℝ)
    (n : Nat) (hm : BeginsWith n m) (hd : Workable (searched m.opt.est.isGP sh.dims))
    (hW : Reliable W (searched m.opt.est.isGP sh.dims)) (hfunc : TotalOn m.opt.perSecond sh.dims func)
    (g g' : G) (hgen : sh.gen = some g) (P : List (Point ℝ))
    (hP : W.generate g (searched m.opt.est.isGP sh.dims) n (W.seed rng).2 = (g', searched m.opt.est.isGP sh.dims, .ok P))
    (hlen : P.length = n) (hmem : ∀ p ∈ P, InSpace exact sh.dims p) (hgood : ∃ p ∈ P, p ∈ sublevel func c) :
    Reports c (baseMinimize exact W sh func m rng) := by
  obtain ⟨r, h1, f, h2, h3⟩ := baseMinimize_design (c := c) W sh func m rng hm.sane hd hW hm.est hfunc hm.x0 hm.y0 n
    hm.initial hm.some hm.budget hm.callback hm.patient g g' hgen P hP hlen hmem hgood
  exact ⟨r, f, h1, h2, h3⟩

/-- **C116 (Halton, a box).** Let the objective not exceed `c` in some box of positive size in a space of uniform `Real`
dimensions.  Then there is a number `N`, depending on the space and the box only, such that every run that begins with
`N` or more points of `Halton()` reports at most `c` – whatever the surrogate, the acquisition function and the states of
the random generators. -/
theorem C116_halton_box (ds : List (RealDim ℝ)) (hne : ds ≠ []) (hd : ∀ d ∈ ds, PlainReal d) (box : List (ℝ × ℝ))
    (hbox : BoxOf ds box) (hvol : 0 < spaceShare ds box) :
    ∃ N, ∀ n, N ≤ n → ∀ (M R G : Type) (W : World ℝ M R G) (func : Objective ℝ) (c : ℝ) (m : MinArgs ℝ M) (g : G) (rng : R)
      (h : Halton), h.primes = none → BeginsWith n m → Reliable W (searched m.opt.est.isGP (ds.map Dim.real)) →
      ProducesHalton W g h (searched m.opt.est.isGP (ds.map Dim.real)) →
      TotalOn m.opt.perSecond (ds.map Dim.real) func →
      (∀ xs, InRegion box xs → xs.map Val.num ∈ sublevel func c) →
      Reports c (baseMinimize exact W ⟨ds.map Dim.real, some g⟩ func m rng) := by
  have key : ∀ gp : Bool, ∃ N, ∀ n, N ≤ n → ∀ (h : Halton) (draw : ℤ), h.primes = none → GoodSkip h draw →
      ∃ pts, h.generate exact (searched gp (ds.map Dim.real)) n draw = (searched gp (ds.map Dim.real), .ok pts) ∧
        pts.length = n ∧ ∃ xs : List ℝ, xs.map Val.num ∈ pts ∧ InRegion box xs := by
    intro gp
    obtain ⟨ds', e, hl, hp, hb, hsh⟩ := searched_real gp ds
    have hne' : ds' ≠ [] := by rw [← List.length_pos_iff, hl]; exact List.length_pos_iff.2 hne
    obtain ⟨N, hN⟩ := C115_halton_converges ds' hne' (hp hd) (spaceShare ds box / 2) (by linarith)
    refine ⟨max N 1, fun n hn h draw hpr hs => ?_⟩
    obtain ⟨pts, h1, h2, h3⟩ := hN n (le_trans (le_max_left _ _) hn) h draw hpr hs
    rw [e]
    refine ⟨pts, ?_, h2, exists_of_regionCount ?_⟩
    · refine Prod.ext ?_ h1
      exact withNormalized_restores _ (fun d hd' => by
        obtain ⟨d', h', rfl⟩ := List.mem_map.1 hd'
        exact (hp hd d' h').valid.legalTransform) _ h1
    · have h4 := h3 box (hb box hbox)
      rw [hsh] at h4
      by_contra h0
      have h0 : spaceRegionCount box pts = 0 := by omega
      rw [h0, Nat.cast_zero, zero_div, zero_sub, abs_neg, abs_of_pos hvol] at h4
      linarith
  obtain ⟨N₁, hN₁⟩ := key true
  obtain ⟨N₂, hN₂⟩ := key false
  refine ⟨max N₁ N₂, fun n hn M R G W func c m g rng h hpr hm hW hg hfunc hsub => ?_⟩
  have hboth : ∀ gp : Bool, ∀ (h : Halton) (draw : ℤ), h.primes = none → GoodSkip h draw →
      ∃ pts, h.generate exact (searched gp (ds.map Dim.real)) n draw = (searched gp (ds.map Dim.real), .ok pts) ∧
        pts.length = n ∧ ∃ xs : List ℝ, xs.map Val.num ∈ pts ∧ InRegion box xs := by
    intro gp
    cases gp with
    | true => exact hN₁ n ((le_max_left _ _).trans hn)
    | false => exact hN₂ n ((le_max_right _ _).trans hn)
  obtain ⟨draw, hs, hgen⟩ := hg n (W.seed rng).2 (by exact_mod_cast hm.some)
  obtain ⟨pts, h1, h2, xs, h3, h4⟩ := hboth m.opt.est.isGP h draw hpr hs
  rw [Int.toNat_natCast, h1] at hgen
  have hwork : Workable (searched m.opt.est.isGP (ds.map Dim.real)) := by
    obtain ⟨ds', e, hl, hp, -, -⟩ := searched_real m.opt.est.isGP ds
    rw [e]
    exact plainReal_workable (by rw [← List.length_pos_iff, hl]; exact List.length_pos_iff.2 hne) (hp hd)
  refine C116_design W ⟨ds.map Dim.real, some g⟩ func m rng c n hm hwork hW hfunc g g rfl pts hgen h2 ?_
    ⟨_, h3, hsub xs h4⟩
  obtain ⟨M', pts', -, -, -, -, h5, -, h6⟩ := C21_halton_partial h (searched m.opt.est.isGP (ds.map Dim.real)) draw
    hwork.nonempty hwork.valid (Or.inl hpr) hs n hm.some
  rw [h1] at h5
  injection h5 with h5
  subst h5
  exact fun p hp => inSpace_searched.1 (h6 p hp)

/-- A box around a point of the space. -/
theorem box_around : ∀ (ds : List (RealDim ℝ)) (xs : List ℝ), (∀ d ∈ ds, PlainReal d) →
    List.Forall₂ (fun (d : RealDim ℝ) (x : ℝ) => d.low ≤ x ∧ x ≤ d.high) ds xs → ∀ δ : ℝ, 0 < δ →
    ∃ box, BoxOf ds box ∧ 0 < spaceShare ds box ∧ ∀ ys, InRegion box ys → InSpace exact (ds.map Dim.real) (ys.map Val.num) ∧
      Near δ (ds.map Dim.real) (xs.map Val.num) (ys.map Val.num) := by
  intro ds xs hd hx δ hδ
  induction hx with
  | nil =>
    refine ⟨[], .nil, by simp [spaceShare], fun ys hy => ?_⟩
    cases hy
    exact ⟨.nil, rfl, fun i d v w h => by simp at h⟩
  | @cons d x ds xs h1 _ ih =>
    obtain ⟨box, b1, b2, b3⟩ := ih fun d' h' => hd d' (by simp [h'])
    have hlt := (hd d (by simp)).1
    obtain ⟨hx1, hx2⟩ := h1
    have hw : max d.low (x - δ / 2) < min d.high (x + δ / 2) := by
      rw [max_lt_iff, lt_min_iff, lt_min_iff]
      refine ⟨⟨hlt, by linarith⟩, by linarith, by linarith⟩
    refine ⟨(max d.low (x - δ / 2), min d.high (x + δ / 2)) :: box,
      .cons ⟨le_max_left _ _, hw.le, min_le_left _ _⟩ b1, ?_, ?_⟩
    · unfold spaceShare at b2 ⊢
      rw [List.zipWith_cons_cons, List.prod_cons]
      exact mul_pos (div_pos (by simpa using hw) (by linarith)) b2
    · intro ys hy
      cases hy with
      | @cons _ y _ ys hy1 hy2 =>
        obtain ⟨c1, c2, c3⟩ := b3 ys hy2
        obtain ⟨g1, g2⟩ := hy1
        rw [max_le_iff] at g1
        rw [lt_min_iff] at g2
        refine ⟨.cons ⟨y, rfl, g1.1, g2.1.le⟩ c1, by simpa using c2, ?_⟩
        intro i e v w e1 e2 e3
        cases i with
        | zero =>
          simp only [List.map_cons, List.getElem?_cons_zero, Option.some.injEq] at e1 e2 e3
          subst e1 e2 e3
          refine ⟨x, y, rfl, rfl, ?_⟩
          rw [abs_lt]
          constructor <;> linarith [g1.2, g2.2]
        | succ i =>
          simp only [List.map_cons, List.getElem?_cons_succ] at e1 e2 e3
          exact c3 i e v w e1 e2 e3

/-- **C116 (Halton, convergence).** In a space of uniform `Real` dimensions let `x` be a point near which the objective
exceeds `f` only by little (such as a minimiser of a continuous function, `f` being the minimum).  For every `ε > 0` there
is a number `N` such that every run that begins with `N` or more points of `Halton()` reports at most `f + ε`. -/
theorem C116_halton_converges (ds : List (RealDim ℝ)) (hne : ds ≠ []) (hd : ∀ d ∈ ds, PlainReal d) (func : Objective ℝ)
    (xs : List ℝ) (hx : List.Forall₂ (fun (d : RealDim ℝ) (x : ℝ) => d.low ≤ x ∧ x ≤ d.high) ds xs) (f : ℝ)
    (hcont : ∀ ε > 0, ∃ δ > 0, ∀ q, InSpace exact (ds.map Dim.real) q → Near δ (ds.map Dim.real) (xs.map Val.num) q →
      q ∈ sublevel func (f + ε)) (ε : ℝ) (hε : 0 < ε) :
    ∃ N, ∀ n, N ≤ n → ∀ (M R G : Type) (W : World ℝ M R G) (m : MinArgs ℝ M) (g : G) (rng : R) (h : Halton),
      h.primes = none → BeginsWith n m → Reliable W (searched m.opt.est.isGP (ds.map Dim.real)) →
      ProducesHalton W g h (searched m.opt.est.isGP (ds.map Dim.real)) →
      TotalOn m.opt.perSecond (ds.map Dim.real) func →
      Reports (f + ε) (baseMinimize exact W ⟨ds.map Dim.real, some g⟩ func m rng) := by
  obtain ⟨δ, hδ, hnear⟩ := hcont ε hε
  obtain ⟨box, b1, b2, b3⟩ := box_around ds xs hd hx δ hδ
  obtain ⟨N, hN⟩ := C116_halton_box ds hne hd box b1 b2
  exact ⟨N, fun n hn M R G W m g rng h hpr hm hW hg hfunc => hN n hn M R G W func (f + ε) m g rng h hpr hm hW hg hfunc
    fun ys hy => hnear _ (b3 ys hy).1 (b3 ys hy).2⟩

/-- **C116 (Halton is a good generator).** A generator that answers as `Halton()` does meets what C68 and C76 ask of
generators of initial points. -/
theorem C116_halton_generates (W : World ℝ M R G) (h : Halton) (dims : List (Dim ℝ)) (hne : dims ≠ [])
    (hv : ∀ d ∈ dims, ValidDim exact d) (hb : GoodBases h dims.length) (hW : ∀ g, ProducesHalton W g h dims) :
    Generates W dims := by
  intro g n r hn
  obtain ⟨draw, hs, hg⟩ := hW g n r hn
  obtain ⟨M', pts, -, -, -, -, h5, h6, h7⟩ := C21_halton_partial h dims draw hne hv hb hs n.toNat (by omega)
  have h1 := withNormalized_restores _ (fun d hd => (hv d hd).legalTransform) _ h5
  refine ⟨g, pts, ?_, by rw [h6]; omega, h7⟩
  rw [hg]
  exact Prod.ext rfl (Prod.ext h1 h5)

/-! ## An example -/

/-- `tapeWorld` with `Halton()` as generator of initial points. -/
noncomputable def haltonWorld : World ℝ Unit (List (List ℝ)) Unit :=
  { tapeWorld with generate := fun g dims n _ => (g, ({} : Halton).generate exact dims n.toNat 0) }

/-- `[Real(0, 10), Real(-5, 5)]`. -/
noncomputable def squareDims : List (RealDim ℝ) :=
  [⟨0, 10, .uniform, 10, .identity, none, id⟩, ⟨-5, 5, .uniform, 10, .identity, none, id⟩]

theorem squareDims_plain : ∀ d ∈ squareDims, PlainReal d := by
  intro d hd
  simp only [squareDims, List.mem_cons, List.not_mem_nil, or_false] at hd
  rcases hd with rfl | rfl
  · exact ⟨by norm_num, rfl, rfl, Or.inl rfl⟩
  · exact ⟨by norm_num, rfl, rfl, Or.inl rfl⟩

theorem haltonWorld_reliable : Reliable haltonWorld (squareDims.map Dim.real) := by
  have h := tapeWorld_reliable_of (squareDims.map Dim.real) (by
    intro d hd raw
    simp only [squareDims, List.map_cons, List.map_nil, List.mem_cons, List.not_mem_nil, or_false] at hd
    rcases hd with rfl | rfl <;> exact ⟨fun h => (by cases h), trivial⟩)
  exact ⟨h.fit, h.predict, h.draws, h.acquisition, h.argsort, h.lbfgs, h.multinomial, h.log⟩

/-- A model-based search which begins with `n` generated points. -/
def squareRun (n : Nat) : MinArgs ℝ Unit :=
  { opt := { est := { isNone := false, isRegressor := true }, acq := some .EI, acqOptimizer := .sampling }
    nCalls := n + 5, nInitialPoints := n }

theorem squareRun_begins {n : Nat} (hn : 0 < n) : BeginsWith n (squareRun n) :=
  ⟨⟨⟨_, rfl⟩, .inl rfl, .inl rfl, by norm_num [squareRun], by norm_num [squareRun], by rintro k ⟨⟩⟩, rfl, rfl, rfl, rfl, hn,
    by simp [squareRun], by simp [squareRun], by simp [squareRun, Patient, CbArg.callables]⟩

theorem haltonWorld_halton (dims : List (Dim ℝ)) : ProducesHalton haltonWorld () {} dims :=
  fun _ _ _ => ⟨0, Or.inl ⟨le_rfl, rfl⟩, rfl⟩

theorem bowl_square : TotalOn false (squareDims.map Dim.real) bowl := by
  intro done p hp
  unfold squareDims at hp
  obtain ⟨x, vs, ⟨a, rfl, -, -⟩, h, rfl⟩ := List.forall₂_cons_left_iff.1 hp
  obtain ⟨y, ws, ⟨k, rfl, -, -⟩, h', rfl⟩ := List.forall₂_cons_left_iff.1 h
  cases h'
  exact ⟨_, rfl, _, rfl⟩

/-- Meets the hypotheses of `C116_halton_generates`. -/
example : Generates haltonWorld (squareDims.map Dim.real) :=
  C116_halton_generates haltonWorld {} _ (by simp [squareDims])
    (plainReal_workable (by simp [squareDims]) squareDims_plain).valid (Or.inl rfl) fun _ => haltonWorld_halton _

/-- The search for the minimum of `(x - 3)² + (y - 2)²` over `Real(0, 10)` and `Real(-5, 5)`: with enough Halton points
the reported value is at most `ε`.  Meets the hypotheses of `C116_design`, `C116_halton_box`,
`C116_halton_converges`. -/
example (ε : ℝ) (hε : 0 < ε) : ∃ N, ∀ n, N ≤ n → 0 < n → ∀ rng,
    Reports ε (baseMinimize exact haltonWorld ⟨squareDims.map Dim.real, some ()⟩ bowl (squareRun n) rng) := by
  obtain ⟨N, hN⟩ := C116_halton_converges squareDims (by simp [squareDims]) squareDims_plain bowl [3, 2]
    (.cons ⟨by norm_num, by norm_num⟩ (.cons ⟨by norm_num, by norm_num⟩ .nil)) 0 (fun ε hε => by
      refine ⟨min (ε / 2) 1, by positivity, ?_⟩
      rintro q - ⟨hl, hn⟩ done y hy
      obtain ⟨v, w, rfl⟩ := List.length_eq_two.1 hl
      obtain ⟨x, a, e1, rfl, hxa⟩ := hn 0 _ _ _ rfl rfl rfl
      obtain ⟨x', b, e2, rfl, hxb⟩ := hn 1 _ _ _ rfl rfl rfl
      simp only [Val.num.injEq] at e1 e2
      subst e1 e2
      simp only [bowl, Except.ok.injEq] at hy
      refine ⟨_, ?_, .inl hy.symm⟩
      rw [lt_min_iff, abs_sub_comm] at hxa hxb
      rw [← sq_abs (a - 3), ← sq_abs (b - 2)]
      nlinarith [abs_nonneg (a - 3), abs_nonneg (b - 2), hxa.1, hxa.2, hxb.1, hxb.2]) ε hε
  refine ⟨N, fun n hn hpos rng => ?_⟩
  have := hN n hn Unit _ Unit haltonWorld (squareRun n) () rng {} rfl (squareRun_begins hpos) haltonWorld_reliable
    (haltonWorld_halton _) bowl_square
  simpa using this

end Skopt

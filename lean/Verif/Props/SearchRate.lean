import Verif.Props.DesignSearch
import Verif.Props.SobolAll
import Verif.Props.GridFactorial
import Verif.Props.LhsAdditive

/-!
# C135: how close a search with a space-filling initial design comes to the optimum

C116 with numbers: the spacing of the design bounds the error.
-/

namespace Skopt

variable {M R G : Type}

/-! ## Specification -/

/-- Every coordinate of `ys` is within `ρ r` of the one of `xs`. -/
def WithinEach (ρ : Nat → ℝ) (xs ys : List ℝ) : Prop :=
  ys.length = xs.length ∧ ∀ (r : Nat) (x y : ℝ), xs[r]? = some x → ys[r]? = some y → |x - y| ≤ ρ r

/-- Wherever one is in the space, one of the points is near. -/
def Dense (ds : List (RealDim ℝ)) (ρ : Nat → ℝ) (pts : List (Point ℝ)) : Prop :=
  ∀ xs : List ℝ, List.Forall₂ (fun (d : RealDim ℝ) (x : ℝ) => d.low ≤ x ∧ x ≤ d.high) ds xs →
    ∃ ys : List ℝ, ys.map Val.num ∈ pts ∧ WithinEach ρ xs ys

/-- The length of the range of dimension `r`. -/
noncomputable def span (ds : List (RealDim ℝ)) (r : Nat) : ℝ := (ds[r]?.map fun d => d.high - d.low).getD 0

/-! ## Lemmas -/

theorem stratum_near {N : Nat} (hN : 0 < N) {lo hi x : ℝ} (hlt : lo < hi) (hx : lo ≤ x ∧ x ≤ hi) :
    ∃ c < N, ∀ y, InStratum N c ((y - lo) / (hi - lo)) → |x - y| ≤ (hi - lo) / N := by
  have hN' : (0 : ℝ) < N := by exact_mod_cast hN
  have hs : 0 < hi - lo := sub_pos.2 hlt
  have key : ∃ c < N, (c : ℝ) / N ≤ (x - lo) / (hi - lo) ∧ (x - lo) / (hi - lo) ≤ ((c : ℝ) + 1) / N := by
    have h0 : 0 ≤ (x - lo) / (hi - lo) := div_nonneg (by linarith) hs.le
    have h1 : (x - lo) / (hi - lo) ≤ 1 := by rw [div_le_one hs]; linarith
    rcases h1.lt_or_eq with h1 | h1
    · have hu : 0 ≤ (x - lo) / (hi - lo) * N := by positivity
      refine ⟨⌊(x - lo) / (hi - lo) * N⌋₊, ?_, ?_, ?_⟩
      · rw [Nat.floor_lt hu]; nlinarith
      · rw [div_le_iff₀ hN']; exact Nat.floor_le hu
      · rw [le_div_iff₀ hN']; exact (Nat.lt_floor_add_one _).le
    · refine ⟨N - 1, by omega, ?_, ?_⟩
      · rw [h1, div_le_one hN']; exact_mod_cast Nat.sub_le N 1
      · rw [h1, le_div_iff₀ hN']
        have : ((N - 1 : ℕ) : ℝ) + 1 = N := by
          have : N - 1 + 1 = N := by omega
          exact_mod_cast this
        linarith
  obtain ⟨c, hc, h1, h2⟩ := key
  refine ⟨c, hc, fun y hy => ?_⟩
  obtain ⟨h3, h4⟩ := hy
  have e : |x - y| = |(x - lo) / (hi - lo) - (y - lo) / (hi - lo)| * (hi - lo) := by
    rw [← abs_of_pos hs, ← abs_mul, abs_of_pos hs]
    congr 1
    field_simp
    ring
  rw [e]
  have h5 : |(x - lo) / (hi - lo) - (y - lo) / (hi - lo)| ≤ 1 / N := by
    have : ((c : ℝ) + 1) / N = c / N + 1 / N := by ring
    rw [abs_le]
    constructor <;> linarith
  calc _ ≤ 1 / (N : ℝ) * (hi - lo) := mul_le_mul_of_nonneg_right h5 hs.le
    _ = _ := by ring

/-- A design with a point in every cell is dense. -/
theorem dense_of_cells {ds : List (RealDim ℝ)} (hd : ∀ d ∈ ds, PlainReal d) {N : Nat → Nat} (hN : ∀ r, 0 < N r)
    {pts : List (Point ℝ)} (hin : ∀ p ∈ pts, p.length = ds.length)
    (h : ∀ y : Nat → Nat, (∀ r < ds.length, y r < N r) →
      0 < spaceBoxCount ds ((List.range ds.length).map fun r => (N r, y r)) pts) :
    Dense ds (fun r => span ds r / N r) pts := by
  classical
  intro xs hx
  have hl := hx.length_eq
  have h1 : ∀ r, ∃ c, r < ds.length → c < N r ∧ ∀ d x y, ds[r]? = some d → xs[r]? = some x →
      InStratum (N r) c ((y - d.low) / (d.high - d.low)) → |x - y| ≤ (d.high - d.low) / N r := by
    intro r
    by_cases hr : r < ds.length
    · have hr' : r < xs.length := by omega
      have hxr := (List.forall₂_iff_get.1 hx).2 r hr hr'
      obtain ⟨c, hc, hy⟩ := stratum_near (hN r) (hd _ (List.getElem_mem hr)).1 hxr
      refine ⟨c, fun _ => ⟨hc, fun d x y e1 e2 hi => ?_⟩⟩
      rw [List.getElem?_eq_getElem hr] at e1
      rw [List.getElem?_eq_getElem hr'] at e2
      injection e1 with e1
      injection e2 with e2
      subst e1
      subst e2
      exact hy y hi
    · exact ⟨0, fun h => absurd h hr⟩
  choose c hc using h1
  have h2 := h c fun r hr => (hc r hr).1
  unfold spaceBoxCount at h2
  obtain ⟨p, hp⟩ := List.exists_mem_of_length_pos h2
  rw [List.mem_filter, decide_eq_true_iff] at hp
  obtain ⟨hpm, ys, rfl, hcell⟩ := hp
  have hyl : ys.length = ds.length := by
    have := hin _ hpm
    simpa using this
  refine ⟨ys, hpm, by omega, fun r x y ex ey => ?_⟩
  obtain ⟨hr, rfl⟩ := List.getElem?_eq_some_iff.1 ex
  obtain ⟨hr', rfl⟩ := List.getElem?_eq_some_iff.1 ey
  have hrd : r < ds.length := by omega
  have hst := (List.forall₂_iff_get.1 hcell).2 r (by simpa using hrd) (by simp; omega)
  simp only [List.get_eq_getElem, List.getElem_map, List.getElem_range, List.getElem_zipWith] at hst
  have := (hc r hrd).2 ds[r] xs[r] ys[r] (List.getElem?_eq_getElem hrd) (List.getElem?_eq_getElem hr) hst
  simpa [span, List.getElem?_eq_getElem hrd] using this

theorem inSpace_length {dims : List (Dim ℝ)} {p : Point ℝ} (h : InSpace exact dims p) : p.length = dims.length :=
  (List.Forall₂.length_eq h).symm

/-! ## C135, the designs -/

/-- **C135 (Halton).** With at least `∏ p_r ^ k r` points of `Halton()` (`p_r` the `r`-th prime), every point of the space has a
design point within `range_r / p_r ^ k r` in every coordinate. -/
theorem C135_halton_dense (h : Halton) (ds : List (RealDim ℝ)) (hne : ds ≠ []) (hd : ∀ d ∈ ds, PlainReal d)
    (hp : h.primes = none) (draw : ℤ) (hs : GoodSkip h draw) (k : Nat → Nat) (n : Nat)
    (hn : ((List.range ds.length).map fun r => Nat.nth Nat.Prime r ^ k r).prod ≤ n) :
    ∃ pts, (h.generate exact (ds.map Dim.real) n draw).2 = .ok pts ∧ pts.length = n ∧
      (∀ p ∈ pts, InSpace exact (ds.map Dim.real) p) ∧
      Dense ds (fun r => span ds r / (Nat.nth Nat.Prime r ^ k r : ℕ)) pts := by
  have hpr : ∀ r, 0 < Nat.nth Nat.Prime r ^ k r := fun r => pow_pos (Nat.prime_nth_prime r).pos _
  have hpos : 0 < ((List.range ds.length).map fun r => Nat.nth Nat.Prime r ^ k r).prod := by
    refine List.prod_pos fun a ha => ?_
    obtain ⟨r, _, rfl⟩ := List.mem_map.1 ha
    exact hpr r
  have hwork := plainReal_workable hne hd
  obtain ⟨M', pts, -, -, -, -, h5, h6, h7⟩ := C21_halton_partial h (ds.map Dim.real) draw
    hwork.nonempty hwork.valid (Or.inl hp) hs n (by omega)
  refine ⟨pts, h5, h6, h7, dense_of_cells hd hpr (fun p hp' => by simpa using inSpace_length (h7 p hp')) ?_⟩
  intro y hy
  obtain ⟨pts', e1, -, e2, -⟩ := C97_halton_space h ds n draw hne hd hp hs (by omega)
    ((List.range ds.length).map fun r => (Nat.nth Nat.Prime r ^ k r, y r)) (by
      unfold BaseBox
      rw [List.forall₂_map_left_iff, List.forall₂_map_right_iff, List.forall₂_same]
      intro r hr
      exact ⟨⟨k r, rfl⟩, hy r (List.mem_range.1 hr)⟩)
  rw [h5] at e1
  injection e1 with e1
  subst e1
  refine lt_of_lt_of_le ?_ e2
  rw [List.map_map]
  exact Nat.div_pos hn hpos

theorem Sobol.generate_snd {F : Type} [LinearOrder F] (A : Arith F) (mod1 : F → F) (s : Sobol) (dims : List (Dim F))
    (n : Nat) (shift : List F) (hc : ¬(s.skip ≠ 0 ∧ s.numGenerated + n > s.skip)) :
    (s.generate A mod1 dims n shift).2 = withNormalized dims (fun dims' => do
      let M ← (s.rows A dims.length n s.skip).2
      Space.inverseTransform A dims' (numRows (if s.randomize then randomShift A mod1 shift M else M))) := by
  unfold Sobol.generate
  rw [if_neg hc]
  simp only
  split <;> rfl

/-- **C135 (Sobol).** With at least `2 ^ (Σ k r + t)` points of `Sobol(skip, randomize=False)`, `t` as in C105, every point of the
space has a design point within `range_r / 2 ^ k r` in every coordinate. -/
theorem C135_sobol_dense (skip : Nat) (s : Sobol) (hs : Sobol.new skip false = .ok s)
    (ds : List (RealDim ℝ)) (hne : ds ≠ []) (h40 : ds.length ≤ 40) (hd : ∀ d ∈ ds, PlainReal d) (n : Nat)
    (shift : List ℝ) (hmax : skip + n ≤ 2 ^ 30 - 1) (hbud : skip ≠ 0 → n ≤ skip) (k : Nat → Nat) (K t : Nat)
    (ht : t = ∑ r ∈ (Finset.range ds.length).filter (fun r => k r ≠ 0), (sobolDegree r - 1))
    (hK : K = (∑ r ∈ Finset.range ds.length, k r) + t) (h30 : K ≤ 30) (hn : 2 ^ K ≤ n) :
    ∃ pts, (s.generate exact Int.fract (ds.map Dim.real) n shift).2 = (ds.map Dim.real, .ok pts) ∧ pts.length = n ∧
      (∀ p ∈ pts, InSpace exact (ds.map Dim.real) p) ∧ Dense ds (fun r => span ds r / (2 ^ k r : ℕ)) pts := by
  have hn1 : 1 ≤ n := le_trans (Nat.one_le_two_pow) hn
  obtain ⟨pts, h1, h2, -⟩ := C105_sobol_boxes skip s hs ds hne h40 hd n shift hn1 hmax hbud k (fun _ => 0)
    (fun r _ => by positivity) K t ht hK h30
  have hv : ∀ d ∈ ds.map Dim.real, ValidDim exact d := (plainReal_workable hne hd).valid
  have hw : ∀ d ∈ ds.map Dim.real, HasLegalTransform d := fun d h => (hv d h).legalTransform
  have hin : (s.generate exact Int.fract (ds.map Dim.real) n shift).2.1 = ds.map Dim.real ∧
      ∀ p ∈ pts, InSpace exact (ds.map Dim.real) p := by
    by_cases hc : s.skip ≠ 0 ∧ s.numGenerated + n > s.skip
    · unfold Sobol.generate at h1
      rw [if_pos hc] at h1
      simp at h1
    · have e := Sobol.generate_snd exact Int.fract s (ds.map Dim.real) n shift hc
      rw [e] at h1 ⊢
      refine ⟨withNormalized_restores _ hw _ h1, ?_⟩
      rw [withNormalized_snd _ hw, bind_eq_ok] at h1
      obtain ⟨M', -, h1⟩ := h1
      exact (unit_points_in_space exact_orderly hv h1).2
  refine ⟨pts, Prod.ext hin.1 h1, h2, hin.2, dense_of_cells hd (fun r => by positivity)
    (fun p hp' => by simpa using inSpace_length (hin.2 p hp')) ?_⟩
  intro y hy
  obtain ⟨pts', e1, -, e2, -⟩ := C105_sobol_boxes skip s hs ds hne h40 hd n shift hn1 hmax hbud k y hy K t ht hK h30
  rw [h1] at e1
  injection e1 with e1
  subst e1
  exact lt_of_lt_of_le (Nat.mul_pos (Nat.div_pos hn (by positivity)) (by positivity)) e2

theorem grid_near {s : Nat} (hs : 1 ≤ s) {lo hi x : ℝ} (hlt : lo < hi) (hx : lo ≤ x ∧ x ≤ hi) :
    ∃ i : Nat, (1 ≤ i ∧ i ≤ s) ∧ |x - (lo + i * ((hi - lo) / (s + 1)))| ≤ (hi - lo) / (s + 1) := by
  have hs' : (0 : ℝ) < s + 1 := by positivity
  have hr : 0 < hi - lo := sub_pos.2 hlt
  set w := (hi - lo) / (s + 1) with hw
  have hwp : 0 < w := div_pos hr hs'
  have hhi : hi = lo + (s + 1) * w := by rw [hw]; field_simp; ring
  have key : ∃ i : Nat, (1 ≤ i ∧ i ≤ s) ∧ |(x - lo) / w - i| ≤ 1 := by
    have h0 : 0 ≤ (x - lo) / w := div_nonneg (by linarith) hwp.le
    have h1 : (x - lo) / w ≤ s + 1 := by rw [div_le_iff₀ hwp]; linarith
    by_cases ha : (x - lo) / w < 1
    · refine ⟨1, ⟨le_rfl, hs⟩, ?_⟩
      rw [abs_le, Nat.cast_one]; constructor <;> linarith
    · rw [not_lt] at ha
      by_cases hb : (x - lo) / w < s + 1
      · have hfl : ⌊(x - lo) / w⌋₊ < s + 1 := by
          rw [Nat.floor_lt h0]; exact_mod_cast hb
        refine ⟨⌊(x - lo) / w⌋₊, ⟨Nat.le_floor (by exact_mod_cast ha), by omega⟩, ?_⟩
        have e1 := Nat.floor_le h0
        have e2 := Nat.lt_floor_add_one ((x - lo) / w)
        rw [abs_le]; constructor <;> linarith
      · refine ⟨s, ⟨hs, le_rfl⟩, ?_⟩
        rw [abs_le]; constructor <;> linarith
  obtain ⟨i, hi1, h⟩ := key
  refine ⟨i, hi1, ?_⟩
  have e : x - (lo + i * w) = ((x - lo) / w - i) * w := by field_simp; ring
  rw [e, abs_mul, abs_of_pos hwp]
  nlinarith

/-- **C135 (Grid).** In two dimensions with `use_full_layout=True` and the default `border='exclude'`, every point of the space has a
grid point within `range_r / (⌊√n⌋ + 1)` in every coordinate. -/
theorem C135_grid_dense (d₁ d₂ : RealDim ℝ) (h₁ : PlainReal d₁) (h₂ : PlainReal d₂) (ap : Border)
    (n : Nat) (hn : 0 < n) (perm : Nat → List Nat) (hp : ∀ k, (perm k).Perm (List.range k)) (pts : List (Point ℝ))
    (h : (({ border := .exclude, useFullLayout := true, appendBorder := ap } : Grid).generate exact
      [.real d₁, .real d₂] n perm).2 = .ok pts) :
    Dense [d₁, d₂] (fun r => span [d₁, d₂] r / (Nat.sqrt n + 1)) pts := by
  intro xs hx
  obtain ⟨x, xs', hx1, hx2, rfl⟩ := List.forall₂_cons_left_iff.1 hx
  obtain ⟨y, xs'', hy1, hy2, rfl⟩ := List.forall₂_cons_left_iff.1 hx2
  cases hy2
  have hs : 1 ≤ Nat.sqrt n := Nat.sqrt_pos.2 hn
  obtain ⟨i, hi, ei⟩ := grid_near hs h₁.1 hx1
  obtain ⟨j, hj, ej⟩ := grid_near hs h₂.1 hy1
  refine ⟨[_, _], C102_full_layout_exclude_partial d₁ d₂ h₁ h₂ ap n hn perm hp pts h i j hi hj, rfl, ?_⟩
  intro r a b ea eb
  match r with
  | 0 =>
    simp only [List.getElem?_cons_zero, Option.some.injEq] at ea eb
    subst ea eb
    simpa [span] using ei
  | 1 =>
    simp only [List.getElem?_cons_succ, List.getElem?_cons_zero, Option.some.injEq] at ea eb
    subst ea eb
    simpa [span] using ej
  | r + 2 => simp at ea

/-- Seven grid points in `Real(-5, 10)` × `Real(0, 15)`: none is further than 5 from a grid point in any coordinate.
Meets the hypotheses of `C135_grid_dense`. -/
example : ∃ pts, (({} : Grid).generate exact ([⟨-5, 10, .uniform, 10, .identity, none, id⟩,
      ⟨0, 15, .uniform, 10, .identity, none, id⟩].map Dim.real) 7 List.range).2 = .ok pts ∧
    Dense [⟨-5, 10, .uniform, 10, .identity, none, id⟩, ⟨0, 15, .uniform, 10, .identity, none, id⟩]
      (fun r => span [⟨-5, 10, .uniform, 10, .identity, none, id⟩, ⟨0, 15, .uniform, 10, .identity, none, id⟩] r /
        (Nat.sqrt 7 + 1)) pts := by
  obtain ⟨hd, pts, h⟩ := sevenGrid .exclude (by simp) true
  exact ⟨pts, h, C135_grid_dense _ _ (hd _ (by simp)) (hd _ (by simp)) _ 7 (by norm_num) List.range (fun _ => .refl _) pts h⟩

/-- Latin hypercube designs promise nothing of the kind in two dimensions: for every number of points one possible design has no point
within less than 1/2 of the corner `(1, 0)` of the unit square. -/
theorem C135_lhs_not_dense (num : LhsNum ℝ) (n : Nat) (hn : 0 < n) (c : ℝ) (hc : c < 1 / 2) :
    GoodDraw 2 n (diagonalDraw n) ∧
    ∃ pts, (({ lhsType := .classic, criterion := .none } : Lhs).generate exact num (unitSquare.map Dim.real) n
      (diagonalDraw n) []).2 = .ok pts ∧ ¬ Dense unitSquare (fun _ => c) pts := by
  refine ⟨diagonalDraw_good n, _, diagonal_points num n hn, fun h => ?_⟩
  obtain ⟨ys, hy, -, hcl⟩ := h [1, 0] (.cons ⟨by norm_num, by norm_num⟩ (.cons ⟨by norm_num, by norm_num⟩ .nil))
  obtain ⟨k, -, e⟩ := List.mem_map.1 hy
  match ys, e with
  | [a, b], e =>
    simp only [List.map_cons, List.map_nil, List.cons.injEq, Val.num.injEq, and_true] at e
    obtain ⟨rfl, rfl⟩ := e
    have h1 := hcl 0 _ _ rfl rfl
    have h2 := hcl 1 _ _ rfl rfl
    rw [abs_le] at h1 h2
    linarith [h1.2, h2.1]

/-- A thousand points, and nothing within 0.49 of the corner. -/
example (num : LhsNum ℝ) : ∃ pts, (({ lhsType := .classic, criterion := .none } : Lhs).generate exact num
    (unitSquare.map Dim.real) 1000 (diagonalDraw 1000) []).2 = .ok pts ∧ ¬ Dense unitSquare (fun _ => 49 / 100) pts :=
  (C135_lhs_not_dense num 1000 (by norm_num) (49 / 100) (by norm_num)).2

/-! ## C135, the search -/

/-- Away from `xs` the objective exceeds `v` by at most `L r` per unit of coordinate `r`; such as a function with these Lipschitz
constants whose value at `xs` is `v`. -/
def RisesAtMost (func : Objective ℝ) (ds : List (RealDim ℝ)) (L : Nat → ℝ) (xs : List ℝ) (v : ℝ) : Prop :=
  ∀ ys : List ℝ, InSpace exact (ds.map Dim.real) (ys.map Val.num) →
    ys.map Val.num ∈ sublevel func (v + ∑ r ∈ Finset.range ds.length, L r * |xs.getD r 0 - ys.getD r 0|)

theorem sublevel_mono {func : Objective ℝ} {c c' : ℝ} (h : c ≤ c') : sublevel func c ⊆ sublevel func c' := by
  intro p hp done y hy
  obtain ⟨f, h1, h2⟩ := hp done y hy
  exact ⟨f, h1.trans h, h2⟩

/-- **C135 (any generator).** If the initial design of a run is dense to within `ρ r` in every coordinate, the run reports at most
`v + Σ L r * ρ r`, `v` being the value at any point of the space (such as the optimum). -/
theorem C135_search (W : World ℝ M R G) (ds : List (RealDim ℝ)) (hne : ds ≠ []) (hd : ∀ d ∈ ds, PlainReal d)
    (func : Objective ℝ) (m : MinArgs ℝ M) (rng : R) (n : Nat) (hm : BeginsWith n m)
    (hW : Reliable W (searched m.opt.est.isGP (ds.map Dim.real)))
    (hfunc : TotalOn m.opt.perSecond (ds.map Dim.real) func) (g g' : G) (P : List (Point ℝ))
    (hP : W.generate g (searched m.opt.est.isGP (ds.map Dim.real)) n (W.seed rng).2 =
      (g', searched m.opt.est.isGP (ds.map Dim.real), .ok P))
    (hlen : P.length = n) (hmem : ∀ p ∈ P, InSpace exact (ds.map Dim.real) p)
    (ρ L : Nat → ℝ) (hL : ∀ r, 0 ≤ L r) (hdense : Dense ds ρ P) (xs : List ℝ)
    (hx : List.Forall₂ (fun (d : RealDim ℝ) (x : ℝ) => d.low ≤ x ∧ x ≤ d.high) ds xs) (v : ℝ)
    (hrise : RisesAtMost func ds L xs v) :
    Reports (v + ∑ r ∈ Finset.range ds.length, L r * ρ r)
      (baseMinimize exact W ⟨ds.map Dim.real, some g⟩ func m rng) := by
  have hwork : Workable (searched m.opt.est.isGP (ds.map Dim.real)) := by
    obtain ⟨ds', e, hl, hp, -, -⟩ := searched_real m.opt.est.isGP ds
    rw [e]
    exact plainReal_workable (by rw [← List.length_pos_iff, hl]; exact List.length_pos_iff.2 hne) (hp hd)
  obtain ⟨ys, hy, hl, hc⟩ := hdense xs hx
  refine C116_design W ⟨ds.map Dim.real, some g⟩ func m rng _ n hm hwork hW hfunc g g' rfl P hP hlen hmem
    ⟨_, hy, sublevel_mono ?_ (hrise ys (hmem _ hy))⟩
  refine add_le_add_right (Finset.sum_le_sum fun r hr => mul_le_mul_of_nonneg_left ?_ (hL r)) v
  have hr' : r < xs.length := by rw [← hx.length_eq]; exact Finset.mem_range.1 hr
  refine hc r _ _ ?_ ?_
  · rw [List.getD_eq_getElem?_getD, List.getElem?_eq_getElem hr']; rfl
  · rw [List.getD_eq_getElem?_getD, List.getElem?_eq_getElem (by omega)]; rfl

/-- The dimensions a search with a Gaussian process works with have the same bounds. -/
theorem searched_bounds (gp : Bool) (ds : List (RealDim ℝ)) : ∃ φ : RealDim ℝ → RealDim ℝ,
    searched gp (ds.map Dim.real) = (ds.map φ).map Dim.real ∧
    (∀ d, (φ d).low = d.low ∧ (φ d).high = d.high ∧ (PlainReal d → PlainReal (φ d))) := by
  cases gp with
  | false => exact ⟨id, by simp [searched], fun d => ⟨rfl, rfl, id⟩⟩
  | true =>
    refine ⟨fun d => { d with transform := .normalize }, by simp [searched, Dim.normalized], fun d => ⟨rfl, rfl, ?_⟩⟩
    rintro ⟨h1, h2, h3, h4⟩
    exact ⟨h1, h2, h3, Or.inr rfl⟩

theorem dense_bounds {ds : List (RealDim ℝ)} {φ : RealDim ℝ → RealDim ℝ}
    (hφ : ∀ d, (φ d).low = d.low ∧ (φ d).high = d.high ∧ (PlainReal d → PlainReal (φ d))) {N : Nat → ℝ}
    {pts : List (Point ℝ)} (h : Dense (ds.map φ) (fun r => span (ds.map φ) r / N r) pts) :
    Dense ds (fun r => span ds r / N r) pts := by
  have hs : ∀ r, span (ds.map φ) r = span ds r := by
    intro r
    unfold span
    rw [List.getElem?_map]
    cases ds[r]? with
    | none => rfl
    | some d => simp [(hφ d).1, (hφ d).2.1]
  intro xs hx
  obtain ⟨ys, h1, h2⟩ := h xs (by
    rw [List.forall₂_map_left_iff]
    refine hx.imp fun d x h => ?_
    rw [(hφ d).1, (hφ d).2.1]
    exact h)
  refine ⟨ys, h1, ?_⟩
  simpa only [hs] using h2

/-- **C135 (Halton).** A run that begins with at least `∏ p_r ^ k r` points of `Halton()` reports at most
`v + Σ L r * range_r / p_r ^ k r`, whatever the surrogate, the acquisition function and the random states. -/
theorem C135_halton_search (W : World ℝ M R G) (ds : List (RealDim ℝ)) (hne : ds ≠ []) (hd : ∀ d ∈ ds, PlainReal d)
    (func : Objective ℝ) (m : MinArgs ℝ M) (rng : R) (n : Nat) (hm : BeginsWith n m)
    (hW : Reliable W (searched m.opt.est.isGP (ds.map Dim.real)))
    (hfunc : TotalOn m.opt.perSecond (ds.map Dim.real) func) (g : G) (h : Halton) (hp : h.primes = none)
    (hg : ProducesHalton W g h (searched m.opt.est.isGP (ds.map Dim.real))) (k : Nat → Nat)
    (hn : ((List.range ds.length).map fun r => Nat.nth Nat.Prime r ^ k r).prod ≤ n) (L : Nat → ℝ) (hL : ∀ r, 0 ≤ L r)
    (xs : List ℝ) (hx : List.Forall₂ (fun (d : RealDim ℝ) (x : ℝ) => d.low ≤ x ∧ x ≤ d.high) ds xs) (v : ℝ)
    (hrise : RisesAtMost func ds L xs v) :
    Reports (v + ∑ r ∈ Finset.range ds.length, L r * (span ds r / (Nat.nth Nat.Prime r ^ k r : ℕ)))
      (baseMinimize exact W ⟨ds.map Dim.real, some g⟩ func m rng) := by
  obtain ⟨φ, e, hφ⟩ := searched_bounds m.opt.est.isGP ds
  obtain ⟨draw, hs, hgen⟩ := hg n (W.seed rng).2 (by exact_mod_cast hm.some)
  have hd' : ∀ d ∈ ds.map φ, PlainReal d := by
    intro d h
    obtain ⟨d', h', rfl⟩ := List.mem_map.1 h
    exact (hφ d').2.2 (hd d' h')
  obtain ⟨pts, h1, h2, h3, h4⟩ := C135_halton_dense h (ds.map φ) (by simpa using hne) hd' hp draw hs k n
    (by simpa using hn)
  rw [← e] at h1 h3
  have hleg : ∀ d ∈ searched m.opt.est.isGP (ds.map Dim.real), HasLegalTransform d := by
    rw [e]
    intro d h
    exact ((plainReal_workable (by simpa using hne) hd').valid d h).legalTransform
  rw [Int.toNat_natCast] at hgen
  refine C135_search W ds hne hd func m rng n hm hW hfunc g g pts ?_ h2 (fun p hp' => inSpace_searched.1 (h3 p hp'))
    _ L hL (dense_bounds hφ h4) xs hx v hrise
  rw [hgen]
  exact Prod.ext rfl (Prod.ext (withNormalized_restores _ hleg _ h1) h1)

/-- The generator object `g` answers as a fresh `Sobol(skip, randomize=False)` does. -/
def ProducesSobol (W : World ℝ M R G) (g : G) (s : Sobol) (dims : List (Dim ℝ)) : Prop :=
  ∀ (n : ℤ) (r : R), 0 < n → ∃ g' shift, W.generate g dims n r = (g', (s.generate exact Int.fract dims n.toNat shift).2)

/-- **C135 (Sobol).** A run that begins with at least `2 ^ (Σ k r + t)` points of `Sobol(skip, randomize=False)`, `t` as in C105,
reports at most `v + Σ L r * range_r / 2 ^ k r`. -/
theorem C135_sobol_search (W : World ℝ M R G) (ds : List (RealDim ℝ)) (hne : ds ≠ []) (hd : ∀ d ∈ ds, PlainReal d)
    (h40 : ds.length ≤ 40) (func : Objective ℝ) (m : MinArgs ℝ M) (rng : R) (n : Nat) (hm : BeginsWith n m)
    (hW : Reliable W (searched m.opt.est.isGP (ds.map Dim.real)))
    (hfunc : TotalOn m.opt.perSecond (ds.map Dim.real) func) (g : G) (skip : Nat) (s : Sobol)
    (hs : Sobol.new skip false = .ok s) (hg : ProducesSobol W g s (searched m.opt.est.isGP (ds.map Dim.real)))
    (hmax : skip + n ≤ 2 ^ 30 - 1) (hbud : skip ≠ 0 → n ≤ skip) (k : Nat → Nat) (K t : Nat)
    (ht : t = ∑ r ∈ (Finset.range ds.length).filter (fun r => k r ≠ 0), (sobolDegree r - 1))
    (hK : K = (∑ r ∈ Finset.range ds.length, k r) + t) (h30 : K ≤ 30) (hn : 2 ^ K ≤ n)
    (L : Nat → ℝ) (hL : ∀ r, 0 ≤ L r)
    (xs : List ℝ) (hx : List.Forall₂ (fun (d : RealDim ℝ) (x : ℝ) => d.low ≤ x ∧ x ≤ d.high) ds xs) (v : ℝ)
    (hrise : RisesAtMost func ds L xs v) :
    Reports (v + ∑ r ∈ Finset.range ds.length, L r * (span ds r / (2 ^ k r : ℕ)))
      (baseMinimize exact W ⟨ds.map Dim.real, some g⟩ func m rng) := by
  obtain ⟨φ, e, hφ⟩ := searched_bounds m.opt.est.isGP ds
  obtain ⟨g', shift, hgen⟩ := hg n (W.seed rng).2 (by exact_mod_cast hm.some)
  have hd' : ∀ d ∈ ds.map φ, PlainReal d := by
    intro d h
    obtain ⟨d', h', rfl⟩ := List.mem_map.1 h
    exact (hφ d').2.2 (hd d' h')
  obtain ⟨pts, h1, h2, h3, h4⟩ := C135_sobol_dense skip s hs (ds.map φ) (by simpa using hne) (by simpa using h40) hd' n shift
    hmax hbud k K t (by simpa using ht) (by simpa using hK) h30 hn
  rw [← e] at h1 h3
  rw [Int.toNat_natCast, h1] at hgen
  exact C135_search W ds hne hd func m rng n hm hW hfunc g g' pts hgen h2 (fun p hp' => inSpace_searched.1 (h3 p hp'))
    _ L hL (dense_bounds hφ h4) xs hx v hrise

/-! ## Examples -/

/-- `|x - 3| + |y - 2|`. -/
def tent : Objective ℝ := fun _ p =>
  match p with
  | .seq [.num a, .num b] => .ok (.num (.fin (|a - 3| + |b - 2|)))
  | _ => .error .typeError

theorem tent_square : TotalOn false (squareDims.map Dim.real) tent := by
  intro done p hp
  unfold squareDims at hp
  obtain ⟨x, vs, ⟨a, rfl, -, -⟩, h, rfl⟩ := List.forall₂_cons_left_iff.1 hp
  obtain ⟨y, ws, ⟨k, rfl, -, -⟩, h', rfl⟩ := List.forall₂_cons_left_iff.1 h
  cases h'
  exact ⟨_, rfl, _, rfl⟩

theorem tent_rises : RisesAtMost tent squareDims (fun _ => 1) [3, 2] 0 := by
  intro ys hy done z hz
  have hl := inSpace_length hy
  obtain ⟨a, b, rfl⟩ := List.length_eq_two.1 (by simpa [squareDims] using hl)
  simp only [tent, List.map_cons, List.map_nil, Except.ok.injEq] at hz
  refine ⟨_, ?_, .inl hz.symm⟩
  simp [squareDims, Finset.sum_range_succ, abs_sub_comm]

/-- 144 Halton points suffice for `10/16 + 10/9`.  Meets the hypotheses of `C135_halton_dense`, `C135_halton_search`,
`C135_search`. -/
example (rng : List (List ℝ)) : Reports (10 / 16 + 10 / 9)
    (baseMinimize exact haltonWorld ⟨squareDims.map Dim.real, some ()⟩ tent (squareRun 144) rng) := by
  have h := C135_halton_search haltonWorld squareDims (by simp [squareDims]) squareDims_plain tent (squareRun 144) rng 144
    (squareRun_begins (by norm_num)) haltonWorld_reliable tent_square () {} rfl (haltonWorld_halton _)
    (fun r => if r = 0 then 4 else 2) (by
      simp [squareDims, List.range_succ, Nat.nth_prime_zero_eq_two, Nat.nth_prime_one_eq_three])
    (fun _ => 1) (fun _ => zero_le_one) [3, 2]
    (.cons ⟨by norm_num, by norm_num⟩ (.cons ⟨by norm_num, by norm_num⟩ .nil)) 0 tent_rises
  have e : (0 : ℝ) + ∑ r ∈ Finset.range squareDims.length, (fun _ => (1 : ℝ)) r *
      (span squareDims r / (Nat.nth Nat.Prime r ^ (if r = 0 then 4 else 2) : ℕ)) = 10 / 16 + 10 / 9 := by
    simp [squareDims, Finset.sum_range_succ, span, Nat.nth_prime_zero_eq_two, Nat.nth_prime_one_eq_three]
    norm_num
  rw [e] at h
  exact h

/-- `tapeWorld` with the Sobol generator. -/
noncomputable def sobolTapeWorld (s : Sobol) : World ℝ Unit (List (List ℝ)) Unit :=
  { tapeWorld with generate := fun g dims n _ => (g, (s.generate exact Int.fract dims n.toNat []).2) }

/-- 256 Sobol points suffice for `10/16 + 10/16`.  Meets the hypotheses of `C135_sobol_dense`, `C135_sobol_search`. -/
example (rng : List (List ℝ)) : ∃ s, Sobol.new 0 false = .ok s ∧ Reports (10 / 16 + 10 / 16)
    (baseMinimize exact (sobolTapeWorld s) ⟨squareDims.map Dim.real, some ()⟩ tent (squareRun 256) rng) := by
  obtain ⟨s, hs⟩ : ∃ s, Sobol.new 0 false = .ok s := ⟨_, rfl⟩
  refine ⟨s, hs, ?_⟩
  have hrel : Reliable (sobolTapeWorld s) (squareDims.map Dim.real) := by
    have h := haltonWorld_reliable
    exact ⟨h.fit, h.predict, h.draws, h.acquisition, h.argsort, h.lbfgs, h.multinomial, h.log⟩
  have h := C135_sobol_search (sobolTapeWorld s) squareDims (by simp [squareDims]) squareDims_plain (by simp [squareDims]) tent
    (squareRun 256) rng 256 (squareRun_begins (by norm_num)) hrel tent_square () 0 s hs (fun n r _ => ⟨(), [], rfl⟩)
    (by norm_num) (fun h => absurd rfl h) (fun _ => 4) 8 0 (by simp [squareDims, Finset.sum_range_succ]; decide)
    (by simp [squareDims]) (by norm_num) (by norm_num) (fun _ => 1) (fun _ => zero_le_one) [3, 2]
    (.cons ⟨by norm_num, by norm_num⟩ (.cons ⟨by norm_num, by norm_num⟩ .nil)) 0 tent_rises
  have e : (0 : ℝ) + ∑ r ∈ Finset.range squareDims.length, (fun _ => (1 : ℝ)) r *
      (span squareDims r / (2 ^ (fun _ : Nat => 4) r : ℕ)) = 10 / 16 + 10 / 16 := by
    simp [squareDims, Finset.sum_range_succ, span]
    norm_num
  rw [e] at h
  exact h

end Skopt

import Verif.Lemmas.UnitColumns
import Verif.Props.DesignSearch
import Verif.Props.Sobol
import Verif.Props.SearchRate

/-!
# C141, C142: what stratified designs do to single parameters
-/

namespace Skopt

variable {M R G : Type}

/-! ## Specification -/

/-- The values of a parameter with finitely many of them: the integers from `low` to `high` of a uniform `Integer`, in this
order; the categories of a `Categorical`, in some order. -/
def ValuesOf : Dim ℝ → List (Val ℝ) → Prop
  | .real _, _ => False
  | .int d, vals => d.prior = .uniform ∧ ∃ l h : ℤ, d.low = l ∧ d.high = h ∧
      vals = (List.range (h - l + 1).toNat).map fun i : Nat => .num ((l + (i : ℤ) : ℤ) : ℝ)
  | .cat c, vals => vals.Perm c.cats

/-- The generator object `g` answers as `Lhs` with the attributes `l` does: for every number of points and every state of
the random generator the points are those of `Lhs.generate` for some outcome of the permutations and uniform numbers. -/
def ProducesLhs (W : World ℝ M R G) (g : G) (num : LhsNum ℝ) (l : Lhs) (dims : List (Dim ℝ)) : Prop :=
  ∀ (n : ℤ) (r : R), 0 < n → ∃ g' first draws, (∀ d ∈ first :: draws, GoodDraw dims.length n.toNat d) ∧
    W.generate g dims n r = (g', l.generate exact num dims n.toNat first draws)

/-! ## Lemmas -/

theorem valuesOf_discrete {d : Dim ℝ} (hv : ValidDim exact d) {vals : List (Val ℝ)} (h : ValuesOf d vals)
    (h2 : 2 ≤ vals.length) : ∃ vals', Discrete d vals' ∧ vals'.Perm vals ∧ ∀ k, d = .int k → vals' = vals := by
  cases d with
  | real r => exact h.elim
  | int k =>
    obtain ⟨hp, l, u, hl, hu, rfl⟩ := h
    exact ⟨_, (discrete_int hv hp hl hu).2, .refl _, fun _ _ => rfl⟩
  | cat c =>
    obtain ⟨vals', hperm, hd⟩ := discrete_cat hv (by rw [← List.Perm.length_eq h]; exact h2)
    exact ⟨vals', hd, hperm.trans h.symm, fun k e => by cases e⟩

/-- The matrix behind a Latin hypercube design. -/
theorem lhs_matrix {num : LhsNum ℝ} {l : Lhs} {dims : List (Dim ℝ)} (hv : ∀ d ∈ dims, ValidDim exact d) {n : Nat}
    {first : LhsDraw ℝ} {draws : List (LhsDraw ℝ)} (hd : ∀ d ∈ first :: draws, GoodDraw dims.length n d)
    {pts : List (Point ℝ)} (h : (l.generate exact num dims n first draws).2 = .ok pts) :
    ∃ M, M.length = n ∧ (∀ r ∈ M, r.length = dims.length ∧ ∀ x ∈ r, 0 ≤ x ∧ x < 1) ∧
      (∀ j < dims.length, Stratified (column j M)) ∧
      Space.inverseTransform exact (dims.map Dim.normalized) (numRows M) = .ok pts := by
  unfold Lhs.generate at h
  rw [withNormalized_snd dims fun d hd => (hv d hd).legalTransform, bind_eq_ok] at h
  obtain ⟨M, hM, h⟩ := h
  have hc := C22_one_sample_per_stratum num l dims.length n first draws hd M hM
  exact ⟨M, hc.1, hc.2.1, fun j hj => (hc.2.2 j hj).2, h⟩

/-! ## C141 -/

/-- **C141 (Real).** For every `Real` parameter with uniform prior and every value `x` in its range, some point of a Latin
hypercube design of `n` points – of any type, with any criterion, for every random outcome – has this parameter within
`range / n` of `x`; the other parameters may be of any kind. -/
theorem C141_real (num : LhsNum ℝ) (l : Lhs) (dims : List (Dim ℝ)) (hv : ∀ d ∈ dims, ValidDim exact d) (n : Nat)
    (hn : 0 < n) (first : LhsDraw ℝ) (draws : List (LhsDraw ℝ)) (hd : ∀ d ∈ first :: draws, GoodDraw dims.length n d)
    (pts : List (Point ℝ)) (h : (l.generate exact num dims n first draws).2 = .ok pts) (j : Nat) (d : RealDim ℝ)
    (hj : dims[j]? = some (.real d)) (hp : PlainReal d) (x : ℝ) (hx : d.low ≤ x ∧ x ≤ d.high) :
    ∃ p ∈ pts, ∃ y, p[j]? = some (.num y) ∧ |y - x| ≤ (d.high - d.low) / n := by
  obtain ⟨M, h1, h2, h3, h4⟩ := lhs_matrix hv hd h
  have hjl := (List.getElem?_eq_some_iff.1 hj).1
  have hne : dims ≠ [] := by rintro rfl; simp at hjl
  have := column_near hne hv (by omega) h2 h4 hj hp (h3 j hjl) hx
  rwa [h1] at this

/-- **C141 (Integer, Categorical).** For every `Integer` parameter with uniform prior and every `Categorical` parameter with
`m` values, each value occurs in every Latin hypercube design of more than `2 (m - 1)` points. -/
theorem C141_values (num : LhsNum ℝ) (l : Lhs) (dims : List (Dim ℝ)) (hv : ∀ d ∈ dims, ValidDim exact d) (n : Nat)
    (first : LhsDraw ℝ) (draws : List (LhsDraw ℝ)) (hd : ∀ d ∈ first :: draws, GoodDraw dims.length n d)
    (pts : List (Point ℝ)) (h : (l.generate exact num dims n first draws).2 = .ok pts) (j : Nat) (d : Dim ℝ)
    (hj : dims[j]? = some d) (vals : List (Val ℝ)) (hvals : ValuesOf d vals) (h2 : 2 ≤ vals.length)
    (hn : 2 * (vals.length - 1) < n) (v : Val ℝ) (hmem : v ∈ vals) : ∃ p ∈ pts, p[j]? = some v := by
  obtain ⟨M, k1, k2, k3, k4⟩ := lhs_matrix hv hd h
  have hjl := (List.getElem?_eq_some_iff.1 hj).1
  have hne : dims ≠ [] := by rintro rfl; simp at hjl
  obtain ⟨vals', g1, g2, -⟩ := valuesOf_discrete (hv d (List.mem_of_getElem? hj)) hvals h2
  exact column_uses hne hv k2 k4 hj (k3 j hjl) g1 (by rw [g2.length_eq, k1]; exact hn) (g2.mem_iff.2 hmem)

theorem searched_getElem {gp : Bool} {dims : List (Dim ℝ)} {j : Nat} {d : Dim ℝ} (h : dims[j]? = some d) :
    (searched gp dims)[j]? = some (if gp then d.normalized else d) := by
  cases gp with
  | false => exact h
  | true =>
    simp only [searched, if_true, List.getElem?_map, h, Option.map_some]

/-- The design of a run that begins with Latin hypercube points. -/
theorem lhs_design {W : World ℝ M R G} {dims : List (Dim ℝ)} {m : MinArgs ℝ M} {rng : R} {n : Nat}
    (hm : BeginsWith n m) (hd : Workable (searched m.opt.est.isGP dims)) {g : G} {num : LhsNum ℝ} {l : Lhs}
    (hk : l.lhsType ≠ .other) (hc : l.criterion = .none ∨ l.criterion = .maximin ∨ l.criterion = .ratio)
    (hg : ProducesLhs W g num l (searched m.opt.est.isGP dims)) :
    ∃ g' first draws pts, (∀ d ∈ first :: draws, GoodDraw (searched m.opt.est.isGP dims).length n d) ∧
      (l.generate exact num (searched m.opt.est.isGP dims) n first draws).2 = .ok pts ∧
      W.generate g (searched m.opt.est.isGP dims) n (W.seed rng).2 = (g', searched m.opt.est.isGP dims, .ok pts) ∧
      pts.length = n ∧ ∀ p ∈ pts, InSpace exact dims p := by
  obtain ⟨g', first, draws, hdr, hgen⟩ := hg n (W.seed rng).2 (by exact_mod_cast hm.some)
  rw [Int.toNat_natCast] at hdr hgen
  obtain ⟨pts, hpts⟩ := C22_generate_succeeds num l hk hc _ hd.nonempty hd.valid n hm.some first draws hdr
  obtain ⟨-, h2, h3⟩ := C22_generate_is_image num l _ hd.valid n first draws hdr pts hpts
  refine ⟨g', first, draws, pts, hdr, hpts, ?_, h2, fun p hp => inSpace_searched.1 (h3 p hp)⟩
  rw [hgen]
  refine Prod.ext rfl (Prod.ext ?_ hpts)
  exact withNormalized_restores _ (fun d hd' => (hd.valid d hd').legalTransform) _ hpts

/-- **C141 (search over an Integer or Categorical parameter).** Suppose that the objective does not exceed `c` whenever the
`j`-th parameter has a certain one of its `m` values, whatever the values of the others.  Then every run that begins with
more than `2 (m - 1)` Latin hypercube points reports at most `c`: a parameter on which the objective depends alone is
optimised exactly. -/
theorem C141_search_values (W : World ℝ M R G) (dims : List (Dim ℝ)) (func : Objective ℝ) (m : MinArgs ℝ M) (rng : R)
    (c : ℝ) (n : Nat) (hm : BeginsWith n m) (hd : Workable (searched m.opt.est.isGP dims))
    (hW : Reliable W (searched m.opt.est.isGP dims)) (hfunc : TotalOn m.opt.perSecond dims func) (g : G)
    (num : LhsNum ℝ) (l : Lhs) (hk : l.lhsType ≠ .other)
    (hc : l.criterion = .none ∨ l.criterion = .maximin ∨ l.criterion = .ratio)
    (hg : ProducesLhs W g num l (searched m.opt.est.isGP dims)) (j : Nat) (d : Dim ℝ) (hj : dims[j]? = some d)
    (vals : List (Val ℝ)) (hvals : ValuesOf d vals) (h2 : 2 ≤ vals.length) (hn : 2 * (vals.length - 1) < n) (v : Val ℝ)
    (hv : v ∈ vals) (hgood : ∀ p, InSpace exact dims p → p[j]? = some v → p ∈ sublevel func c) :
    Reports c (baseMinimize exact W ⟨dims, some g⟩ func m rng) := by
  obtain ⟨g', first, draws, pts, h1, h3, h4, h5, h6⟩ := lhs_design (rng := rng) hm hd hk hc hg
  obtain ⟨p, hp, hpj⟩ := C141_values num l _ hd.valid n first draws h1 pts h3 j _ (searched_getElem hj) vals (by
    cases m.opt.est.isGP with
    | false => exact hvals
    | true => cases d <;> exact hvals) h2 hn v hv
  exact C116_design W ⟨dims, some g⟩ func m rng c n hm hd hW hfunc g g' rfl pts h4 h5 h6
    ⟨p, hp, hgood p (h6 p hp) hpj⟩

/-- **C141 (search over a Real parameter).** Suppose that near a value `x` of the `j`-th parameter the objective exceeds `v`
by at most `L` times the distance, whatever the values of the other parameters.  Then every run that begins with `n` Latin
hypercube points reports at most `v + L * range / n`. -/
theorem C141_search_real (W : World ℝ M R G) (dims : List (Dim ℝ)) (func : Objective ℝ) (m : MinArgs ℝ M) (rng : R)
    (n : Nat) (hm : BeginsWith n m) (hd : Workable (searched m.opt.est.isGP dims))
    (hW : Reliable W (searched m.opt.est.isGP dims)) (hfunc : TotalOn m.opt.perSecond dims func) (g : G)
    (num : LhsNum ℝ) (l : Lhs) (hk : l.lhsType ≠ .other)
    (hc : l.criterion = .none ∨ l.criterion = .maximin ∨ l.criterion = .ratio)
    (hg : ProducesLhs W g num l (searched m.opt.est.isGP dims)) (j : Nat) (d : RealDim ℝ)
    (hj : dims[j]? = some (.real d)) (hp : PlainReal d) (x : ℝ) (hx : d.low ≤ x ∧ x ≤ d.high) (v L : ℝ) (hL : 0 ≤ L)
    (hgood : ∀ p y, InSpace exact dims p → p[j]? = some (.num y) → p ∈ sublevel func (v + L * |y - x|)) :
    Reports (v + L * ((d.high - d.low) / n)) (baseMinimize exact W ⟨dims, some g⟩ func m rng) := by
  obtain ⟨g', first, draws, pts, h1, h3, h4, h5, h6⟩ := lhs_design (rng := rng) hm hd hk hc hg
  have key : ∃ p ∈ pts, ∃ y, p[j]? = some (.num y) ∧ |y - x| ≤ (d.high - d.low) / n := by
    have hs := searched_getElem (gp := m.opt.est.isGP) hj
    cases hgp : m.opt.est.isGP with
    | false =>
      rw [hgp] at hs h1 h3 hd
      exact C141_real num l _ hd.valid n hm.some first draws h1 pts h3 j d hs hp x hx
    | true =>
      rw [hgp] at hs h1 h3 hd
      exact C141_real num l _ hd.valid n hm.some first draws h1 pts h3 j { d with transform := .normalize } hs
        ⟨hp.1, hp.2.1, hp.2.2.1, .inr rfl⟩ x hx
  obtain ⟨p, hpp, y, hy, hyx⟩ := key
  refine C116_design W ⟨dims, some g⟩ func m rng _ n hm hd hW hfunc g g' rfl pts h4 h5 h6 ⟨p, hpp, ?_⟩
  intro done z hz
  obtain ⟨f, f1, f2⟩ := hgood p y (h6 p hpp) hy done z hz
  exact ⟨f, f1.trans (by nlinarith), f2⟩

/-! ## C142 -/

/-- Every two of the values occur equally often as `j`-th coordinate, up to `K`. -/
def EquallyOften (K j : Nat) (vals : List (Val ℝ)) (pts : List (Point ℝ)) : Prop :=
  ∀ v ∈ vals, ∀ w ∈ vals, occurrences j w pts ≤ occurrences j v pts + K

/-- In some order – for an `Integer` the given one – the `i`-th of `m` values occurs `n / (m - 1)` times, the first and the
last value `n / (2 (m - 1))` times, up to 2. -/
def NearestCounts (d : Dim ℝ) (j : Nat) (vals : List (Val ℝ)) (pts : List (Point ℝ)) : Prop :=
  ∃ vals' : List (Val ℝ), vals'.Perm vals ∧ (∀ k, d = .int k → vals' = vals) ∧ ∀ i v, vals'[i]? = some v →
    |(occurrences j v pts : ℝ) - pts.length * nearestShare vals.length i| ≤ 2

theorem nearest_counts {dims : List (Dim ℝ)} (hv : ∀ d ∈ dims, ValidDim exact d) {M : List (List ℝ)}
    (hn : 0 < M.length) (hrow : ∀ r ∈ M, r.length = dims.length ∧ ∀ x ∈ r, 0 ≤ x ∧ x < 1) {pts : List (Point ℝ)}
    (h : Space.inverseTransform exact (dims.map Dim.normalized) (numRows M) = .ok pts) {j : Nat} {d : Dim ℝ}
    (hj : dims[j]? = some d) (hst : Stratified (column j M)) {vals : List (Val ℝ)} (hvals : ValuesOf d vals)
    (h2 : 2 ≤ vals.length) : NearestCounts d j vals pts := by
  have hjl := (List.getElem?_eq_some_iff.1 hj).1
  have hne : dims ≠ [] := by rintro rfl; simp at hjl
  obtain ⟨vals', g1, g2, g3⟩ := valuesOf_discrete (hv d (List.mem_of_getElem? hj)) hvals h2
  refine ⟨vals', g2, g3, fun i v hi => ?_⟩
  have := column_counts hne hv hn hrow h hj hst g1 hi
  rwa [g2.length_eq] at this

/-- **C142, what holds (Latin hypercube).** In every Latin hypercube design of `n` points each inner value of an `Integer`
or `Categorical` parameter with `m` values occurs `n / (m - 1)` times and each of the two outer ones half as often, up to 2.

Missing: equal frequencies, which is false (`C142_refuted_integer`). -/
theorem C142_lhs_partial (num : LhsNum ℝ) (l : Lhs) (dims : List (Dim ℝ)) (hv : ∀ d ∈ dims, ValidDim exact d) (n : Nat)
    (hn : 0 < n) (first : LhsDraw ℝ) (draws : List (LhsDraw ℝ)) (hd : ∀ d ∈ first :: draws, GoodDraw dims.length n d)
    (pts : List (Point ℝ)) (h : (l.generate exact num dims n first draws).2 = .ok pts) (j : Nat) (d : Dim ℝ)
    (hj : dims[j]? = some d) (vals : List (Val ℝ)) (hvals : ValuesOf d vals) (h2 : 2 ≤ vals.length) :
    pts.length = n ∧ NearestCounts d j vals pts := by
  obtain ⟨M, k1, k2, k3, k4⟩ := lhs_matrix hv hd h
  have hjl := (List.getElem?_eq_some_iff.1 hj).1
  exact ⟨(C22_generate_is_image num l _ hv n first draws hd pts h).2.1,
    nearest_counts hv (by omega) k2 k4 hj (k3 j hjl) hvals h2⟩

/-- **C142, what holds (Halton).** The same for Halton designs of `b ^ k` points, where `b` is the base that the generator
uses for the parameter.

Missing: equal frequencies, which is false (`C142_refuted_integer`); other numbers of points. -/
theorem C142_halton_partial (h : Halton) (dims : List (Dim ℝ)) (draw : ℤ) (hv : ∀ d ∈ dims, ValidDim exact d)
    (hb : GoodBases h dims.length) (hs : GoodSkip h draw) (bs : List Nat) (hbs : h.bases dims.length = .ok bs) (j k : Nat)
    (b : Nat) (hbj : bs[j]? = some b) (d : Dim ℝ) (hj : dims[j]? = some d) (vals : List (Val ℝ))
    (hvals : ValuesOf d vals) (h2 : 2 ≤ vals.length) :
    ∃ pts, (h.generate exact dims (b ^ k) draw).2 = .ok pts ∧ pts.length = b ^ k ∧ NearestCounts d j vals pts := by
  have hjl := (List.getElem?_eq_some_iff.1 hj).1
  have hne : dims ≠ [] := by rintro rfl; simp at hjl
  obtain ⟨bs', s, e1, -, hlen, hb1, hu⟩ := Halton.unit_spec (List.length_pos_iff.2 hne) hb hs (b ^ k)
  rw [hbs] at e1
  injection e1 with e1
  subst e1
  obtain ⟨hjb, rfl⟩ := List.getElem?_eq_some_iff.1 hbj
  have hpos : 0 < bs[j] ^ k := Nat.pow_pos (by have := hb1 _ (List.getElem_mem hjb); omega)
  obtain ⟨M, pts, m1, m2, -, m3, m4, m5, -⟩ := C21_halton_partial h dims draw hne hv hb hs (bs[j] ^ k) hpos
  have hst := C20_halton_columns_stratified h dims.length j k draw (List.length_pos_iff.2 hne) hb hs bs hbs hjb M m1
  refine ⟨pts, m4, m5, nearest_counts hv (by omega) ?_ m3 hj hst hvals h2⟩
  rw [hu] at m1
  injection m1 with m1
  subst m1
  intro r hr
  obtain ⟨i, -, rfl⟩ := List.mem_map.1 hr
  refine ⟨by simpa using hlen, fun x hx => ?_⟩
  obtain ⟨b, hbm, rfl⟩ := List.mem_map.1 hx
  exact radicalInverse_range (hb1 b hbm) _

/-- **C142, what holds (Sobol).** The same for the first `2 ^ k` points of a new Sobol generator without skip and shift.

Missing: equal frequencies, which is false (`C142_refuted_integer`); other numbers of points. -/
theorem C142_sobol_partial (s : Sobol) (hs : Sobol.new 0 false = .ok s) (mod1 : ℝ → ℝ) (shift : List ℝ)
    (dims : List (Dim ℝ)) (hv : ∀ d ∈ dims, ValidDim exact d) (h40 : dims.length ≤ 40) (k : Nat) (hk : k ≤ 29)
    (j : Nat) (d : Dim ℝ) (hj : dims[j]? = some d) (vals : List (Val ℝ)) (hvals : ValuesOf d vals) (h2 : 2 ≤ vals.length) :
    ∃ pts, (s.generate exact mod1 dims (2 ^ k) shift).2.2 = .ok pts ∧ pts.length = 2 ^ k ∧
      NearestCounts d j vals pts := by
  have hjl := (List.getElem?_eq_some_iff.1 hj).1
  have hne : dims ≠ [] := by rintro rfl; simp at hjl
  obtain ⟨M, m1, m2, m3, m4⟩ := C24_sobol_stratified_partial false s hs dims.length k (by omega) h40 hk
  obtain ⟨-, c1, c2, -⟩ := Sobol.new_between hs
  obtain ⟨pts, p1, p2, -⟩ := unit_inverse_ok hne hv (M := M) (List.length_pos_iff.1 (by rw [m2]; positivity))
    (fun r hr => (m3 r hr).1) fun r hr x hx => ⟨((m3 r hr).2 x hx).1, ((m3 r hr).2 x hx).2.le⟩
  refine ⟨pts, ?_, by rw [p2, m2], nearest_counts hv (by rw [m2]; positivity) m3 p1 hj (m4 j hjl).2 hvals h2⟩
  rw [Sobol.generate_snd _ _ _ _ _ _ (by simp [c1]), withNormalized_snd dims fun d hd => (hv d hd).legalTransform, c1, m1,
    ok_bind, c2]
  exact p1

/-- **C142, refuted.** In every Latin hypercube design of more than `4 (K + 4)` points over `Integer(l, l + 2)` – alone or
with other parameters, for every random outcome – the value `l + 1` occurs over `K` times more often than the value `l`: the
normalised scale is rounded to the nearest integer, and the values at the ends are nearest for half as long. -/
theorem C142_refuted_integer (num : LhsNum ℝ) (l : Lhs) (dims : List (Dim ℝ)) (hv : ∀ d ∈ dims, ValidDim exact d)
    (n K : Nat) (hn : 4 * (K + 4) < n) (first : LhsDraw ℝ) (draws : List (LhsDraw ℝ))
    (hd : ∀ d ∈ first :: draws, GoodDraw dims.length n d) (pts : List (Point ℝ))
    (h : (l.generate exact num dims n first draws).2 = .ok pts) (j : Nat) (d : IntDim ℝ) (hj : dims[j]? = some (.int d))
    (lo : ℤ) (hlo : d.low = lo) (hhi : d.high = lo + 2) (vals : List (Val ℝ))
    (hvals : ValuesOf (.int d) vals) :
    occurrences j (.num (lo : ℝ)) pts + K < occurrences j (.num ((lo + 1 : ℤ) : ℝ)) pts ∧ ¬EquallyOften K j vals pts := by
  have hvl : vals = [.num ((lo + 0 : ℤ) : ℝ), .num ((lo + 1 : ℤ) : ℝ), .num ((lo + 2 : ℤ) : ℝ)] := by
    obtain ⟨-, l', u', e1, e2, rfl⟩ := hvals
    have h1 : l' = lo := by rw [hlo] at e1; exact_mod_cast e1.symm
    have h2 : u' = lo + 2 := by rw [hhi] at e2; exact_mod_cast e2.symm
    subst h1 h2
    have : (l' + 2 - l' + 1).toNat = 3 := by omega
    rw [this]
    rfl
  obtain ⟨p1, vals', q1, q2, q3⟩ := C142_lhs_partial num l dims hv n (by omega) first draws hd pts h j _ hj vals hvals
    (by rw [hvl]; simp)
  obtain rfl := q2 d rfl
  have c0 := q3 0 (.num (lo : ℝ)) (by rw [hvl]; simp)
  have c1 := q3 1 (.num ((lo + 1 : ℤ) : ℝ)) (by rw [hvl]; rfl)
  rw [p1, hvl, abs_le] at c0 c1
  simp only [nearestShare, List.length_cons, List.length_nil] at c0 c1
  norm_num at c0 c1
  have hnr : 4 * ((K : ℝ) + 4) < n := by exact_mod_cast hn
  have key : occurrences j (.num (lo : ℝ)) pts + K < occurrences j (.num ((lo + 1 : ℤ) : ℝ)) pts := by
    have : (occurrences j (.num (lo : ℝ)) pts : ℝ) + K < occurrences j (.num ((lo + 1 : ℤ) : ℝ)) pts := by
      push_cast at c0 c1 ⊢
      linarith [c0.2, c1.1]
    exact_mod_cast this
  refine ⟨key, fun he => ?_⟩
  have := he (.num (lo : ℝ)) (by rw [hvl]; simp) (.num ((lo + 1 : ℤ) : ℝ)) (by rw [hvl]; simp)
  omega

/-! ## Examples -/

/-- Three further draws. -/
noncomputable def moreDraws (n : Nat) : List (LhsDraw ℝ) := List.replicate 3 (diagonalDraw n)

theorem moreDraws_good (n : Nat) : ∀ d ∈ diagonalDraw n :: moreDraws n, GoodDraw tapeDims.length n d := by
  intro d hd
  have : d = diagonalDraw n := by
    rcases List.mem_cons.1 hd with h | h
    · exact h
    · exact List.eq_of_mem_replicate h
  rw [this]
  exact diagonalDraw_good n

/-- A world in which the initial points come from `Lhs()`. -/
noncomputable def latinWorld (num : LhsNum ℝ) : World ℝ Unit (List (List ℝ)) Unit :=
  { tapeWorld with generate := fun g dims n _ =>
      (g, ({} : Lhs).generate exact num dims n.toNat (diagonalDraw n.toNat) (moreDraws n.toNat)) }

theorem latinWorld_reliable (num : LhsNum ℝ) : Reliable (latinWorld num) tapeDims := by
  have h := tapeWorld_reliable
  exact ⟨h.fit, h.predict, h.draws, h.acquisition, h.argsort, h.lbfgs, h.multinomial, h.log⟩

theorem latinWorld_lhs (num : LhsNum ℝ) : ProducesLhs (latinWorld num) () num {} tapeDims :=
  fun n _ _ => ⟨(), diagonalDraw n.toNat, moreDraws n.toNat, moreDraws_good n.toNat, rfl⟩

/-- The integers from 1 to 8. -/
noncomputable def oneToEight : List (Val ℝ) := (List.range 8).map fun i : Nat => .num ((1 + (i : ℤ) : ℤ) : ℝ)

theorem oneToEight_values : ∀ d, tapeDims[1]? = some d → ValuesOf d oneToEight := by
  intro d h
  simp only [tapeDims, List.getElem?_cons_succ, List.getElem?_cons_zero, Option.some.injEq] at h
  subst h
  exact ⟨rfl, 1, 8, rfl, rfl, rfl⟩

/-- `Real(0, 10) × Integer(1, 8)`, 15 points with the criterion `maximin`: the value 2 occurs, and some point has `x` within
2/3 of 3.  Meets the hypotheses of `C141_real` and `C141_values`. -/
example (num : LhsNum ℝ) : ∃ pts, (({} : Lhs).generate exact num tapeDims 15 (diagonalDraw 15) (moreDraws 15)).2 = .ok pts ∧
    (∃ p ∈ pts, p[1]? = some (.num ((2 : ℤ) : ℝ))) ∧ ∃ p ∈ pts, ∃ y, p[0]? = some (.num y) ∧ |y - 3| ≤ 2 / 3 := by
  obtain ⟨pts, h⟩ := C22_generate_succeeds num {} (by simp) (.inr (.inl rfl)) tapeDims (by simp [tapeDims])
    tapeDims_workable.valid 15 (by norm_num) _ _ (moreDraws_good 15)
  refine ⟨pts, h, ?_, ?_⟩
  · exact C141_values num {} tapeDims tapeDims_workable.valid 15 _ _ (moreDraws_good 15) pts h 1 _ rfl oneToEight
      (oneToEight_values _ rfl) (by simp [oneToEight]) (by simp [oneToEight]) _ (List.mem_map.2 ⟨1, by simp, by norm_num⟩)
  · obtain ⟨p, hp, y, h1, h2⟩ := C141_real num {} tapeDims tapeDims_workable.valid 15 (by norm_num) _ _
      (moreDraws_good 15) pts h 0 _ rfl ⟨by norm_num, rfl, rfl, .inl rfl⟩ 3 ⟨by norm_num, by norm_num⟩
    exact ⟨p, hp, y, h1, h2.trans (by norm_num)⟩

/-- `(k - 2)²`, whatever `x` is. -/
noncomputable def parabola : Objective ℝ := fun _ v => match v with
  | .seq [.num _, .num k] => .ok (.num (.fin ((k - 2) ^ 2)))
  | _ => .error .typeError

theorem parabola_total : TotalOn false tapeDims parabola := by
  intro done p hp
  unfold tapeDims at hp
  obtain ⟨x, vs, ⟨a, rfl, -, -⟩, h, rfl⟩ := List.forall₂_cons_left_iff.1 hp
  obtain ⟨y, ws, ⟨k, rfl, -⟩, h', rfl⟩ := List.forall₂_cons_left_iff.1 h
  cases h'
  exact ⟨_, rfl, _, rfl⟩

/-- 15 points of `Lhs()` find the minimum 0 of `(k - 2)²`.  Meets the hypotheses of `C141_search_values`. -/
example (num : LhsNum ℝ) (rng : List (List ℝ)) :
    Reports 0 (baseMinimize exact (latinWorld num) ⟨tapeDims, some ()⟩ parabola (squareRun 15) rng) := by
  refine C141_search_values (latinWorld num) tapeDims parabola (squareRun 15) rng 0 15 (squareRun_begins (by norm_num))
    tapeDims_workable (latinWorld_reliable num) parabola_total () num {} (by simp) (.inr (.inl rfl)) (latinWorld_lhs num) 1 _
    rfl oneToEight (oneToEight_values _ rfl) (by simp [oneToEight]) (by simp [oneToEight]) (.num ((2 : ℤ) : ℝ))
    (List.mem_map.2 ⟨1, by simp, by norm_num⟩) ?_
  intro p hp hpk done z hz
  unfold tapeDims at hp
  obtain ⟨x, vs, ⟨a, rfl, -, -⟩, h, rfl⟩ := List.forall₂_cons_left_iff.1 hp
  obtain ⟨y, ws, ⟨k, rfl, -⟩, h', rfl⟩ := List.forall₂_cons_left_iff.1 h
  cases h'
  simp only [List.getElem?_cons_succ, List.getElem?_cons_zero, Option.some.injEq, Val.num.injEq] at hpk
  rw [hpk] at hz
  simp only [parabola, Except.ok.injEq] at hz
  exact ⟨_, by norm_num, .inl hz.symm⟩

/-- `|x - 3|`, whatever `k` is. -/
noncomputable def wedge : Objective ℝ := fun _ v => match v with
  | .seq [.num x, .num _] => .ok (.num (.fin |x - 3|))
  | _ => .error .typeError

/-- `n` points of `Lhs()` find the minimum of `|x - 3|` up to `10 / n`.  Meets the hypotheses of `C141_search_real`. -/
example (num : LhsNum ℝ) (n : Nat) (hn : 0 < n) (rng : List (List ℝ)) : Reports (0 + 1 * ((10 - 0) / (n : ℝ)))
    (baseMinimize exact (latinWorld num) ⟨tapeDims, some ()⟩ wedge (squareRun n) rng) := by
  refine C141_search_real (latinWorld num) tapeDims wedge (squareRun n) rng n (squareRun_begins hn)
    tapeDims_workable (latinWorld_reliable num) ?_ () num {} (by simp) (.inr (.inl rfl)) (latinWorld_lhs num) 0 _
    rfl ⟨by norm_num, rfl, rfl, .inl rfl⟩ 3 ⟨by norm_num, by norm_num⟩ 0 1 (by norm_num) ?_
  · intro done p hp
    unfold tapeDims at hp
    obtain ⟨x, vs, ⟨a, rfl, -, -⟩, h, rfl⟩ := List.forall₂_cons_left_iff.1 hp
    obtain ⟨y, ws, ⟨k, rfl, -⟩, h', rfl⟩ := List.forall₂_cons_left_iff.1 h
    cases h'
    exact ⟨_, rfl, _, rfl⟩
  · intro p y hp hpx done z hz
    unfold tapeDims at hp
    obtain ⟨x, vs, ⟨a, rfl, -, -⟩, h, rfl⟩ := List.forall₂_cons_left_iff.1 hp
    obtain ⟨y', ws, ⟨k, rfl, -⟩, h', rfl⟩ := List.forall₂_cons_left_iff.1 h
    cases h'
    simp only [List.getElem?_cons_zero, Option.some.injEq, Val.num.injEq] at hpx
    subst hpx
    simp only [wedge, Except.ok.injEq] at hz
    exact ⟨_, by norm_num, .inl hz.symm⟩

/-- `[Integer(0, 2), Real(0, 10)]`. -/
noncomputable def threeDims : List (Dim ℝ) :=
  [.int ⟨(0 : ℤ), (2 : ℤ), .uniform, 10, .identity, none, id⟩, .real ⟨0, 10, .uniform, 10, .identity, none, id⟩]

theorem threeDims_valid : ∀ d ∈ threeDims, ValidDim exact d := by
  intro d hd
  simp only [threeDims, List.mem_cons, List.not_mem_nil, or_false] at hd
  rcases hd with rfl | rfl
  · exact ⟨0, 2, by norm_num, rfl, rfl, roundHalfEven_intCast (K := ℝ) 0, roundHalfEven_intCast (K := ℝ) 2, .inl rfl,
      fun _ _ _ => rfl⟩
  · exact (tapeDims_workable.valid _ (by simp [tapeDims]))

/-- 21 points: the value 1 occurs more than once more often than 0.  Meets the hypotheses of `C142_lhs_partial` and
`C142_refuted_integer`. -/
example (num : LhsNum ℝ) : ∃ pts, (({} : Lhs).generate exact num threeDims 21 (diagonalDraw 21) (moreDraws 21)).2 = .ok pts ∧
    occurrences 0 (.num ((0 : ℤ) : ℝ)) pts + 1 < occurrences 0 (.num ((0 + 1 : ℤ) : ℝ)) pts := by
  obtain ⟨pts, h⟩ := C22_generate_succeeds num {} (by simp) (.inr (.inl rfl)) threeDims (by simp [threeDims])
    threeDims_valid 21 (by norm_num) _ _ (moreDraws_good 21)
  exact ⟨pts, h, (C142_refuted_integer num {} threeDims threeDims_valid 21 1 (by norm_num) _ _ (moreDraws_good 21) pts h 0 _
    rfl 0 rfl (by norm_num) _ ⟨rfl, 0, 2, rfl, rfl, rfl⟩).1⟩

/-- 8 Halton points (base 2), 8 Sobol points.  Meets the hypotheses of `C142_halton_partial` and `C142_sobol_partial`. -/
example : ∃ pts, (({} : Halton).generate exact threeDims (2 ^ 3) 0).2 = .ok pts ∧ pts.length = 2 ^ 3 ∧
    NearestCounts (.int ⟨(0 : ℤ), (2 : ℤ), .uniform, 10, .identity, none, id⟩) 0 [.num ((0 : ℤ) : ℝ), .num ((1 : ℤ) : ℝ), .num ((2 : ℤ) : ℝ)] pts :=
  C142_halton_partial {} threeDims 0 threeDims_valid (.inl rfl) (.inl ⟨le_rfl, rfl⟩) [2, 3] (by decide +kernel) 0 3 2 rfl _
    rfl _ ⟨rfl, 0, 2, rfl, rfl, rfl⟩ (by simp)

example : ∃ pts, (({ skip := 0, randomize := false } : Sobol).generate exact Int.fract threeDims (2 ^ 3) []).2.2 = .ok pts ∧
    pts.length = 2 ^ 3 ∧
    NearestCounts (.int ⟨(0 : ℤ), (2 : ℤ), .uniform, 10, .identity, none, id⟩) 0 [.num ((0 : ℤ) : ℝ), .num ((1 : ℤ) : ℝ), .num ((2 : ℤ) : ℝ)] pts :=
  C142_sobol_partial _ rfl Int.fract [] threeDims threeDims_valid (by simp [threeDims]) 3 (by norm_num) 0 _ rfl _
    ⟨rfl, 0, 2, rfl, rfl, rfl⟩ (by simp)

/-- One dimension, three strata: the offsets 0.9, 0.5 and 0.5. -/
noncomputable def skippingDraw : LhsDraw ℝ := ⟨[[9 / 10], [1 / 2], [1 / 2]], [[0, 1, 2]]⟩

/-- **C142, refuted for as many points as values.** A Latin hypercube design of three points over `Integer(0, 2)` need not
use every value: with the offsets 0.9, 0.5 and 0.5 in the three strata the value 0 is missing. -/
theorem C142_refuted_each_once (num : LhsNum ℝ) (d : IntDim ℝ) (hv : ValidDim exact (.int d)) (hp : d.prior = .uniform)
    (hlo : d.low = 0) (hhi : d.high = 2) : GoodDraw 1 3 skippingDraw ∧
    ∃ pts, (({ lhsType := .classic, criterion := .none } : Lhs).generate exact num [.int d] 3 skippingDraw []).2 = .ok pts ∧
      pts.length = 3 ∧ ∀ p ∈ pts, p[0]? ≠ some (.num 0) := by
  have hgood : GoodDraw 1 3 skippingDraw := by
    refine ⟨rfl, ?_, ?_, rfl, ?_⟩
    · simp [skippingDraw]
    · simp only [skippingDraw, List.mem_cons, List.not_mem_nil, or_false]
      rintro r (rfl | rfl | rfl) x hx <;> simp only [List.mem_cons, List.not_mem_nil, or_false] at hx <;> subst hx <;>
        norm_num
    · simp only [skippingDraw, List.mem_cons, List.not_mem_nil, or_false]
      rintro o rfl
      exact .refl _
  have hval : ∀ k ∈ [Dim.int d], ValidDim exact k := by simpa using hv
  obtain ⟨pts, h⟩ := C22_generate_succeeds num { lhsType := .classic, criterion := .none } (by simp) (.inl rfl) [.int d]
    (by simp) hval 3 (by norm_num) skippingDraw [] (by simpa using hgood)
  refine ⟨hgood, pts, h, (C22_generate_is_image num _ _ hval 3 skippingDraw [] (by simpa using hgood) pts h).2.1, ?_⟩
  have hM : lhsNormalized exact .classic 1 3 skippingDraw = .ok [[3 / 10], [1 / 2], [5 / 6]] := by
    rw [lhsNormalized_exact (by simp) hgood]
    simp [lhsDesign, skippingDraw, lhsOffset, List.range_succ]
    norm_num
  unfold Lhs.generate at h
  rw [withNormalized_snd _ fun d hd' => (hval d hd').legalTransform] at h
  unfold Lhs.choose at h
  have h2 : [Dim.int d].length = 1 := rfl
  rw [h2, hM, ok_bind, if_pos (Or.inl rfl), ok_bind] at h
  have hdec := unit_decode (by simp) hval (by simp) h
  have hdisc := (discrete_int hv hp (l := 0) (h := 2) (by simpa using hlo) (by simpa using hhi)).2
  intro p hpm he
  obtain ⟨k, hk, rfl⟩ := List.getElem_of_mem hpm
  have hlen := hdec.length_eq
  have hk3 : k < 3 := by
    simp only [List.length_cons, List.length_nil] at hlen
    omega
  have hrow : ∃ u : ℝ, 3 / 10 ≤ u ∧ u ≤ 1 ∧ ([[3 / 10], [1 / 2], [5 / 6]] : List (List ℝ))[k] = [u] := by
    rcases (by omega : k = 0 ∨ k = 1 ∨ k = 2) with rfl | rfl | rfl
    · exact ⟨3 / 10, by norm_num, by norm_num, rfl⟩
    · exact ⟨1 / 2, by norm_num, by norm_num, rfl⟩
    · exact ⟨5 / 6, by norm_num, by norm_num, rfl⟩
  obtain ⟨u, u1, u2, hu⟩ := hrow
  obtain ⟨v, v1, v2⟩ := (List.forall₂_iff_get.1 hdec).2 k (by simpa using hk3) hk 0 (.int d) u rfl (by
    simp only [List.get_eq_getElem]
    rw [hu]; rfl)
  obtain ⟨i, w, w1, w2, w3⟩ := hdisc.2.2 u (by linarith) u2
  rw [v2] at w3
  simp only [Except.ok.injEq, List.cons.injEq, and_true] at w3
  subst w3
  simp only [List.get_eq_getElem] at v1
  rw [v1] at he
  injection he with he
  subst he
  have hvals : intValues 0 2 = [.num 0, .num 1, .num 2] := by
    simp [intValues, List.range_succ]
  rw [hvals] at w1 w2
  have hi : i = 0 := by
    rcases i with _ | _ | _ | i
    · rfl
    · simp at w1
    · simp at w1
    · simp at w1
  subst hi
  rw [abs_le] at w2
  norm_num at w2
  linarith [w2.2]

/-- `Integer(0, 2)` meets the hypotheses of `C142_refuted_each_once`. -/
example (num : LhsNum ℝ) : ∃ pts, (({ lhsType := .classic, criterion := .none } : Lhs).generate exact num
    [.int ⟨(0 : ℤ), (2 : ℤ), .uniform, 10, .identity, none, id⟩] 3 skippingDraw []).2 = .ok pts ∧ pts.length = 3 ∧
    ∀ p ∈ pts, p[0]? ≠ some (.num 0) :=
  (C142_refuted_each_once num _ (threeDims_valid _ (by simp [threeDims])) rfl (by simp) (by simp)).2

end Skopt

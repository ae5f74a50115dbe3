import Verif.Lemmas.Sobol
import Verif.Props.Halton
import Mathlib.Algebra.Order.Floor.Ring

/-!
# C24, C25, C26: Sobol designs
-/

namespace Skopt

variable {F : Type}

theorem sobolVec_entry {dim s d : Nat} (hd : d < dim) :
    (sobolVec exact dim s)[d]? = some ((sobolT d s : ℝ) * (1 / 2 ^ 30)) := by
  unfold sobolVec sobolPoint
  rw [List.map_map, List.getElem?_map, List.getElem?_range hd]
  norm_num [exact]

theorem sobolVec_range {dim s : Nat} (hdim : dim ≤ 40) (hs : s < 2 ^ 30) :
    (sobolVec exact dim s).length = dim ∧ ∀ x ∈ sobolVec exact dim s, 0 ≤ x ∧ x < 1 := by
  refine ⟨by simp [sobolVec, sobolPoint], ?_⟩
  intro x hx
  obtain ⟨d, hd, rfl⟩ := List.getElem_of_mem hx
  have hlen : (sobolVec exact dim s).length = dim := by simp [sobolVec, sobolPoint]
  have he := sobolVec_entry (dim := dim) (s := s) (d := d) (by omega)
  rw [List.getElem?_eq_getElem hd] at he
  injection he with he
  rw [he]
  have hlt := sobolT_lt (r := d) (by omega) s hs
  have hlt' : (sobolT d s : ℝ) < 2 ^ 30 := by exact_mod_cast hlt
  constructor
  · positivity
  · rw [mul_one_div, div_lt_one (by positivity)]; exact hlt'

theorem sobol_column {dim n lo d : Nat} (hd : d < dim) :
    column d ((List.range n).map fun i => sobolVec exact dim (lo + i)) =
      (List.range n).map fun i => (sobolT d (lo + i) : ℝ) * (1 / 2 ^ 30) := by
  unfold column
  rw [List.filterMap_map, ← List.filterMap_eq_map]
  refine List.filterMap_congr fun i _ => ?_
  simp only [Function.comp_apply]
  rw [sobolVec_entry hd]

/-- **C24.** For a new generator without skip, every `k ≤ 29`, every number of dimensions up to 40
and every coordinate: each of the `2^k` equal strata of the unit interval contains exactly one of the
first `2^k` points; all coordinates lie in `[0,1)`.

Missing: `k = 30`, where the code raises on the last point (see the refutation). -/
theorem C24_sobol_stratified_partial (randomize : Bool) (s : Sobol)
    (hs : Sobol.new 0 randomize = .ok s) (dim k : Nat) (h1 : 1 ≤ dim) (h40 : dim ≤ 40)
    (hk : k ≤ 29) :
    ∃ M, (s.rows exact dim (2 ^ k) 0).2 = .ok M ∧ M.length = 2 ^ k ∧
      (∀ r ∈ M, r.length = dim ∧ ∀ x ∈ r, 0 ≤ x ∧ x < 1) ∧
      ∀ d < dim, (column d M).length = 2 ^ k ∧ Stratified (column d M) := by
  have hb := (Sobol.new_between hs).1
  have hpow : 2 ^ k ≤ 2 ^ 29 := Nat.pow_le_pow_right (by norm_num) hk
  obtain ⟨s', e, -⟩ := Sobol.rows_eq (A := exact) (n := 2 ^ k) hb h1 h40
    (Nat.one_le_two_pow) (by omega)
  refine ⟨_, by rw [e], by simp, ?_, ?_⟩
  · intro r hr
    obtain ⟨i, hi, rfl⟩ := List.mem_map.1 hr
    rw [List.mem_range] at hi
    exact sobolVec_range h40 (by omega)
  · intro d hd
    rw [sobol_column hd]
    refine ⟨by simp, ?_⟩
    intro j hj
    simp only [List.length_map, List.length_range, Nat.zero_add] at hj ⊢
    obtain ⟨i, ⟨hi1, hi2⟩, hu⟩ := sobolT_bij (r := d) (k := k) (by omega) (by omega) j hj
    refine ⟨i, ⟨_, by rw [List.getElem?_map, List.getElem?_range hi1]; rfl,
      (inStratum_sobol (by omega)).2 hi2⟩, ?_⟩
    rintro i' ⟨x, hx, hin⟩
    rw [List.getElem?_map, Option.map_eq_some_iff] at hx
    obtain ⟨i'', hi'', rfl⟩ := hx
    obtain ⟨hlt, rfl⟩ := List.getElem?_eq_some_iff.1 hi''
    simp only [List.length_range] at hlt
    simp only [List.getElem_range] at hin
    exact hu i' ⟨hlt, (inStratum_sobol (by omega)).1 hin⟩

/-- Non-vacuity: the first eight points in three dimensions. -/
example : (({} : Sobol).rows ratArith 3 8 0).2 = .ok
    [[0, 0, 0], [1/2, 1/2, 1/2], [3/4, 1/4, 3/4], [1/4, 3/4, 1/4], [3/8, 3/8, 5/8],
     [7/8, 7/8, 1/8], [5/8, 1/8, 3/8], [1/8, 5/8, 7/8]] := by
  decide +kernel

example : Sobol.new 0 true = .ok {} := rfl

/-- **C24 is false for `k = 30`**: the last of the first `2^30` points cannot be generated, in any
number of dimensions, although 30 direction numbers are available. -/
theorem C24_refuted_k_30 (A : Arith F) (randomize : Bool) (s : Sobol)
    (hs : Sobol.new 0 randomize = .ok s) (dim : Nat) (h1 : 1 ≤ dim) (h40 : dim ≤ 40) :
    (s.rows A dim (2 ^ 30) 0).2 = .error .valueError := by
  have hb := (Sobol.new_between hs).1
  obtain ⟨s1, e1, e2, e3, -⟩ := Sobol.next_first (A := A) hb h1 h40 (by norm_num)
  obtain ⟨s2, f1, -⟩ := Sobol.rows_fail (A := A) h40 (2 ^ 30 - 1) s1 0 e2 e3 (by norm_num)
    (by norm_num)
  have : Sobol.rows A dim (2 ^ 30 - 1 + 1) s 0 = (s2, .error .valueError) := by
    rw [Sobol.rows, e1]
    simp only
    rw [f1]
  have e : 2 ^ 30 = 2 ^ 30 - 1 + 1 := by norm_num
  rw [e, this]

/-- **C25.** However the arithmetic rounds: after any history of `generate` calls (on any spaces, with
any numbers of samples, some of which may have raised), `generate` gives the same outcome as on a new
generator.

Missing: with `skip ≠ 0` the code refuses to hand out more than `skip` points over the generator's
lifetime, so the call must be one that is not refused (hypothesis `hbudget`, empty for `skip = 0`); and
parameters must not be changed in between (see the refutations). -/
theorem C25_history_independent_partial [LinearOrder F] (A : Arith F) (mod1 : F → F) (skip : Nat)
    (randomize : Bool) (s₀ : Sobol) (hs : Sobol.new skip randomize = .ok s₀)
    (history : List (List (Dim F) × Nat × List F)) (dims : List (Dim F)) (n : Nat)
    (shift : List F) (h1 : 1 ≤ dims.length) (h40 : dims.length ≤ 40) (hn : 1 ≤ n)
    (hmax : skip + n ≤ 2 ^ 30 - 1)
    (hbudget : skip ≠ 0 → (s₀.run A mod1 history).numGenerated + n ≤ skip) :
    ((s₀.run A mod1 history).generate A mod1 dims n shift).2 =
      (s₀.generate A mod1 dims n shift).2 := by
  obtain ⟨hb, hk, hr, hg⟩ := Sobol.new_between hs
  subst hk
  obtain ⟨b1, b2, b3⟩ := Sobol.run_between (A := A) (mod1 := mod1) history s₀ hb (by omega)
  obtain ⟨s1, e1, -⟩ := Sobol.rows_eq (A := A) (n := n) hb h1 h40 hn hmax
  obtain ⟨s2, e2, -⟩ := Sobol.rows_eq (A := A) (n := n) b1 h1 h40 hn hmax
  unfold Sobol.generate
  rw [b2, b3]
  rw [if_neg (by rintro ⟨h0, hlt⟩; have := hbudget h0; omega),
    if_neg (by rintro ⟨h0, hlt⟩; have := hbudget h0; rw [hg] at hlt; omega)]
  simp only [e1, e2]
  split <;> split <;> rfl

/-- Non-vacuity: a history with different numbers of dimensions, including a refused 41-dimensional
space; the generator with skip 0. -/
example : Sobol.new 0 false = .ok { randomize := false } ∧
    ((({ randomize := false } : Sobol).run ratArith id
      [(exDims.take 2, 3, []), (List.replicate 41 (unitReal ratArith), 2, []),
       (exDims.take 1, 5, [])]).generate ratArith id exDims 4 []).2.2 =
      .ok [[.num 0, .num (-5), .str "a"], [.num 5, .num 0, .str "b"],
           [.num (15/2), .num (-2), .str "c"], [.num (5/2), .num 2, .str "a"]] := by
  refine ⟨rfl, by decide +kernel⟩

/-- **C25**, single points: once a generator has produced a point in `dim` dimensions, the point for
*any* seed (earlier, later, or the same) depends only on the seed. -/
theorem C25_any_seed (A : Arith F) (dim seed : Nat) (s : Sobol) (h : Synced dim s) (h40 : dim ≤ 40)
    (hs : seed < 2 ^ 30 - 1) :
    ∃ s', s.next A dim seed = (s', .ok (sobolVec A dim seed, seed + 1)) ∧ Synced dim s' :=
  Sobol.next_any h h40 hs

/-- Such states are reached by the first point of a new generator. -/
example : Synced 2 (({} : Sobol).next ratArith 2 0).1 := by
  refine ⟨by decide +kernel, by decide +kernel, by decide +kernel, by decide +kernel⟩

/-- **C25 is false for single points after a change of dimension**: `init` clears the last point but
not the last seed, so a generator that has produced seeds 0 … 3 in one dimension gives the all-zero
vector for seed 4 in two dimensions. -/
theorem C25_refuted_dimension_change :
    (((({} : Sobol).rows ratArith 1 4 0).1).next ratArith 2 4).2 = .ok ([0, 0], 5) ∧
    ((({} : Sobol)).next ratArith 2 4).2 = .ok ([3/8, 3/8], 5) := by
  constructor <;> decide +kernel

/-- **C25 is false for `generate` when the skip is changed in between** (`set_params(skip=8)` between
a one-dimensional and a two-dimensional call): the first point differs from that of a new generator
with skip 8. -/
theorem C25_refuted_skip_changed :
    let s := (({ randomize := false } : Sobol).run ratArith id [(exDims.take 1, 4, [])])
    (({ s with skip := 8 } : Sobol).generate ratArith id (exDims.take 2) 1 []).2.2 ≠
      (({ skip := 8, randomize := false } : Sobol).generate ratArith id (exDims.take 2) 1 []).2.2 := by
  decide +kernel

/-- **C25 is false with a skip when the lifetime budget is used up**: the second identical call raises
`ValueError`. -/
theorem C25_refuted_skip_budget :
    let s := (({ skip := 4, randomize := false } : Sobol).run ratArith id [(exDims.take 1, 4, [])])
    (s.generate ratArith id (exDims.take 1) 4 []).2.2 = .error .valueError ∧
    (({ skip := 4, randomize := false } : Sobol).generate ratArith id (exDims.take 1) 4 []).2.2 =
      .ok [[.num (15/4)], [.num (35/4)], [.num (25/4)], [.num (5/4)]] := by
  constructor <;> decide +kernel

/-- **C26.** In exact arithmetic the random shift maps every matrix into `[0,1)` (it keeps the shape)
and changes differences between rows, in every coordinate, by an integer only. -/
theorem C26_random_shift (shift : List ℝ) (M : List (List ℝ))
    (hw : ∀ r ∈ M, r.length = shift.length) :
    (randomShift exact Int.fract shift M).length = M.length ∧
    (∀ r ∈ randomShift exact Int.fract shift M, r.length = shift.length ∧
      ∀ x ∈ r, 0 ≤ x ∧ x < 1) ∧
    ∀ (i i' j : Nat) (r r' t t' : List ℝ) (x x' y y' : ℝ),
      M[i]? = some r → M[i']? = some r' → r[j]? = some x → r'[j]? = some x' →
      (randomShift exact Int.fract shift M)[i]? = some t →
      (randomShift exact Int.fract shift M)[i']? = some t' → t[j]? = some y → t'[j]? = some y' →
      ∃ z : ℤ, y - y' = x - x' + z := by
  refine ⟨by simp [randomShift], ?_, ?_⟩
  · intro r hr
    obtain ⟨r₀, hr₀, rfl⟩ := List.mem_map.1 hr
    refine ⟨by simp [hw r₀ hr₀], ?_⟩
    intro x hx
    obtain ⟨i, hi, rfl⟩ := List.getElem_of_mem hx
    rw [List.getElem_zipWith]
    exact ⟨Int.fract_nonneg _, Int.fract_lt_one _⟩
  · intro i i' j r r' t t' x x' y y' h1 h2 h3 h4 h5 h6 h7 h8
    unfold randomShift at h5 h6
    rw [List.getElem?_map, h1] at h5
    rw [List.getElem?_map, h2] at h6
    simp only [Option.map_some, Option.some.injEq] at h5 h6
    subst h5 h6
    rw [List.getElem?_zipWith, h3] at h7
    rw [List.getElem?_zipWith, h4] at h8
    cases hs : shift[j]? with
    | none => rw [hs] at h7; simp at h7
    | some u =>
      rw [hs] at h7 h8
      simp only [Option.some.injEq] at h7 h8
      subst h7 h8
      refine ⟨⌊x' + u⌋ - ⌊x + u⌋, ?_⟩
      show Int.fract (x + u) - Int.fract (x' + u) = _
      unfold Int.fract
      push_cast
      ring

/-- Non-vacuity: two rows shifted by (0.7, 0.5). -/
example : randomShift ratArith Int.fract [7/10, 1/2] [[1/2, 1/4], [1/4, 3/4]] =
    [[1/5, 3/4], [19/20, 1/4]] := by decide +kernel

/-- **C26**, for the generator: in exact arithmetic a new Sobol generator (shifted or not) returns
exactly `n ≥ 1` points of the space, for up to 40 dimensions. -/
theorem C26_sobol_in_space (skip : Nat) (randomize : Bool) (s : Sobol)
    (hs : Sobol.new skip randomize = .ok s) (dims : List (Dim ℝ))
    (hv : ∀ d ∈ dims, ValidDim exact d) (n : Nat) (shift : List ℝ) (h1 : dims ≠ [])
    (h40 : dims.length ≤ 40) (hn : 1 ≤ n) (hmax : skip + n ≤ 2 ^ 30 - 1)
    (hbudget : skip ≠ 0 → n ≤ skip) (hshift : shift.length = dims.length) :
    ∃ pts, (s.generate exact Int.fract dims n shift).2.2 = .ok pts ∧ pts.length = n ∧
      ∀ p ∈ pts, InSpace exact dims p := by
  obtain ⟨hb, hk, hr, hg⟩ := Sobol.new_between hs
  subst hk
  have hlen : 1 ≤ dims.length := List.length_pos_iff.2 h1
  obtain ⟨s1, e1, -⟩ := Sobol.rows_eq (A := exact) (n := n) hb hlen h40 hn hmax
  have hM : ∀ r ∈ (List.range n).map fun i => sobolVec exact dims.length (s.skip + i),
      r.length = dims.length ∧ ∀ x ∈ r, 0 ≤ x ∧ x < 1 := by
    intro r hr
    obtain ⟨i, hi, rfl⟩ := List.mem_map.1 hr
    rw [List.mem_range] at hi
    exact sobolVec_range h40 (by omega)
  have key : ∀ M : List (List ℝ), M.length = n → (∀ r ∈ M, r.length = dims.length ∧
      ∀ x ∈ r, 0 ≤ x ∧ x < 1) → ∃ pts,
      Space.inverseTransform exact (dims.map Dim.normalized) (numRows M) = .ok pts ∧
      pts.length = n ∧ ∀ p ∈ pts, InSpace exact dims p := by
    intro M hl hM
    obtain ⟨pts, p1, p2, p3⟩ := unit_inverse_ok h1 hv (M := M)
      (by rintro rfl; simp at hl; omega) (fun r hr => (hM r hr).1)
      (fun r hr x hx => ⟨((hM r hr).2 x hx).1, ((hM r hr).2 x hx).2.le⟩)
    exact ⟨pts, p1, by rw [p2, hl], p3⟩
  have : ∃ pts, Space.inverseTransform exact (dims.map Dim.normalized) (numRows
      (if s.randomize then randomShift exact Int.fract shift
        ((List.range n).map fun i => sobolVec exact dims.length (s.skip + i))
       else (List.range n).map fun i => sobolVec exact dims.length (s.skip + i))) = .ok pts ∧
      pts.length = n ∧ ∀ p ∈ pts, InSpace exact dims p := by
    refine key _ ?_ ?_
    · split <;> simp [randomShift]
    · split
      · intro r hr
        have := (C26_random_shift shift _ (fun r hr => by rw [(hM r hr).1, hshift])).2.1 r hr
        exact ⟨by rw [this.1, hshift], this.2⟩
      · exact hM
  obtain ⟨pts, p1, p2, p3⟩ := this
  refine ⟨pts, ?_, p2, p3⟩
  unfold Sobol.generate
  rw [if_neg (by rintro ⟨h0, hlt⟩; have := hbudget h0; rw [hg] at hlt; omega)]
  simp only [e1]
  have hw := withNormalized_snd dims (fun d hd => (hv d hd).legalTransform)
    (fun dims' => do
      let M ← Except.ok ((List.range n).map fun i => sobolVec exact dims.length (s.skip + i))
      Space.inverseTransform exact dims' (numRows
        (if s.randomize then randomShift exact Int.fract shift M else M)))
  rw [ok_bind, p1] at hw
  split
  · next h => rw [hw] at h; simp at h
  · exact hw

example : genDims ≠ [] ∧ genDims.length ≤ 40 ∧ (∀ d ∈ genDims, ValidDim exact d) ∧
    Sobol.new 8 true = .ok { skip := 8 } ∧ ([1/2, 1/3] : List ℝ).length = genDims.length :=
  ⟨by simp [genDims], by simp [genDims], genDims_valid, rfl, rfl⟩

end Skopt

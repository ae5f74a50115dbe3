import Verif.Lemmas.HaltonRun

/-!
# C18 – C21: primes, van der Corput samples, Halton and Hammersly designs
-/

namespace Skopt

/-- **C18.** The sieve returns exactly the primes up to the threshold, each once, in increasing
order. -/
theorem C18_sieve_correct (t : Nat) :
    ∃ ps, createPrimes t = .ok ps ∧ ps.Pairwise (· < ·) ∧ ∀ p, p ∈ ps ↔ Nat.Prime p ∧ p ≤ t := by
  refine ⟨_, createPrimes_eq t, List.pairwise_lt_range.filter _, ?_⟩
  intro p
  simp only [List.mem_filter, List.mem_range, decide_eq_true_eq]
  constructor
  · rintro ⟨h1, h2⟩; exact ⟨h2, by omega⟩
  · rintro ⟨h1, h2⟩; exact ⟨by omega, h1⟩

example : createPrimes 30 = .ok [2, 3, 5, 7, 11, 13, 17, 19, 23, 29] := by decide +kernel
example : createPrimes 25 = .ok [2, 3, 5, 7, 11, 13, 17, 19, 23] := by decide +kernel

/-- **C18**, as used by the generator: without user-supplied bases, `n` dimensions get the first `n`
primes in order (in particular the search for enough primes terminates). -/
theorem C18_first_primes (h : Halton) (hp : h.primes = none) (n : Nat) (hn : 0 < n) :
    h.bases n = .ok ((List.range n).map (Nat.nth Nat.Prime)) :=
  Halton.bases_none hp hn

example : ({} : Halton).primes = none := rfl
example : ({} : Halton).bases 5 = .ok [2, 3, 5, 7, 11] := by decide +kernel

/-- **C19.** In exact arithmetic the sample for index `i` in base `b` is the radical inverse of `i`;
it lies in `[0,1)`; different indices give different samples. -/
theorem C19_van_der_corput (b : Nat) (hb : 1 < b) :
    (∀ i : Nat, vanDerCorput exact b i = .ok (radicalInverse b i) ∧
      0 ≤ radicalInverse b i ∧ radicalInverse b i < 1) ∧
    ∀ i j : Nat, vanDerCorput exact b i = vanDerCorput exact b j → i = j := by
  refine ⟨fun i => ⟨vanDerCorput_exact hb i, radicalInverse_range hb i⟩, ?_⟩
  intro i j h
  rw [vanDerCorput_exact hb, vanDerCorput_exact hb] at h
  exact radicalInverse_injective hb (by injection h)

/-- 11 = 102 in base 3, so the sample is 0.201 in base 3. -/
example : vanDerCorput ratArith 3 11 = .ok (2 / 3 + 0 / 9 + 1 / 27) := by decide +kernel

/-- **C19.** A base that is not above one is refused. -/
theorem C19_bad_base_refused (b : Nat) (hb : b ≤ 1) (i : ℤ) :
    vanDerCorput exact b i = .error .assertionError := by
  unfold vanDerCorput
  rw [if_neg (by omega)]

example : (1 : Nat) ≤ 1 := le_rfl

/-- **C20.** Among any `b^k` consecutive indices every one of the `b^k` equal strata of the unit
interval receives exactly one sample. -/
theorem C20_stratified (b : Nat) (hb : 1 < b) (k m j : Nat) (hj : j < b ^ k) :
    ∃! i : Nat, (m ≤ i ∧ i < m + b ^ k) ∧
      ∃ x, vanDerCorput exact b i = .ok x ∧ InStratum (b ^ k) j x := by
  obtain ⟨i, ⟨h1, h2, h3⟩, hu⟩ := radicalInverse_stratified hb k m j hj
  refine ⟨i, ⟨⟨h1, h2⟩, _, vanDerCorput_exact hb i, h3⟩, ?_⟩
  rintro i' ⟨⟨h1', h2'⟩, x, hx, hs⟩
  rw [vanDerCorput_exact hb] at hx
  injection hx with hx
  exact hu i' ⟨h1', h2', hx ▸ hs⟩

/-- Stratum 5 of 8 in base 2 among the indices 3 … 10: `[5/8, 6/8)`, hit by index 5 = 101₂. -/
example : (1 : Nat) < 2 ∧ 5 < 2 ^ 3 ∧ vanDerCorput ratArith 2 5 = .ok (5 / 8) := by
  refine ⟨by norm_num, by norm_num, by decide +kernel⟩

/-- **C20**, for the generator: in coordinate `d` of a Halton design of `b^k` points, where `b` is
the `d`-th base, every stratum contains exactly one of the points. -/
theorem C20_halton_columns_stratified (h : Halton) (n d k : Nat) (draw : ℤ) (hn : 0 < n)
    (hb : GoodBases h n) (hs : GoodSkip h draw) (bs : List Nat) (hbs : h.bases n = .ok bs)
    (hd : d < bs.length) (M : List (List ℝ))
    (hM : h.unit exact n (bs[d] ^ k) draw = .ok M) : Stratified (column d M) := by
  obtain ⟨bs', s, h1, _, hl, hb1, hu⟩ := Halton.unit_spec hn hb hs (bs[d] ^ k)
  rw [hbs] at h1
  injection h1 with h1
  subst h1
  rw [hu] at hM
  injection hM with hM
  have hcol : column d M = (List.range (bs[d] ^ k)).map fun i => radicalInverse bs[d] (i + s) := by
    unfold column
    rw [← hM, List.filterMap_map, ← List.filterMap_eq_map]
    refine List.filterMap_congr fun i _ => ?_
    simp [hd]
  rw [hcol]
  intro j hj
  simp only [List.length_map, List.length_range] at hj ⊢
  obtain ⟨i, ⟨h1, h2, h3⟩, huq⟩ :=
    radicalInverse_stratified (hb1 _ (List.getElem_mem hd)) k s j hj
  refine ⟨i - s, ⟨_, ?_, h3⟩, ?_⟩
  · rw [List.getElem?_map, List.getElem?_range (by omega)]
    simp only [Option.map_some]
    rw [Nat.sub_add_cancel h1]
  · rintro i' ⟨x, hx, hin⟩
    rw [List.getElem?_map, Option.map_eq_some_iff] at hx
    obtain ⟨i'', hi'', rfl⟩ := hx
    obtain ⟨hlt, rfl⟩ := List.getElem?_eq_some_iff.1 hi''
    simp only [List.length_range] at hlt
    simp only [List.getElem_range] at hin
    have := huq (i' + s) ⟨by omega, by omega, hin⟩
    omega

/-- Non-vacuity: the default generator in two dimensions with nine points (coordinate 1, base 3). -/
example : GoodBases {} 2 ∧ GoodSkip {} 0 ∧ ({} : Halton).bases 2 = .ok [2, 3] ∧
    ({} : Halton).unit ratArith 2 9 0 = .ok
      [[0, 0], [1/2, 1/3], [1/4, 2/3], [3/4, 1/9], [1/8, 4/9], [5/8, 7/9], [3/8, 2/9], [7/8, 5/9],
       [1/16, 8/9]] :=
  ⟨Or.inl rfl, Or.inl ⟨le_rfl, rfl⟩, by decide +kernel, by decide +kernel⟩

/-- Two dimensions used in the examples about generators. -/
noncomputable def genDims : List (Dim ℝ) :=
  [.real ⟨0, 10, .uniform, 10, .identity, none, id⟩,
   .int ⟨((-5 : ℤ) : ℝ), ((5 : ℤ) : ℝ), .uniform, 10, .normalize, none, id⟩]

theorem genDims_valid : ∀ d ∈ genDims, ValidDim exact d := by
  intro d hd
  simp only [genDims, List.mem_cons, List.not_mem_nil, or_false] at hd
  rcases hd with rfl | rfl
  · exact ⟨by norm_num, Or.inl rfl, fun x h1 h2 => ⟨h1, h2⟩⟩
  · exact ⟨-5, 5, by norm_num, rfl, rfl,
      roundHalfEven_intCast (K := ℝ) (-5), roundHalfEven_intCast (K := ℝ) 5,
      Or.inr rfl, fun k _ _ => rfl⟩

/-- **C21 (Halton).** In exact arithmetic `Halton.generate` returns exactly `k ≥ 1` points of the
space, which are the images of pairwise different unit-cube points.

Missing: negative skips (`C21_refuted_negative_skip`, `C21_refuted_half_negative_range`). -/
theorem C21_halton_partial (h : Halton) (dims : List (Dim ℝ)) (draw : ℤ) (hd : dims ≠ [])
    (hv : ∀ d ∈ dims, ValidDim exact d) (hb : GoodBases h dims.length) (hs : GoodSkip h draw)
    (k : Nat) (hk : 0 < k) :
    ∃ M pts, h.unit exact dims.length k draw = .ok M ∧ M.length = k ∧ M.Nodup ∧
      Space.inverseTransform exact (dims.map Dim.normalized) (numRows M) = .ok pts ∧
      (h.generate exact dims k draw).2 = .ok pts ∧ pts.length = k ∧
      ∀ p ∈ pts, InSpace exact dims p :=
  Halton.generate_spec hd hv hb hs hk

example : genDims ≠ [] ∧ (∀ d ∈ genDims, ValidDim exact d) ∧
    GoodBases { minSkip := 3, maxSkip := 7 } genDims.length ∧
    GoodSkip { minSkip := 3, maxSkip := 7 } 5 :=
  ⟨by simp [genDims], genDims_valid, Or.inl rfl,
    Or.inr (Or.inl ⟨by norm_num, by norm_num, by norm_num, by norm_num⟩)⟩

example : (({ minSkip := 1, maxSkip := 1 } : Halton).generate ratArith exDims 3 0).2 =
    .ok [[.num 5, .num (-2), .str "a"], [.num (5/2), .num 2, .str "b"],
         [.num (15/2), .num (-4), .str "b"]] := by
  decide +kernel

/-- **C21 (Hammersly).** In exact arithmetic `Hammersly.generate` returns exactly `k ≥ 1` points of
the space; in two or more dimensions they are the images of pairwise different unit-cube points
(one dimension is the Halton case).

Missing: negative skips, as for Halton, and user-given bases (`C21_refuted_hammersly_bases`). -/
theorem C21_hammersly_partial (h : Halton) (dims : List (Dim ℝ)) (draw : ℤ) (hd : dims ≠ [])
    (hv : ∀ d ∈ dims, ValidDim exact d)
    (hb : GoodBases h (if dims.length = 1 then 1 else dims.length - 1)) (hs : GoodSkip h draw)
    (k : Nat) (hk : 0 < k) :
    ∃ M pts, (if dims.length = 1 then h.unit exact 1 k draw
        else Hammersly.unit exact h dims.length k draw) = .ok M ∧ M.length = k ∧ M.Nodup ∧
      Space.inverseTransform exact (dims.map Dim.normalized) (numRows M) = .ok pts ∧
      (Hammersly.generate exact h dims k draw).2 = .ok pts ∧ pts.length = k ∧
      ∀ p ∈ pts, InSpace exact dims p := by
  have hpos : 0 < dims.length := List.length_pos_iff.2 hd
  unfold Hammersly.generate
  rw [withNormalized_snd dims fun d hd => (hv d hd).legalTransform]
  by_cases h1 : dims.length = 1
  · simp only [h1, if_true] at hb ⊢
    obtain ⟨M, pts, a1, a2, a3, a4, a5, a6, a7⟩ := Halton.generate_spec (h := h) (draw := draw)
      (dims := dims.map Dim.normalized) (by simpa using hd)
      (by
        intro d hd
        obtain ⟨d', hd', rfl⟩ := List.mem_map.1 hd
        exact (hv d' hd').normalized) (by simpa [h1] using hb) hs hk
    have hmm : (dims.map Dim.normalized).map Dim.normalized = dims.map Dim.normalized := by
      rw [List.map_map]
      refine List.map_congr_left fun d _ => ?_
      cases d <;> rfl
    rw [hmm] at a4
    rw [List.length_map, h1] at a1
    exact ⟨M, pts, a1, a2, a3, a4, a5, a6, fun p hp => inSpace_normalized.1 (a7 p hp)⟩
  · simp only [h1, if_false] at hb ⊢
    obtain ⟨M, b1, b2, b3, b4⟩ := Hammersly.unit_spec (n := dims.length) (by omega) hb hs hk
    obtain ⟨pts, c1, c2, c3⟩ := unit_inverse_ok hd hv (M := M)
      (by rintro rfl; simp at b2; omega) (fun r hr => (b4 r hr).1) (fun r hr => (b4 r hr).2)
    refine ⟨M, pts, b1, b2, b3, c1, ?_, by rw [c2, b2], c3⟩
    rw [b1, ok_bind, c1]

example : genDims ≠ [] ∧ (∀ d ∈ genDims, ValidDim exact d) ∧
    GoodBases {} (if genDims.length = 1 then 1 else genDims.length - 1) ∧ GoodSkip {} 0 :=
  ⟨by simp [genDims], genDims_valid, Or.inl rfl, Or.inl ⟨le_rfl, rfl⟩⟩

example : (Hammersly.generate ratArith {} exDims 4 0).2 =
    .ok [[.num 0, .num (-5), .str "a"], [.num 5, .num (-2), .str "a"],
         [.num (5/2), .num 2, .str "b"], [.num (15/2), .num (-4), .str "c"]] := by
  decide +kernel

/-- **C21 is false for negative skips**, which the constructor accepts: with
`min_skip = max_skip = -1` in one dimension the first and the third unit-cube point coincide (the
loop body runs once even for the index -1). -/
theorem C21_refuted_negative_skip :
    ({ minSkip := -1, maxSkip := -1 } : Halton).unit ratArith 1 3 0 = .ok [[1/2], [0], [1/2]] := by
  decide +kernel

/-- **C21 is false for a skip range with one negative end**: `np.max(min_skip, max_skip)` takes
`max_skip` as the axis and raises. -/
theorem C21_refuted_half_negative_range :
    (({ minSkip := -1, maxSkip := 5 } : Halton).generate ratArith exDims 3 0).2 =
      .error .valueError := by
  decide +kernel

/-- The case `min_skip < 0`, `max_skip = 0`: zero is an axis that `np.max` accepts for a number, so the negative
`min_skip` is used, and points coincide again. -/
theorem C21_refuted_zero_max_skip :
    ({ minSkip := -1, maxSkip := 0 } : Halton).unit ratArith 1 3 0 = .ok [[1/2], [0], [1/2]] := by
  decide +kernel

/-- **C21 is false for more user-supplied bases than dimensions** (and Hammersly uses one base less
than there are dimensions, so a list that suits Halton is refused by Hammersly). -/
theorem C21_refuted_hammersly_bases :
    (∃ pts, (({ primes := some [2, 3, 5] } : Halton).generate ratArith exDims 2 0).2 = .ok pts) ∧
    (Hammersly.generate ratArith { primes := some [2, 3, 5] } exDims 2 0).2 =
      .error .assertionError :=
  ⟨⟨[[.num 0, .num (-5), .str "a"], [.num 5, .num (-2), .str "a"]], by decide +kernel⟩,
    by decide +kernel⟩

end Skopt

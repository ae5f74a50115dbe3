import Verif.Lemmas.Space
import Verif.Model.Exact

/-!
# C01 – inverse_transform never leaves the search space
-/

namespace Skopt

variable {F : Type}

/-- **C01.** Whatever matrix is passed in and however the arithmetic rounds: if
`Space.inverse_transform` returns, it returns one point per row and every point is in the space. -/
theorem C01_inverse_transform_in_space_partial [LinearOrder F] (A : Arith F) (hA : OrderlyRounding A)
    (dims : List (Dim F)) (hv : ∀ d ∈ dims, ValidDim A d) (hdec : ∀ d ∈ dims, Decoding d)
    (Xt : List (List (Val F))) (pts : List (Point F))
    (h : Space.inverseTransform A dims Xt = .ok pts) :
    pts.length = Xt.length ∧ ∀ p ∈ pts, InSpace A dims p := by
  unfold Space.inverseTransform at h
  rw [bind_eq_ok] at h
  obtain ⟨cols, hcols, h⟩ := h
  split at h
  · simp at h
  · have hspec := inverseCols_spec hA hv hdec hcols
    constructor
    · cases hspec with
      | nil => simp [transposeListArray] at h
      | cons h1 _ => rw [transpose_length h, h1.1]
    · intro p hp
      exact inSpace_of_cols hspec (transpose_mem h p hp)

/-- Exact real arithmetic rounds in an orderly way. -/
theorem exact_orderly : OrderlyRounding exact :=
  ⟨roundHalfEven_mono, fun _ _ h => Int.cast_le.2 h⟩

theorem ratArith_orderly : OrderlyRounding ratArith :=
  ⟨roundHalfEven_mono, fun _ _ h => Int.cast_le.2 h⟩

section Examples

/-- A three-dimensional mixed space over ℚ used to show that the hypotheses are satisfiable. -/
def exDims : List (Dim ℚ) :=
  [.real ⟨0, 10, .uniform, 10, .normalize, none, id⟩,
   .int ⟨-5, 5, .uniform, 10, .normalize, none, id⟩,
   .cat ⟨[.str "a", .str "b", .str "c"], none, .onehot, none, fun _ => "", fun s => .ok (.str s)⟩]

theorem exDims_valid : ∀ d ∈ exDims, ValidDim ratArith d := by
  intro d hd
  simp only [exDims, List.mem_cons, List.not_mem_nil, or_false] at hd
  rcases hd with rfl | rfl | rfl
  · exact ⟨by norm_num, Or.inr rfl, fun x h1 h2 => ⟨h1, h2⟩⟩
  · exact ⟨-5, 5, by norm_num, by norm_num [ratArith], by norm_num [ratArith],
      roundHalfEven_intCast (K := ℚ) (-5), roundHalfEven_intCast (K := ℚ) 5,
      Or.inr rfl, fun k _ _ => rfl⟩
  · refine ⟨by simp, by decide, ?_, Or.inr ?_⟩ <;> decide

theorem exDims_decoding : ∀ d ∈ exDims, Decoding d := by
  intro d hd
  simp only [exDims, List.mem_cons, List.not_mem_nil, or_false] at hd
  rcases hd with rfl | rfl | rfl
  · trivial
  · trivial
  · exact Or.inl rfl

/-- The hypotheses of C01 are met by a mixed space and a matrix with entries that are no image of
any point (0.26 is between two integers, the one-hot row is not one-hot). -/
example : Space.inverseTransform ratArith exDims
    [[.num (1/2), .num (26/100), .num (1/10), .num (7/10), .num (2/10)]]
      = .ok [[.num 5, .num (-2), .str "b"]] := by
  decide +kernel

example : InSpace ratArith exDims [.num 5, .num (-2), .str "b"] :=
  (C01_inverse_transform_in_space_partial ratArith ratArith_orderly exDims exDims_valid exDims_decoding
    [[.num (1/2), .num (26/100), .num (1/10), .num (7/10), .num (2/10)]]
    [[.num 5, .num (-2), .str "b"]] (by decide +kernel)).2 _ (by simp)

end Examples

/-! ## Where C01 fails: constructor arguments the code accepts -/

/-- `Integer(0.4, 0.6)` is accepted, but every decoded value (0 or 1) is outside the bounds. -/
theorem C01_refuted_integer_with_float_bounds :
    ∃ d : Dim ℚ, mkInt (2/5) (3/5) .uniform 10 none none id = .ok d ∧
      Space.inverseTransform ratArith [d] [[.num (1/2)]] = .ok [[.num 0]] ∧
      Space.contains [d] [.num 0] = .ok false :=
  ⟨.int ⟨2/5, 3/5, .uniform, 10, .identity, none, id⟩,
    by rw [mkInt, if_neg (by norm_num)]; rfl, by decide +kernel, by decide +kernel⟩

/-- Conversion of an integer to `int8` (two's complement wrap-around). -/
def toInt8 (k : ℤ) : ℤ := (k + 128) % 256 - 128

/-- `Integer(0, 300, dtype='int8')` is accepted, and 200 decodes to -56. -/
theorem C01_refuted_integer_narrow_dtype :
    ∃ d : Dim ℚ, mkInt 0 300 .uniform 10 none none toInt8 = .ok d ∧
      Space.inverseTransform ratArith [d] [[.num 200]] = .ok [[.num (-56)]] ∧
      Space.contains [d] [.num (-56)] = .ok false :=
  ⟨.int ⟨0, 300, .uniform, 10, .identity, none, toInt8⟩,
    by rw [mkInt, if_neg (by norm_num)]; rfl, by decide +kernel, by decide +kernel⟩

/-- Conversion of a number in [1/16, 1/8) to `float32` (24 significant bits). -/
def toFloat32 (x : ℚ) : ℚ := (roundHalfEven (x * 2 ^ 27) : ℚ) / 2 ^ 27

/-- `Real(0, 0.1, dtype='float32')` is accepted; clipping happens in double precision and the
conversion to single precision afterwards moves the upper bound outside. -/
theorem C01_refuted_real_narrow_dtype :
    ∃ d : Dim ℚ, mkReal 0 (1/10) .uniform 10 none none toFloat32 = .ok d ∧
      Space.inverseTransform ratArith [d] [[.num (1/10)]] = .ok [[.num (13421773 / 134217728)]] ∧
      Space.contains [d] [.num (13421773 / 134217728)] = .ok false :=
  ⟨.real ⟨0, 1/10, .uniform, 10, .identity, none, toFloat32⟩,
    by rw [mkReal, if_neg (by norm_num)]; rfl, by decide +kernel, by decide +kernel⟩

/-- With the `identity` transform a categorical dimension passes any entry through. -/
theorem C01_refuted_categorical_identity :
    ∃ d : Dim ℚ, mkCat [.num 1, .num 2] none (some .identity) none (fun _ => "")
        (fun s => .ok (.str s)) = .ok d ∧
      Space.inverseTransform ratArith [d] [[.num (3/2)]] = .ok [[.num (3/2)]] ∧
      Space.contains [d] [.num (3/2)] = .ok false := by
  exact ⟨_, rfl, by decide +kernel, by decide +kernel⟩

/-! # C05 – random samples are inside the space -/

/-- Values drawn for one dimension are legal, whatever the raw draws are. -/
theorem Dim.rvs_legal [LinearOrder F] {A : Arith F} (hA : OrderlyRounding A) {d : Dim F}
    (hd : ValidDim A d) {raw : RawDraw F} {vs : List (Val F)} (h : d.rvs A raw = .ok vs) :
    ∀ v ∈ vs, Legal A d v := by
  cases d with
  | real r => exact Dim.inverse_legal hA hd trivial h
  | int r => exact Dim.inverse_legal hA hd trivial h
  | cat c =>
    by_cases hk : c.transform = .normalize
    · simp only [Dim.rvs, hk] at h
      exact Dim.inverse_legal hA hd (Or.inr (Or.inr hk)) h
    · have h' : mapE (fun i => pyGet c.cats i) raw.idxs = .ok vs := by
        cases hk' : c.transform <;> simp_all [Dim.rvs]
      intro v hv
      obtain ⟨i, _, hi⟩ := mapE_mem h' hv
      exact pyGet_mem hi

/-- The number of values drawn for one dimension is the number of raw draws. -/
theorem Dim.rvs_length [LinearOrder F] {A : Arith F} {d : Dim F} (hd : ValidDim A d)
    {raw : RawDraw F} {n : Nat} (hn : raw.nums.length = n ∧ raw.idxs.length = n)
    {vs : List (Val F)} (h : d.rvs A raw = .ok vs) : vs.length = n := by
  have aux : d.inverse A (raw.nums.map fun x => [.num x]) = .ok vs → vs.length = n := by
    intro h
    rw [Dim.inverse_length hd h (by intro _ r hr; obtain ⟨x, _, rfl⟩ := List.mem_map.1 hr; rfl)]
    simpa using hn.1
  cases d with
  | real r => exact aux h
  | int r => exact aux h
  | cat c =>
    by_cases hk : c.transform = .normalize
    · simp only [Dim.rvs, hk] at h
      exact aux h
    · have h' : mapE (fun i => pyGet c.cats i) raw.idxs = .ok vs := by
        cases hk' : c.transform <;> simp_all [Dim.rvs]
      rw [mapE_length h', hn.2]

/-- **C05.** `Space.rvs(n)` gives exactly `n` points, all of them in the space, for every raw draw
the random generator may return (any real numbers, not only numbers in the nominal support). -/
theorem C05_rvs_in_space [LinearOrder F] (A : Arith F) (hA : OrderlyRounding A)
    (dims : List (Dim F)) (hv : ∀ d ∈ dims, ValidDim A d) (n : Nat) (raws : List (RawDraw F))
    (hlen : raws.length = dims.length)
    (hn : ∀ r ∈ raws, r.nums.length = n ∧ r.idxs.length = n)
    (pts : List (Point F)) (h : Space.rvs A dims raws = .ok pts) :
    pts.length = n ∧ ∀ p ∈ pts, InSpace A dims p := by
  unfold Space.rvs at h
  rw [bind_eq_ok] at h
  obtain ⟨cols, hcols, h⟩ := h
  have hspec : List.Forall₂ (fun d col => col.length = n ∧ ∀ v ∈ col, Legal A d v) dims cols := by
    rw [mapE_eq_ok] at hcols
    clear h
    induction dims generalizing raws cols with
    | nil => simp at hcols; subst hcols; exact .nil
    | cons d ds ih =>
      cases raws with
      | nil => simp at hlen
      | cons r rs =>
        rw [List.zip_cons_cons] at hcols
        cases hcols with
        | cons h1 h2 =>
          refine .cons ⟨Dim.rvs_length (hv d (by simp)) (hn r (by simp)) h1,
            Dim.rvs_legal hA (hv d (by simp)) h1⟩ ?_
          exact ih (fun x hx => hv x (by simp [hx])) rs (by simpa using hlen)
            (fun x hx => hn x (by simp [hx])) _ h2
  constructor
  · cases hspec with
    | nil => simp [transposeListArray] at h
    | cons h1 _ => rw [transpose_length h, h1.1]
  · intro p hp
    exact inSpace_of_cols hspec (transpose_mem h p hp)

/-- Non-vacuity of C05: two samples of the mixed example space; the raw draws include a value
slightly above 1, as the code's inclusive uniform distribution can produce. -/
example : Space.rvs ratArith exDims
    [⟨[1/2, 1 + 1/10^9], [0, 0]⟩, ⟨[0, 1 + 1/10^9], [0, 0]⟩, ⟨[0, 0], [2, 0]⟩] =
    .ok [[.num 5, .num (-5), .str "c"], [.num 10, .num 5, .str "a"]] := by
  decide +kernel

end Skopt

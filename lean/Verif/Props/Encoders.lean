import Verif.Lemmas.RoundTrip
import Verif.Lemmas.Bounds
import Mathlib.Data.Set.Function

/-!
# C14–C17 – Normalize, pipelines, one-hot and label encoding
-/

namespace Skopt

variable {F : Type}

/-! ## C14 -/

/-- **C14 (real intervals).** In exact arithmetic `Normalize(low, high)` is an increasing bijection
of [low, high] onto [0, 1] (endpoints to endpoints) applied entry by entry, `inverse_transform`
undoes it, and one entry further outside than the tolerance makes either direction raise
`ValueError`. -/
theorem C14_normalize_isomorphism (low high : ℝ) (hlt : low < high) :
    ∃ f : ℝ → ℝ,
      (∀ xs : List ℝ, (∀ x ∈ xs, low ≤ x ∧ x ≤ high) →
        Normalize.transform exact ⟨low, high, false⟩ xs = .ok (xs.map f) ∧
        Normalize.inverse exact ⟨low, high, false⟩ (xs.map f) = .ok xs) ∧
      StrictMono f ∧ f low = 0 ∧ f high = 1 ∧
      Set.BijOn f (Set.Icc low high) (Set.Icc 0 1) ∧
      (∀ xs : List ℝ, (∃ x ∈ xs, high + 1 / 10 ^ 8 < x ∨ x < low - 1 / 10 ^ 8) →
        Normalize.transform exact ⟨low, high, false⟩ xs = .error .valueError) ∧
      (∀ us : List ℝ, (∃ u ∈ us, 1 + 1 / 10 ^ 8 < u ∨ u < 0 - 1 / 10 ^ 8) →
        Normalize.inverse exact ⟨low, high, false⟩ us = .error .valueError) := by
  have hw : 0 < high - low := by linarith
  have hmono : StrictMono fun x => (x - low) / (high - low) := by
    intro a b hab
    exact div_lt_div_of_pos_right (by linarith) hw
  have h0 : (low - low) / (high - low) = 0 := by simp
  have h1 : (high - low) / (high - low) = 1 := div_self hw.ne'
  refine ⟨fun x => (x - low) / (high - low), ?_, hmono, h0, h1, ?_, ?_, ?_⟩
  · intro xs hx
    exact ⟨normalize_transform_real hlt hx, normalize_inverse_real hlt hx⟩
  · refine ⟨?_, hmono.injective.injOn, ?_⟩
    · intro x hx
      exact unit_of_mem hlt hx.1 hx.2
    · intro u hu
      refine ⟨u * (high - low) + low, ⟨?_, ?_⟩, ?_⟩
      · have := mul_nonneg hu.1 hw.le; linarith
      · have := mul_le_mul_of_nonneg_right hu.2 hw.le; linarith
      · simp [hw.ne']
  · rintro xs ⟨x, hx, h⟩
    unfold Normalize.transform
    simp only [exact, Bool.false_and, Bool.not_false, Bool.true_and, Bool.false_eq_true, if_false]
    rcases h with h | h
    · rw [if_pos]
      rw [List.any_eq_true]
      exact ⟨x, hx, decide_eq_true h⟩
    · split
      · rfl
      · rw [if_pos]
        rw [List.any_eq_true]
        exact ⟨x, hx, decide_eq_true h⟩
  · rintro us ⟨u, hu, h⟩
    unfold Normalize.inverse
    simp only [exact, Int.cast_zero, Int.cast_one]
    rcases h with h | h
    · rw [if_pos]
      rw [List.any_eq_true]
      exact ⟨u, hu, decide_eq_true h⟩
    · split
      · rfl
      · rw [if_pos]
        rw [List.any_eq_true]
        exact ⟨u, hu, decide_eq_true h⟩

example : ∃ f : ℝ → ℝ, StrictMono f ∧ f (-3) = 0 ∧ f 5 = 1 := by
  obtain ⟨f, _, h1, h2, h3, _⟩ := C14_normalize_isomorphism (-3) 5 (by norm_num)
  exact ⟨f, h1, h2, h3⟩

/-- **C14 (integer intervals).** With `is_int=True` an integer k of [low, high] is mapped to
(k - low) / (high - low), `inverse_transform` gives k back, even when the normalised value is
perturbed by less than half a step, and a value that rounds outside the interval raises
`ValueError`. -/
theorem C14_normalize_integer (low high : ℤ) (hlt : low < high) (ks : List ℤ) :
    ((∀ k ∈ ks, low ≤ k ∧ k ≤ high) →
      Normalize.transform exact ⟨low, high, true⟩ (ks.map fun k : ℤ => (k : ℝ)) =
        .ok (ks.map fun k : ℤ => ((k : ℝ) - low) / (high - low)) ∧
      ∀ us : List ℝ, List.Forall₂ (fun (k : ℤ) u => 0 ≤ u ∧ u ≤ 1 ∧
          |u - ((k : ℝ) - low) / (high - low)| * (high - low) < 1 / 2) ks us →
        Normalize.inverse exact ⟨low, high, true⟩ us = .ok (ks.map fun k : ℤ => (k : ℝ))) ∧
    (∀ xs : List ℝ, (∃ x ∈ xs, high < roundHalfEven x ∨ roundHalfEven x < low) →
      Normalize.transform exact ⟨low, high, true⟩ xs = .error .valueError) := by
  have hlt' : (low : ℝ) < high := by exact_mod_cast hlt
  constructor
  · intro hk
    constructor
    · exact normalize_transform_int hlt' fun k hkm =>
        ⟨by exact_mod_cast (hk k hkm).1, by exact_mod_cast (hk k hkm).2⟩
    · intro us hus
      rw [normalize_inverse_of_unit]
      · congr 1
        clear hk
        induction hus with
        | nil => rfl
        | @cons k u ks us h _ ih =>
          simp only [List.map_cons, if_true] at ih ⊢
          rw [ih]
          congr 2
          refine roundHalfEven_of_abs_lt ?_
          have hw : (0 : ℝ) < high - low := by linarith
          have e : u * (high - low) + low - k = (u - ((k : ℝ) - low) / (high - low)) * (high - low)
              := by field_simp; ring
          rw [e, abs_mul, abs_of_pos hw]
          exact h.2.2
      · intro u hu
        have : ∀ u ∈ us, 0 ≤ u ∧ u ≤ 1 := by
          clear hk hu
          induction hus with
          | nil => simp
          | cons h _ ih =>
            intro v hv
            rcases List.mem_cons.1 hv with rfl | hv
            · exact ⟨h.1, h.2.1⟩
            · exact ih v hv
        exact this u hu
  · rintro xs ⟨x, hx, h⟩
    unfold Normalize.transform
    simp only [exact, Bool.true_and, Bool.not_true, Bool.false_and, Bool.false_eq_true, if_false]
    rcases h with h | h
    · rw [if_pos]
      rw [List.any_eq_true]
      refine ⟨x, hx, decide_eq_true ?_⟩
      show (high : ℝ) < (roundHalfEven x : ℝ)
      exact_mod_cast h
    · split
      · rfl
      · rw [if_pos]
        rw [List.any_eq_true]
        refine ⟨x, hx, decide_eq_true ?_⟩
        show (roundHalfEven x : ℝ) < (low : ℝ)
        exact_mod_cast h

example : ∀ k ∈ ([-2, 0, 5] : List ℤ), (-5 : ℤ) ≤ k ∧ k ≤ 5 := by decide

/-- **C14 (rounded arithmetic).** For every monotone arithmetic the normalised values stay in
[0, 1] and normalisation does not reverse the order of two values. -/
theorem C14_normalize_monotone_rounded [LinearOrder F] (A : Arith F) (hA : MonoArith A)
    (low high : F) (hle : low ≤ high) (x y : F) (hx : low ≤ x) (hxy : x ≤ y) (hy : y ≤ high)
    (zs : List F) (h : Normalize.transform A ⟨low, high, false⟩ [x, y] = .ok zs) :
    ∃ u v, zs = [u, v] ∧ A.ofInt 0 ≤ u ∧ u ≤ v ∧ v ≤ A.ofInt 1 := by
  have hr := normalize_range hA h (fun _ z hz => by
    simp only [List.mem_cons, List.not_mem_nil, or_false] at hz
    rcases hz with rfl | rfl
    · exact ⟨hx, hxy.trans hy⟩
    · exact ⟨hx.trans hxy, hy⟩)
  unfold Normalize.transform at h
  simp only [Bool.false_and, Bool.not_false, Bool.true_and, Bool.false_eq_true, if_false] at h
  split at h
  · simp at h
  split at h
  · simp at h
  split at h
  · simp only [List.map_cons, List.map_nil, Except.ok.injEq] at h
    subst h
    refine ⟨_, _, rfl, (hr _ (by simp)).1, ?_, (hr _ (by simp)).2⟩
    rw [hA.mul_zero, hA.mul_zero]
  · rename_i hne
    simp only [List.map_cons, List.map_nil, Except.ok.injEq] at h
    subst h
    refine ⟨_, _, rfl, (hr _ (by simp)).1, ?_, (hr _ (by simp)).2⟩
    refine hA.div_mono ?_ (hA.sub_mono low hxy)
    refine lt_of_le_of_ne ?_ (Ne.symm hne)
    rw [← hA.sub_self low]
    exact hA.sub_mono low hle

/-- The tolerances of the two directions do not match: on an interval narrower than 1, a value
accepted by `transform` (within the tolerance) can have an image that `inverse_transform` rejects. -/
theorem C14_refuted_tolerance_round_trip :
    ∃ u, Normalize.transform exact ⟨0, 1/2, false⟩ [1/2 + 1/10^8] = .ok [u] ∧
      Normalize.inverse exact ⟨0, 1/2, false⟩ [u] = .error .valueError := by
  refine ⟨(1/2 + 1/10^8 - 0) / (1/2 - 0), ?_, ?_⟩
  · unfold Normalize.transform
    simp only [exact, Bool.false_and, Bool.not_false, Bool.true_and, Bool.false_eq_true, if_false,
      List.map_cons, List.map_nil]
    rw [if_neg, if_neg, if_neg]
    · norm_num
    · refine any_false fun x hx => ?_
      simp only [List.mem_cons, List.not_mem_nil, or_false] at hx
      subst hx; norm_num
    · refine any_false fun x hx => ?_
      simp only [List.mem_cons, List.not_mem_nil, or_false] at hx
      subst hx; norm_num
  · unfold Normalize.inverse
    simp only [exact, Int.cast_zero, Int.cast_one]
    rw [if_pos]
    rw [List.any_eq_true]
    refine ⟨_, List.mem_cons_self, decide_eq_true ?_⟩
    norm_num

/-! ## C15 -/

/-- Every stage undoes its own transform on the column that reaches it. -/
def Undoes [LinearOrder F] (A : Arith F) : List (Stage F) → List (Val F) → Prop
  | [], _ => True
  | s :: ss, X => ∃ Y, s.transform A X = .ok Y ∧ s.inverse A Y = .ok X ∧ Undoes A ss Y

theorem pipelineInverseLoop_append [LinearOrder F] (A : Arith F) (ss ts : List (Stage F))
    (X : List (Val F)) : pipelineInverseLoop A (ss ++ ts) X =
      (pipelineInverseLoop A ss X >>= fun Y => pipelineInverseLoop A ts Y) := by
  induction ss generalizing X with
  | nil => rfl
  | cons s ss ih =>
    simp only [List.cons_append, pipelineInverseLoop]
    cases s.inverse A X with
    | error e => rfl
    | ok Y => simp only [ok_bind]; exact ih Y

/-- **C15.** A pipeline whose stages undo their own transforms inverts its transform: the stages
are applied in order and undone in reverse order.  Holds for every arithmetic. -/
theorem C15_pipeline_inverse [LinearOrder F] (A : Arith F) (ss : List (Stage F))
    (X : List (Val F)) (h : Undoes A ss X) :
    ∃ Y, pipelineTransform A ss X = .ok Y ∧ pipelineInverse A ss Y = .ok X := by
  induction ss generalizing X with
  | nil => exact ⟨X, rfl, rfl⟩
  | cons s ss ih =>
    obtain ⟨Y, h1, h2, h3⟩ := h
    obtain ⟨Z, h4, h5⟩ := ih Y h3
    refine ⟨Z, ?_, ?_⟩
    · simp only [pipelineTransform, h1, ok_bind, h4]
    · unfold pipelineInverse at h5 ⊢
      rw [List.reverse_cons, pipelineInverseLoop_append, h5, ok_bind]
      simp only [pipelineInverseLoop, h2, ok_bind]

/-- The first stage that raises makes the pipeline raise the same exception. -/
theorem C15_pipeline_error [LinearOrder F] (A : Arith F) (pre post : List (Stage F)) (s : Stage F)
    (X Y : List (Val F)) (e : PyErr) (h1 : pipelineTransform A pre X = .ok Y)
    (h2 : s.transform A Y = .error e) :
    pipelineTransform A (pre ++ s :: post) X = .error e := by
  induction pre generalizing X with
  | nil =>
    simp only [pipelineTransform, Except.ok.injEq] at h1
    subst h1
    simp only [List.nil_append, pipelineTransform, h2, error_bind]
  | cons t pre ih =>
    simp only [pipelineTransform, bind_eq_ok] at h1
    obtain ⟨Z, hz, h1⟩ := h1
    simp only [List.cons_append, pipelineTransform, hz, ok_bind]
    exact ih Z h1

/-- Non-vacuity of C15: a label encoder followed by a normalisation.
Meets the hypotheses of `C15_pipeline_inverse`. -/
example : ∃ e, LabelEnc.fit ratArith [.str "a", .str "b", .str "c"] = .ok e ∧
    Undoes ratArith [.label e, .normalize ⟨0, 2, true⟩] [.str "b", .str "c"] := by
  refine ⟨{ mapping := [(.str "a", 0), (.str "b", 1), (.str "c", 2)],
            inverse := [(0, .str "a"), (1, .str "b"), (2, .str "c")] }, ?_, ?_⟩
  · rfl
  · refine ⟨[.num 1, .num 2], by decide +kernel, by decide +kernel,
      [.num (1/2), .num 1], by decide +kernel, by decide +kernel, trivial⟩

/-! ## C16 -/

/-- The one-hot code of category number `i` out of `n`: one category has the constant code 0, two
categories share one column, more categories have one column each. -/
def oneHotCode (zero one : F) (n i : Nat) : List F :=
  if n = 1 then [zero] else if n = 2 then [if i = 1 then one else zero]
  else (List.range n).map fun j => if j = i then one else zero

theorem binarize_eq_code (A : Arith F) {n i : Nat} :
    binarize A (List.range n) i = oneHotCode (A.ofInt 0) (A.ofInt 1) n i := by
  match n with
  | 0 => rfl
  | 1 => rfl
  | 2 => rfl
  | n + 3 =>
    rw [binarize_ge3 A (by simp)]
    unfold oneHotCode
    rw [if_neg (by omega), if_neg (by omega)]
    exact List.map_congr_left fun j _ => by simp [eq_comm]

theorem oneHotCode_injective {zero one : F} (h01 : zero ≠ one) {n i j : Nat} (hi : i < n)
    (hj : j < n) (h : oneHotCode zero one n i = oneHotCode zero one n j) : i = j := by
  unfold oneHotCode at h
  split at h
  · omega
  split at h
  · subst n
    simp only [List.cons.injEq, and_true] at h
    obtain rfl | rfl : i = 0 ∨ i = 1 := by omega
    · obtain rfl | rfl : j = 0 ∨ j = 1 := by omega
      · rfl
      · exact absurd h (by simpa using h01)
    · obtain rfl | rfl : j = 0 ∨ j = 1 := by omega
      · exact absurd h.symm (by simpa using h01)
      · rfl
  · have h1 : ((List.range n).map fun k => if k = i then one else zero)[i]? = some one := by
      simp [hi]
    rw [h] at h1
    simp only [List.getElem?_map, List.getElem?_range hi, Option.map_some, Option.some.injEq] at h1
    by_contra hne
    rw [if_neg hne] at h1
    exact h01 h1

/-- **C16 (encoding).** For every arithmetic with 0 ≠ 1 and every non-empty list of distinct
categories: fitting succeeds, each category is encoded by the code of its position, all codes have
width `n` (1 if `n = 2`), distinct categories have distinct codes, and unknown values raise
`KeyError`. -/
theorem C16_one_hot_encoding [LinearOrder F] (A : Arith F) (h01 : A.ofInt 0 ≠ A.ofInt 1)
    (cats : List (Val F)) (hnd : cats.Nodup) (hne : cats ≠ []) :
    ∃ e, OneHot.fit cats = .ok e ∧
      (∀ i (hi : i < cats.length), e.transform A [cats[i]] =
        .ok [(oneHotCode (A.ofInt 0) (A.ofInt 1) cats.length i).map .num]) ∧
      (∀ i, (oneHotCode (A.ofInt 0) (A.ofInt 1) cats.length i).length =
        if cats.length = 2 then 1 else cats.length) ∧
      (∀ i j, i < cats.length → j < cats.length →
        oneHotCode (A.ofInt 0) (A.ofInt 1) cats.length i =
          oneHotCode (A.ofInt 0) (A.ofInt 1) cats.length j → i = j) ∧
      (∀ v, v ∉ cats → e.transform A [v] = .error .keyError) := by
  refine ⟨_, OneHot.fit_nodup hnd hne, ?_, ?_, ?_, ?_⟩
  · intro i hi
    rw [OneHot.encode hnd hne (OneHot.fit_nodup hnd hne) (by simp)]
    simp [hnd.idxOf_getElem, binarize_eq_code]
  · intro i
    rw [← binarize_eq_code, binarize_length]
    rfl
  · exact fun i j hi hj => oneHotCode_injective h01 hi hj
  · intro v hv
    unfold OneHot.transform
    have : dictGet cats.zipIdx v = .error .keyError := by
      unfold dictGet
      rw [List.find?_eq_none.2]
      intro p hp
      simp only [decide_eq_true_eq]
      rintro rfl
      exact hv (by
        rw [List.mem_zipIdx_iff_getElem?] at hp
        exact List.mem_of_getElem? hp)
    simp only [mapE, this, error_bind]

/-- **C16 (decoding).** Decoding any matrix with the right number of columns succeeds, and gives
one category per row, for every arithmetic and whatever the entries are. -/
theorem C16_one_hot_decoding_total [LinearOrder F] (A : Arith F)
    (cats : List (Val F)) (hnd : cats.Nodup) (hne : cats ≠ []) (rows : List (List F))
    (hw : ∀ r ∈ rows, r.length = if cats.length = 2 then 1 else cats.length) :
    ∃ e vs, OneHot.fit cats = .ok e ∧ e.inverseTransform A rows = .ok vs ∧
      vs.length = rows.length ∧ ∀ v ∈ vs, v ∈ cats := by
  obtain ⟨ks, hks, hlen, hlt⟩ : ∃ ks, unbinarize A (List.range cats.length) rows = .ok ks ∧
      ks.length = rows.length ∧ ∀ k ∈ ks, k < cats.length := by
    have hpos : 0 < cats.length := List.length_pos_iff.2 hne
    generalize cats.length = n at hw hpos
    match n, hpos with
    | 1, _ => exact ⟨rows.map fun _ => 0, rfl, by simp, by simp⟩
    | 2, _ =>
      have hw1 : ∀ r ∈ rows, r.length = 1 := by simpa using hw
      have hflat : rows.flatten.length = rows.length := by
        clear hw
        induction rows with
        | nil => rfl
        | cons r rs ih =>
          rw [List.flatten_cons, List.length_append, hw1 r (by simp),
            ih fun x hx => hw1 x (by simp [hx])]
          simp; omega
      have e : unbinarize A (List.range 2) rows =
          (if rows.all (fun r => r.length == 2) then
            mapE (fun r => do let y ← pyGet r 1; .ok (if A.half < y then 1 else 0)) rows
          else .ok (rows.flatten.map fun y => if A.half < y then 1 else 0)) := rfl
      rw [e]
      split
      · rename_i hall
        cases rows with
        | nil => exact ⟨[], rfl, rfl, by simp⟩
        | cons r rs =>
          have := hw1 r (by simp)
          simp [this] at hall
      · refine ⟨_, rfl, by rw [List.length_map, hflat], ?_⟩
        intro k hk
        obtain ⟨y, _, rfl⟩ := List.mem_map.1 hk
        split <;> omega
    | m + 3, _ =>
      rw [unbinarize_ge3 A (by simp)]
      have hex : ∀ r ∈ rows, ∃ k, (do
          let k ← npArgmax r
          pyGet (List.range (m + 3)) (min k ((List.range (m + 3)).length - 1))) = .ok k ∧
            k < m + 3 := by
        intro r hr
        have hl := hw r hr
        rw [if_neg (by omega)] at hl
        obtain ⟨i, hi⟩ := npArgmax_ok (xs := r) (by intro h; rw [h] at hl; simp at hl)
        refine ⟨min i (m + 2), ?_, by omega⟩
        rw [hi, ok_bind, pyGet_lt (by simp)]
        simp
      clear hw
      induction rows with
      | nil => exact ⟨[], rfl, rfl, by simp⟩
      | cons r rs ih =>
        obtain ⟨k, hk, hk'⟩ := hex r (by simp)
        obtain ⟨ks, h1, h2, h3⟩ := ih fun x hx => hex x (by simp [hx])
        refine ⟨k :: ks, ?_, by simp [h2], ?_⟩
        · rw [mapE_cons_ok]; exact ⟨k, ks, hk, h1, rfl⟩
        · intro x hx
          rcases List.mem_cons.1 hx with rfl | hx
          · exact hk'
          · exact h3 x hx
  refine ⟨_, ks.map fun k => cats.getD k (.obj 0), OneHot.fit_nodup hnd hne, ?_, by simpa using hlen, ?_⟩
  · simp only [OneHot.inverseTransform, hks, ok_bind]
    refine mapE_ok_of_forall fun k hk => ?_
    rw [dictGet_swap _ (hlt k hk)]
    simp [List.getD, hlt k hk]
  · intro v hv
    obtain ⟨k, hk, rfl⟩ := List.mem_map.1 hv
    simp [List.getD, hlt k hk]

/-- Arbitrary rows for three categories.
Meets the hypotheses of `C16_one_hot_encoding`. -/
example : ∃ e vs, OneHot.fit (F := ℚ) [.str "a", .str "b", .str "c"] = .ok e ∧
    e.inverseTransform ratArith [[7, -3, 7], [0, 0, 0]] = .ok vs ∧ vs.length = 2 ∧
    ∀ v ∈ vs, v ∈ [Val.str "a", .str "b", .str "c"] :=
  C16_one_hot_decoding_total ratArith _ (by simp) (by simp) [[7, -3, 7], [0, 0, 0]] (by simp)

/-- **C16 (robustness).** In exact arithmetic, decoding rows whose entries are all less than one
half away from the codes of some categories gives these categories. -/
theorem C16_one_hot_robust (cats : List (Val ℝ)) (hnd : cats.Nodup) (hne : cats ≠ [])
    (is : List Nat) (his : ∀ i ∈ is, i < cats.length) (rows : List (List ℝ))
    (h : List.Forall₂ (fun i row => List.Forall₂ (fun y c => |y - c| < 1 / 2) row
      (oneHotCode 0 1 cats.length i)) is rows) :
    ∃ e vs, OneHot.fit cats = .ok e ∧ e.inverseTransform exact rows = .ok vs ∧
      List.Forall₂ (fun i v => cats[i]? = some v) is vs := by
  refine ⟨_, _, OneHot.fit_nodup hnd hne,
    OneHot.decode_near hnd hne (OneHot.fit_nodup hnd hne) his (h.imp fun i row hr => ?_), ?_⟩
  · unfold NearCode
    rw [binarize_eq_code]
    simpa [exact] using hr
  · rw [List.forall₂_map_right_iff]
    refine List.forall₂_same.2 fun i hi => ?_
    simp [List.getD, his i hi]

/-- Non-vacuity of the robustness statement: a perturbed code of the third of three categories. -/
example : List.Forall₂ (fun i row => List.Forall₂ (fun y c => |y - c| < 1 / 2) row
      (oneHotCode 0 1 3 i)) [2, 0] [[(0.4 : ℝ), -0.3, 0.6], [0.9, 0.1, 0.2]] := by
  simp [oneHotCode, List.range_succ]
  norm_num [abs_lt]

/-- Perturbations of one half are too large: with three categories the row [1/2, 1/2, 0] decodes to
the first category although it is within 1/2 of the code of the second. -/
example : (OneHot.fit (F := ℚ) [.str "a", .str "b", .str "c"]).bind
    (fun e => e.inverseTransform ratArith [[1/2, 1/2, 0]]) = .ok [.str "a"] := by decide +kernel

/-! ## C17 -/

/-- **C17.** For distinct categories of one type there is an arrangement `keys` of the categories -
increasing for numbers and strings - such that `transform` maps `keys[i]` to the number `i` and
`inverse_transform` maps every number less than one half away from `i` to `keys[i]`; labels that
round outside 0..n-1 raise `KeyError`. -/
theorem C17_label_encoding (cats : List (Val ℝ)) (hnd : cats.Nodup) (hh : Homogeneous cats) :
    ∃ e, ∃ keys : List (Val ℝ), LabelEnc.fit exact cats = .ok e ∧ keys.Perm cats ∧
      ((∀ v ∈ cats, v.isObj = false) → keys.Pairwise fun a b =>
        (∀ x y, a = .num x → b = .num y → x < y) ∧ (∀ s t, a = .str s → b = .str t → s < t)) ∧
      (∀ is : List Nat, (∀ i ∈ is, i < keys.length) →
        e.transform exact (is.map fun i => keys.getD i (.obj 0)) =
          .ok (is.map fun i : Nat => .num ((i : ℝ)))) ∧
      (∀ (is : List Nat) (xs : List ℝ), (∀ i ∈ is, i < keys.length) →
        List.Forall₂ (fun (i : Nat) x => |x - (i : ℝ)| < 1 / 2) is xs →
        e.inverseTransform exact xs = .ok (is.map fun i => keys.getD i (.obj 0))) ∧
      (∀ x : ℝ, (x < -1 / 2 ∨ (keys.length : ℝ) - 1 / 2 < x) →
        e.inverseTransform exact [x] = .error .keyError) := by
  have hperm : (labelKeys cats).Perm cats := by
    refine (List.perm_ext_iff_of_nodup (labelKeys_nodup hnd) hnd).2 fun v => mem_labelKeys
  have hlen := labelKeys_length hnd
  refine ⟨_, labelKeys cats, LabelEnc.fit_valid exact hnd hh, hperm, ?_, ?_, ?_, ?_⟩
  · intro hobj
    have hk : labelKeys cats = npUnique cats := by
      unfold labelKeys
      rw [if_neg]
      unfold isObjectDtype
      simp only [List.any_eq_true, not_exists, not_and]
      intro v hv
      simp [hobj v hv]
    rw [hk]
    have htot : ∀ a b : Val ℝ, valLe a b = true ∨ valLe b a = true := by
      intro a b
      cases a <;> cases b <;> simp [valLe, le_total]
    have htrans : ∀ a b c : Val ℝ, valLe a b = true → valLe b c = true → valLe a c = true := by
      intro a b c
      cases a <;> cases b <;> cases c <;> simp [valLe] <;> exact le_trans
    have : Std.Total (fun a b : Val ℝ => valLe a b = true) := ⟨htot⟩
    have : IsTrans (Val ℝ) (fun a b : Val ℝ => valLe a b = true) := ⟨htrans⟩
    have hs : (npUnique cats).Pairwise fun a b => valLe a b = true :=
      List.pairwise_insertionSort _ _
    refine (hs.and (npUnique_nodup cats)).imp ?_
    rintro a b ⟨h1, h2⟩
    constructor
    · rintro x y rfl rfl
      exact lt_of_le_of_ne (by simpa [valLe] using h1) (fun h => h2 (by rw [h]))
    · rintro x y rfl rfl
      exact lt_of_le_of_ne (by simpa [valLe] using h1) (fun h => h2 (by rw [h]))
  · intro is his
    rw [LabelEnc.encode hnd hh (LabelEnc.fit_valid exact hnd hh)]
    · rw [List.map_map]
      congr 1
      refine List.map_congr_left fun i hi => ?_
      have := his i hi
      simp [List.getD, this, (labelKeys_nodup hnd).idxOf_getElem, exact]
    · intro v hv
      obtain ⟨i, hi, rfl⟩ := List.mem_map.1 hv
      have := his i hi
      rw [← mem_labelKeys]
      simp [List.getD, this]
  · intro is xs his hx
    exact LabelEnc.decode_near hnd hh (LabelEnc.fit_valid exact hnd hh)
      (fun i hi => by rw [← hlen]; exact his i hi) hx
  · intro x hx
    have hr1 := roundHalfEven_le x
    have hr2 := le_roundHalfEven x
    unfold LabelEnc.inverseTransform
    simp only [mapE]
    have : (if exact.round x < 0 then Except.error PyErr.keyError else
        dictGet ((labelKeys cats).zipIdx.map fun p => (p.2, p.1)) (exact.round x).toNat) =
          .error .keyError := by
      split
      · rfl
      · rename_i hneg
        have hneg : 0 ≤ roundHalfEven x := not_lt.1 hneg
        rcases hx with hx | hx
        · exfalso
          have h0 : (roundHalfEven x : ℝ) < 0 := by linarith
          have : roundHalfEven x < 0 := by exact_mod_cast h0
          omega
        · have hge : (((labelKeys cats).length : ℤ) : ℝ) - 1 < roundHalfEven x := by
            push_cast; linarith
          have hge' : ((labelKeys cats).length : ℤ) - 1 < roundHalfEven x := by exact_mod_cast hge
          cases hd : dictGet ((labelKeys cats).zipIdx.map fun p => (p.2, p.1))
              (exact.round x).toNat with
          | ok v =>
            have := dictGet_swap_inv hd
            rw [List.getElem?_eq_none] at this
            · simp at this
            · show (labelKeys cats).length ≤ (roundHalfEven x).toNat
              omega
          | error e =>
            unfold dictGet at hd
            split at hd
            · simp at hd
            · simpa using hd.symm
    rw [this]

/-- Non-vacuity of C17: categories given in unsorted order. -/
example : (["c", "a", "b"].map Val.str : List (Val ℝ)).Nodup ∧
    Homogeneous (["c", "a", "b"].map Val.str : List (Val ℝ)) := by
  refine ⟨by simp, by simp [Val.isSeq], Or.inr (by simp [Val.isNum])⟩

example : (LabelEnc.fit ratArith [.str "c", .str "a", .str "b"]).bind
    (fun e => e.transform ratArith [.str "c", .str "a", .str "b"]) = .ok [.num 2, .num 0, .num 1] :=
  by decide +kernel

end Skopt

import Verif.Lemmas.Layout
import Verif.Model.Exact

/-! Per-dimension round trip in exact arithmetic. -/

namespace Skopt

theorem any_false {F : Type} {p : F → Prop} [DecidablePred p] {xs : List F}
    (h : ∀ x ∈ xs, ¬ p x) : ¬ (xs.any fun x => decide (p x)) = true := by
  simpa using h

/-! ### Normalize -/

theorem normalize_transform_real {lo hi : ℝ} (hlt : lo < hi) {xs : List ℝ}
    (hx : ∀ x ∈ xs, lo ≤ x ∧ x ≤ hi) :
    Normalize.transform exact ⟨lo, hi, false⟩ xs =
      .ok (xs.map fun x => (x - lo) / (hi - lo)) := by
  have e : (0 : ℝ) < 1 / 10 ^ 8 := by positivity
  unfold Normalize.transform
  simp only [exact, Bool.false_and, Bool.not_false, Bool.true_and, Bool.false_eq_true, if_false,
    Int.cast_zero]
  rw [if_neg, if_neg, if_neg]
  · intro h; linarith
  · refine any_false fun x hxm => not_lt.2 ?_
    have := (hx x hxm).1
    show lo - 1 / 10 ^ 8 ≤ x
    linarith
  · refine any_false fun x hxm => not_lt.2 ?_
    have := (hx x hxm).2
    show x ≤ hi + 1 / 10 ^ 8
    linarith

theorem normalize_transform_int {lo hi : ℝ} (hlt : lo < hi) {ks : List ℤ}
    (hx : ∀ k ∈ ks, lo ≤ (k : ℝ) ∧ (k : ℝ) ≤ hi) :
    Normalize.transform exact ⟨lo, hi, true⟩ (ks.map fun k : ℤ => (k : ℝ)) =
      .ok (ks.map fun k : ℤ => ((k : ℝ) - lo) / (hi - lo)) := by
  unfold Normalize.transform
  simp only [exact, Bool.true_and, Bool.not_true, Bool.false_and, Bool.false_eq_true, if_false,
    Int.cast_zero, if_true]
  rw [if_neg, if_neg, if_neg]
  · simp [List.map_map, Function.comp_def, roundHalfEven_intCast]
  · intro h; linarith
  · refine any_false fun x hxm => not_lt.2 ?_
    obtain ⟨k, hk, rfl⟩ := List.mem_map.1 hxm
    show lo ≤ (roundHalfEven (k : ℝ) : ℝ)
    rw [roundHalfEven_intCast]
    exact (hx k hk).1
  · refine any_false fun x hxm => not_lt.2 ?_
    obtain ⟨k, hk, rfl⟩ := List.mem_map.1 hxm
    show (roundHalfEven (k : ℝ) : ℝ) ≤ hi
    rw [roundHalfEven_intCast]
    exact (hx k hk).2

theorem unit_of_mem {lo hi x : ℝ} (hlt : lo < hi) (h1 : lo ≤ x) (h2 : x ≤ hi) :
    0 ≤ (x - lo) / (hi - lo) ∧ (x - lo) / (hi - lo) ≤ 1 :=
  ⟨div_nonneg (by linarith) (by linarith), (div_le_one (by linarith)).2 (by linarith)⟩

theorem normalize_inverse_of_unit {lo hi : ℝ} (isInt : Bool) {us : List ℝ}
    (hu : ∀ u ∈ us, 0 ≤ u ∧ u ≤ 1) :
    Normalize.inverse exact ⟨lo, hi, isInt⟩ us =
      .ok (us.map fun u => if isInt then (roundHalfEven (u * (hi - lo) + lo) : ℝ)
        else u * (hi - lo) + lo) := by
  have e : (0 : ℝ) < 1 / 10 ^ 8 := by positivity
  unfold Normalize.inverse
  simp only [exact, Int.cast_zero, Int.cast_one]
  rw [if_neg, if_neg]
  · cases isInt <;> simp
  · refine any_false fun x hxm => not_lt.2 ?_
    have := (hu x hxm).1
    show 0 - 1 / 10 ^ 8 ≤ x
    linarith
  · refine any_false fun x hxm => not_lt.2 ?_
    have := (hu x hxm).2
    show x ≤ 1 + 1 / 10 ^ 8
    linarith

theorem normalize_inverse_real {lo hi : ℝ} (hlt : lo < hi) {xs : List ℝ}
    (hx : ∀ x ∈ xs, lo ≤ x ∧ x ≤ hi) :
    Normalize.inverse exact ⟨lo, hi, false⟩ (xs.map fun x => (x - lo) / (hi - lo)) = .ok xs := by
  rw [normalize_inverse_of_unit]
  · have : hi - lo ≠ 0 := by intro h; linarith
    simp only [List.map_map, Function.comp_def, Bool.false_eq_true, if_false]
    congr 1
    conv_rhs => rw [← List.map_id xs]
    refine List.map_congr_left fun x _ => ?_
    simp [div_mul_cancel₀ _ this]
  · intro u hu
    obtain ⟨x, hxm, rfl⟩ := List.mem_map.1 hu
    exact unit_of_mem hlt (hx x hxm).1 (hx x hxm).2

theorem normalize_inverse_int {lo hi : ℝ} (hlt : lo < hi) {ks : List ℤ}
    (hx : ∀ k ∈ ks, lo ≤ (k : ℝ) ∧ (k : ℝ) ≤ hi) :
    Normalize.inverse exact ⟨lo, hi, true⟩ (ks.map fun k : ℤ => ((k : ℝ) - lo) / (hi - lo)) =
      .ok (ks.map fun k : ℤ => (k : ℝ)) := by
  rw [normalize_inverse_of_unit]
  · have : hi - lo ≠ 0 := by intro h; linarith
    simp only [List.map_map, Function.comp_def, if_true]
    congr 1
    refine List.map_congr_left fun x _ => ?_
    simp [div_mul_cancel₀ _ this, roundHalfEven_intCast]
  · intro u hu
    obtain ⟨x, hxm, rfl⟩ := List.mem_map.1 hu
    exact unit_of_mem hlt (hx x hxm).1 (hx x hxm).2

/-! ### Logarithm -/

/-- `LogN` in exact arithmetic: the logarithm to the given base. -/
theorem logN_exact {base x : ℝ} : logNTransform exact base x = Real.logb base x := by
  unfold logNTransform exact
  simp only [Real.logb]
  have h10 : Real.log 10 ≠ 0 := (Real.log_pos (by norm_num)).ne'
  rw [div_div_div_cancel_right₀ h10]

theorem logN_inverse_exact {base x : ℝ} (hb : 1 < base) (hx : 0 < x) :
    logNInverse exact base (Real.logb base x) = x :=
  Real.rpow_logb (by linarith) hb.ne' hx

theorem exact_lg {base x : ℝ} : exact.div (exact.log10 x) (exact.log10 base) = Real.logb base x :=
  logN_exact

/-! ### Pipelines on a column of numbers -/

theorem scalar_rows_col {F : Type} (vs : List (Val F)) :
    mapE scalarRow (vs.map fun v => [v]) = .ok vs := by
  rw [mapE_map]
  conv_rhs => rw [← List.map_id vs]
  exact mapE_ok_of_forall fun v _ => rfl

/-- The statement proved for each dimension. -/
def RoundTripsCol (d : Dim ℝ) (col : List (Val ℝ)) : Prop :=
  ∃ b, d.transform exact col = .ok b ∧ d.inverse exact b = .ok col ∧ b.length = col.length ∧
    ∀ r ∈ b, r.length = d.transformedSize

theorem map_num_of_forall {P : ℝ → Prop} {col : List (Val ℝ)}
    (h : ∀ v ∈ col, ∃ x, v = .num x ∧ P x) : ∃ xs : List ℝ, col = xs.map .num ∧ ∀ x ∈ xs, P x := by
  induction col with
  | nil => exact ⟨[], rfl, by simp⟩
  | cons v col ih =>
    obtain ⟨x, hv, hx⟩ := h v (by simp)
    obtain ⟨xs, hxs, hP⟩ := ih fun w hw => h w (by simp [hw])
    refine ⟨x :: xs, by simp [hv, hxs], ?_⟩
    intro y hy
    rcases List.mem_cons.1 hy with rfl | hy
    · exact hx
    · exact hP y hy

theorem map_int_of_forall {P : ℤ → Prop} {col : List (Val ℝ)}
    (h : ∀ v ∈ col, ∃ k : ℤ, v = .num (k : ℝ) ∧ P k) :
    ∃ ks : List ℤ, col = (ks.map fun k : ℤ => (k : ℝ)).map .num ∧ ∀ x ∈ ks, P x := by
  induction col with
  | nil => exact ⟨[], rfl, by simp⟩
  | cons v col ih =>
    obtain ⟨x, hv, hx⟩ := h v (by simp)
    obtain ⟨xs, hxs, hP⟩ := ih fun w hw => h w (by simp [hw])
    refine ⟨x :: xs, by simp [hv, hxs], ?_⟩
    intro y hy
    rcases List.mem_cons.1 hy with rfl | hy
    · exact hx
    · exact hP y hy

/-- A list of stages and the values it maps between. -/
theorem pipeline_rt {ss : List (Stage ℝ)} {X Y : List (Val ℝ)}
    (h1 : pipelineTransform exact ss X = .ok Y) (h2 : pipelineInverse exact ss Y = .ok X) :
    (Transformer.pipeline ss).transform exact X = .ok (Y.map fun v => [v]) ∧
    (Transformer.pipeline ss).inverse exact (Y.map fun v => [v]) = .ok X := by
  constructor
  · simp only [Transformer.transform, h1, ok_bind]
  · simp only [Transformer.inverse, scalar_rows_col, ok_bind, h2]

/-- The numeric pipelines: identity, log, normalize, log + normalize. -/
theorem num_pipeline_rt {ss : List (Stage ℝ)} {xs : List ℝ}
    (h : (ss = [.identity]) ∨
      (∃ base, ss = [.logN base] ∧ 1 < base ∧ ∀ x ∈ xs, 0 < x) ∨
      (∃ lo hi, ss = [.identity, .normalize ⟨lo, hi, false⟩] ∧ lo < hi ∧
        ∀ x ∈ xs, lo ≤ x ∧ x ≤ hi) ∨
      (∃ base lo hi, ss = [.logN base, .normalize ⟨Real.logb base lo, Real.logb base hi, false⟩] ∧
        1 < base ∧ 0 < lo ∧ lo < hi ∧ ∀ x ∈ xs, lo ≤ x ∧ x ≤ hi)) :
    ∃ Y, pipelineTransform exact ss (xs.map .num) = .ok Y ∧
      pipelineInverse exact ss Y = .ok (xs.map .num) ∧ Y.length = xs.length := by
  rcases h with rfl | ⟨base, rfl, hb, hpos⟩ | ⟨lo, hi, rfl, hlt, hx⟩ |
    ⟨base, lo, hi, rfl, hb, hlo, hlt, hx⟩
  · exact ⟨xs.map .num, rfl, rfl, by simp⟩
  · refine ⟨(xs.map fun x => Real.logb base x).map .num, ?_, ?_, by simp⟩
    · simp [pipelineTransform, Stage.transform, logN_exact, Function.comp_def]
    · simp only [pipelineInverse, List.reverse_cons, List.reverse_nil, List.nil_append,
        pipelineInverseLoop, Stage.inverse, mapE_toNum_map, ok_bind]
      congr 1
      rw [List.map_map]
      refine List.map_congr_left fun x hx => ?_
      simp only [Function.comp]
      rw [logN_inverse_exact hb (hpos x hx)]
  · refine ⟨(xs.map fun x => (x - lo) / (hi - lo)).map .num, ?_, ?_, by simp⟩
    · simp only [pipelineTransform, Stage.transform, mapE_toNum_map, ok_bind,
        normalize_transform_real hlt hx]
    · simp only [pipelineInverse, List.reverse_cons, List.reverse_nil, List.nil_append,
        List.cons_append, pipelineInverseLoop, Stage.inverse, mapE_toNum_map, ok_bind,
        normalize_inverse_real hlt hx]
  · have hl : Real.logb base lo < Real.logb base hi := Real.logb_lt_logb hb hlo hlt
    have hx' : ∀ y ∈ xs.map (Real.logb base), Real.logb base lo ≤ y ∧ y ≤ Real.logb base hi := by
      intro y hy
      obtain ⟨x, hxm, rfl⟩ := List.mem_map.1 hy
      have := hx x hxm
      exact ⟨Real.logb_le_logb_of_le hb hlo this.1,
        Real.logb_le_logb_of_le hb (by linarith) this.2⟩
    have hpos : ∀ x ∈ xs, 0 < x := fun x hxm => by have := hx x hxm; linarith
    refine ⟨((xs.map (Real.logb base)).map fun x => (x - Real.logb base lo) /
      (Real.logb base hi - Real.logb base lo)).map .num, ?_, ?_, by simp⟩
    · simp only [pipelineTransform, Stage.transform, mapE_toNum_map, ok_bind, logN_exact]
      have e : (xs.map fun x => Val.num (Real.logb base x)) =
          (xs.map (Real.logb base)).map .num := by simp [Function.comp_def]
      rw [e, mapE_toNum_map]
      simp only [ok_bind, normalize_transform_real hl hx']
    · simp only [pipelineInverse, List.reverse_cons, List.reverse_nil, List.nil_append,
        List.cons_append, pipelineInverseLoop, Stage.inverse, mapE_toNum_map, ok_bind,
        normalize_inverse_real hl hx']
      congr 1
      rw [List.map_map]
      refine List.map_congr_left fun x hx => ?_
      simp only [Function.comp]
      rw [logN_inverse_exact hb (hpos x hx)]

/-! ### Real and Integer -/

theorem Dim.real_rt {r : RealDim ℝ} (hv : ValidDim exact (.real r))
    (hi : Invertible (0 : ℝ) 1 (.real r)) {col : List (Val ℝ)}
    (hl : ∀ v ∈ col, Legal exact (.real r) v ∧ Representable (.real r) v) :
    RoundTripsCol (.real r) col := by
  obtain ⟨hlt, hk, _⟩ := hv
  obtain ⟨xs, rfl, hxs⟩ : ∃ xs : List ℝ, col = xs.map .num ∧
      ∀ x ∈ xs, (r.low ≤ x ∧ x ≤ r.high) ∧ r.cast x = x := by
    refine map_num_of_forall fun v hv => ?_
    obtain ⟨⟨x, rfl, h1, h2⟩, h3⟩ := hl v hv
    exact ⟨x, rfl, ⟨h1, h2⟩, h3⟩
  obtain ⟨ss, hss, Y, h1, h2, h3⟩ : ∃ ss, r.transformer exact = .pipeline ss ∧
      ∃ Y, pipelineTransform exact ss (xs.map .num) = .ok Y ∧
      pipelineInverse exact ss Y = .ok (xs.map .num) ∧ Y.length = xs.length := by
    unfold RealDim.transformer
    simp only [exact_lg]
    simp only [Invertible] at hi
    rcases hk with hk | hk <;> cases hp : r.prior <;> simp only [hk]
    · exact ⟨_, rfl, num_pipeline_rt (Or.inl rfl)⟩
    · refine ⟨_, rfl, num_pipeline_rt (Or.inr (Or.inl ⟨_, rfl, (hi hp).2, fun x hx => ?_⟩))⟩
      exact lt_of_lt_of_le (hi hp).1 (hxs x hx).1.1
    · exact ⟨_, rfl, num_pipeline_rt (Or.inr (Or.inr (Or.inl
        ⟨_, _, rfl, hlt, fun x hx => (hxs x hx).1⟩)))⟩
    · exact ⟨_, rfl, num_pipeline_rt (Or.inr (Or.inr (Or.inr
        ⟨_, _, _, rfl, (hi hp).2, (hi hp).1, hlt, fun x hx => (hxs x hx).1⟩)))⟩
  obtain ⟨g1, g2⟩ := pipeline_rt h1 h2
  refine ⟨Y.map fun v => [v], ?_, ?_, by simpa using h3, ?_⟩
  · simp only [Dim.transform, Dim.transformer, ok_bind, hss]; exact g1
  · simp only [Dim.inverse, RealDim.inverse, hss, g2, ok_bind, mapE_toNum_map]
    congr 1
    refine List.map_congr_left fun x hx => ?_
    rw [npClip_of_mem (hxs x hx).1.1 (hxs x hx).1.2, (hxs x hx).2]
  · intro row hrow
    obtain ⟨v, _, rfl⟩ := List.mem_map.1 hrow
    rfl

theorem Dim.int_rt {r : IntDim ℝ} (hv : ValidDim exact (.int r))
    (hi : Invertible (0 : ℝ) 1 (.int r)) {col : List (Val ℝ)}
    (hl : ∀ v ∈ col, Legal exact (.int r) v) :
    RoundTripsCol (.int r) col := by
  obtain ⟨l, u, hlu, hlow, hhigh, _, _, hk, hwrap⟩ := hv
  have hlow' : r.low = (l : ℝ) := hlow
  have hhigh' : r.high = (u : ℝ) := hhigh
  have hlt : r.low < r.high := by rw [hlow', hhigh']; exact_mod_cast hlu
  obtain ⟨ks, rfl, hks⟩ : ∃ ks : List ℤ, col = (ks.map fun k : ℤ => (k : ℝ)).map .num ∧
      ∀ k ∈ ks, r.low ≤ (k : ℝ) ∧ (k : ℝ) ≤ r.high :=
    map_int_of_forall fun v hv => hl v hv
  have hxs : ∀ x ∈ ks.map (fun k : ℤ => (k : ℝ)), r.low ≤ x ∧ x ≤ r.high := by
    intro x hx
    obtain ⟨k, hk, rfl⟩ := List.mem_map.1 hx
    exact hks k hk
  obtain ⟨ss, hss, Y, h1, h2, h3⟩ : ∃ ss, r.transformer exact = .pipeline ss ∧
      ∃ Y, pipelineTransform exact ss ((ks.map fun k : ℤ => (k : ℝ)).map .num) = .ok Y ∧
      pipelineInverse exact ss Y = .ok ((ks.map fun k : ℤ => (k : ℝ)).map .num) ∧
      Y.length = (ks.map fun k : ℤ => (k : ℝ)).length := by
    unfold IntDim.transformer
    simp only [exact_lg]
    simp only [Invertible] at hi
    rcases hk with hk | hk <;> cases hp : r.prior <;> simp only [hk]
    · exact ⟨_, rfl, num_pipeline_rt (Or.inl rfl)⟩
    · refine ⟨_, rfl, num_pipeline_rt (Or.inr (Or.inl ⟨_, rfl, (hi hp).2, fun x hx => ?_⟩))⟩
      exact lt_of_lt_of_le (hi hp).1 (hxs x hx).1
    · refine ⟨_, rfl, (ks.map fun k : ℤ => ((k : ℝ) - r.low) / (r.high - r.low)).map .num, ?_, ?_,
        by simp⟩
      · simp only [pipelineTransform, Stage.transform, mapE_toNum_map, ok_bind,
          normalize_transform_int hlt hks]
      · simp only [pipelineInverse, List.reverse_cons, List.reverse_nil, List.nil_append,
          List.cons_append, pipelineInverseLoop, Stage.inverse, mapE_toNum_map, ok_bind,
          normalize_inverse_int hlt hks]
    · exact ⟨_, rfl, num_pipeline_rt (Or.inr (Or.inr (Or.inr
        ⟨_, _, _, rfl, (hi hp).2, (hi hp).1, hlt, hxs⟩)))⟩
  obtain ⟨g1, g2⟩ := pipeline_rt h1 h2
  refine ⟨Y.map fun v => [v], ?_, ?_, by simpa using h3, ?_⟩
  · simp only [Dim.transform, Dim.transformer, ok_bind, hss]; exact g1
  · simp only [Dim.inverse, IntDim.inverse, hss, g2, ok_bind, mapE_toNum_map]
    simp only [List.map_map, Function.comp_def]
    congr 1
    refine List.map_congr_left fun k hk => ?_
    rw [npClip_of_mem (hks k hk).1 (hks k hk).2]
    have : exact.round (k : ℝ) = k := roundHalfEven_intCast k
    rw [this, hwrap k]
    · rfl
    · have := (hks k hk).1; rw [hlow'] at this; exact_mod_cast this
    · have := (hks k hk).2; rw [hhigh'] at this; exact_mod_cast this
  · intro row hrow
    obtain ⟨v, _, rfl⟩ := List.mem_map.1 hrow
    rfl

/-! ### Categorical -/

theorem binarize_ge3 {F : Type} (A : Arith F) {cs : List Nat} (h : 3 ≤ cs.length) (i : Nat) :
    binarize A cs i = cs.map fun c => if i = c then A.ofInt 1 else A.ofInt 0 := by
  match cs, h with
  | a :: b :: c :: cs, _ => rfl

theorem unbinarize_ge3 {F : Type} [LinearOrder F] (A : Arith F) {cs : List Nat} (h : 3 ≤ cs.length)
    (rows : List (List F)) :
    unbinarize A cs rows = mapE (fun r => do
      let k ← npArgmax r
      pyGet cs (min k (cs.length - 1))) rows := by
  match cs, h with
  | a :: b :: c :: cs, _ => rfl

/-- Number of one-hot columns for `n` categories. -/
def oneHotWidth (n : Nat) : Nat := if n = 2 then 1 else n

theorem binarize_length {F : Type} (A : Arith F) {n : Nat} (i : Nat) :
    (binarize A (List.range n) i).length = oneHotWidth n := by
  match n with
  | 0 => rfl
  | 1 => rfl
  | 2 => rfl
  | n + 3 => rw [binarize_ge3 A (by simp)]; simp [oneHotWidth]

/-- Rows within one half of the one-hot code of label `i`. -/
def NearCode (n i : Nat) (row : List ℝ) : Prop :=
  List.Forall₂ (fun y c => |y - c| < 1 / 2) row (binarize exact (List.range n) i)

/-- Decoding rows near the codes of the labels `is` gives the labels. -/
theorem unbinarize_near {n : Nat} (hn : 0 < n) {is : List Nat} (his : ∀ i ∈ is, i < n)
    {rows : List (List ℝ)} (h : List.Forall₂ (fun i row => NearCode n i row) is rows) :
    unbinarize exact (List.range n) rows = .ok is := by
  match n, hn with
  | 1, _ =>
    show Except.ok (rows.map fun _ => 0) = .ok is
    congr 1
    induction h with
    | nil => rfl
    | cons _ _ ih =>
      simp only [List.map_cons]
      rw [ih fun i hi => his i (by simp [hi])]
      have := his _ (List.mem_cons_self)
      congr 1; omega
  | 2, _ =>
    have hrows : rows.Forall₂ (fun row i => ∃ y : ℝ, row = [y] ∧
        (if exact.half < y then 1 else 0) = i) is := by
      refine List.Forall₂.flip ?_
      induction h with
      | nil => exact .nil
      | @cons i row is rows h1 _ ih =>
        refine .cons ?_ (ih fun i hi => his i (by simp [hi]))
        have hi := his i (by simp)
        have hb : binarize exact (List.range 2) i = [if i = 1 then 1 else 0] := by
          show [if i = 1 then ((1 : ℤ) : ℝ) else ((0 : ℤ) : ℝ)] = _
          simp
        unfold NearCode at h1
        rw [hb] at h1
        cases h1 with
        | cons h1 h2 =>
          cases h2
          refine ⟨_, rfl, ?_⟩
          rw [abs_lt] at h1
          have hhalf : exact.half = 1 / 2 := rfl
          rw [hhalf]
          obtain rfl | rfl : i = 0 ∨ i = 1 := by omega
          · simp only [zero_ne_one, if_false] at h1
            rw [if_neg (by linarith)]
          · simp only [if_true] at h1
            rw [if_pos (by linarith)]
    clear h
    show (if rows.all (fun r => r.length == 2) then _ else _) = _
    cases hrows with
    | nil => rfl
    | cons h1 h2 =>
      obtain ⟨y, rfl, hy⟩ := h1
      rw [if_neg (by simp)]
      congr 1
      simp only [List.flatten_cons, List.cons_append, List.nil_append, List.map_cons]
      congr 1
      clear his hy
      induction h2 with
      | nil => rfl
      | cons h1 _ ih =>
        obtain ⟨y, rfl, hy⟩ := h1
        simp only [List.flatten_cons, List.cons_append, List.nil_append, List.map_cons]
        congr 1
  | n + 3, _ =>
    rw [unbinarize_ge3 exact (by simp), mapE_eq_ok]
    refine List.Forall₂.flip ?_
    refine List.Forall₂.imp ?_ ((List.forall₂_and_left _ _).2 ⟨his, h⟩)
    rintro i row ⟨hi, hnear⟩
    unfold NearCode at hnear
    rw [binarize_ge3 exact (by simp), List.forall₂_iff_get] at hnear
    obtain ⟨hlen, hnear⟩ := hnear
    simp only [List.length_map, List.length_range] at hlen
    have hne : row ≠ [] := by intro h; rw [h] at hlen; simp at hlen
    obtain ⟨k, hk⟩ := npArgmax_ok hne
    obtain ⟨hkl, hmax, _⟩ := npArgmax_spec hk
    have hval : ∀ j (hj : j < row.length), |row[j] - (if i = j then 1 else 0)| < 1 / 2 := by
      intro j hj
      have := hnear j hj (by simpa [hlen] using hj)
      simp only [List.get_eq_getElem, List.getElem_map, List.getElem_range] at this
      simpa [exact] using this
    have hki : k = i := by
      by_contra hne
      have h1 := hval i (by omega)
      have h2 := hval k hkl
      rw [if_pos rfl] at h1
      rw [if_neg (Ne.symm hne)] at h2
      have h3 := hmax row[i] (List.getElem_mem _)
      rw [abs_lt] at h1 h2
      linarith
    unfold flip
    beta_reduce
    rw [hk, ok_bind, hki, List.length_range, pyGet_lt (by simp)]
    simp only [List.getElem_range]
    congr 1
    omega

/-- One-hot codes decode to what was encoded, also after perturbing every entry by less than one
half. -/
theorem OneHot.decode_near {cats : List (Val ℝ)} (hnd : cats.Nodup) (hne : cats ≠ [])
    {e : OneHot ℝ} (he : OneHot.fit cats = .ok e) {is : List Nat} (his : ∀ i ∈ is, i < cats.length)
    {rows : List (List ℝ)}
    (h : List.Forall₂ (fun i row => NearCode cats.length i row) is rows) :
    e.inverseTransform exact rows = .ok (is.map fun i => cats.getD i (.obj 0)) := by
  rw [OneHot.fit_nodup hnd hne] at he
  simp only [Except.ok.injEq] at he
  subst he
  have hn : 0 < cats.length := List.length_pos_iff.2 hne
  simp only [OneHot.inverseTransform, unbinarize_near hn his h, ok_bind]
  refine mapE_ok_of_forall fun i hi => ?_
  rw [dictGet_swap cats (his i hi)]
  simp [List.getD, his i hi]

theorem map_getD_idxOf {F : Type} [DecidableEq F] {cats col : List (Val F)}
    (hc : ∀ v ∈ col, v ∈ cats) : (col.map fun v => cats.idxOf v).map
      (fun i => cats.getD i (.obj 0)) = col := by
  rw [List.map_map]
  conv_rhs => rw [← List.map_id col]
  refine List.map_congr_left fun v hv => ?_
  have := List.idxOf_lt_length_iff.2 (hc v hv)
  simp [List.getD, this]

theorem OneHot.encode {F : Type} [LinearOrder F] {A : Arith F} {cats : List (Val F)}
    (hnd : cats.Nodup) (hne : cats ≠ [])
    {e : OneHot F} (he : OneHot.fit cats = .ok e) {col : List (Val F)} (hc : ∀ v ∈ col, v ∈ cats) :
    e.transform A col = .ok (col.map fun v =>
      (binarize A (List.range cats.length) (cats.idxOf v)).map .num) := by
  rw [OneHot.fit_nodup hnd hne] at he
  simp only [Except.ok.injEq] at he
  subst he
  refine mapE_ok_of_forall fun v hv => ?_
  have hlt := List.idxOf_lt_length_iff.2 (hc v hv)
  have := dictGet_zipIdx hnd hlt
  rw [List.getElem_idxOf] at this
  simp only [this, ok_bind]

theorem LabelEnc.encode {F : Type} [LinearOrder F] {A : Arith F} {cats : List (Val F)}
    (hnd : cats.Nodup) (hh : Homogeneous cats)
    {e : LabelEnc F} (he : LabelEnc.fit A cats = .ok e) {col : List (Val F)}
    (hc : ∀ v ∈ col, v ∈ cats) :
    e.transform A col = .ok (col.map fun v => .num (A.ofInt ((labelKeys cats).idxOf v))) := by
  rw [LabelEnc.fit_valid A hnd hh] at he
  simp only [Except.ok.injEq] at he
  subst he
  unfold LabelEnc.transform
  rw [(hh.subset hc).npArray]
  simp only [ok_bind]
  refine mapE_ok_of_forall fun v hv => ?_
  have hlt := List.idxOf_lt_length_iff.2 (mem_labelKeys.2 (hc v hv))
  have := dictGet_zipIdx (labelKeys_nodup hnd) hlt
  rw [List.getElem_idxOf] at this
  simp only [this, ok_bind]

/-- Labels perturbed by less than one half decode to the category. -/
theorem LabelEnc.decode_near {cats : List (Val ℝ)} (hnd : cats.Nodup) (hh : Homogeneous cats)
    {e : LabelEnc ℝ} (he : LabelEnc.fit exact cats = .ok e) {is : List Nat}
    (his : ∀ i ∈ is, i < cats.length) {xs : List ℝ}
    (h : List.Forall₂ (fun (i : Nat) x => |x - (i : ℝ)| < 1 / 2) is xs) :
    e.inverseTransform exact xs = .ok (is.map fun i => (labelKeys cats).getD i (.obj 0)) := by
  rw [LabelEnc.fit_valid exact hnd hh] at he
  simp only [Except.ok.injEq] at he
  subst he
  unfold LabelEnc.inverseTransform
  rw [mapE_eq_ok, List.forall₂_map_right_iff]
  refine List.Forall₂.flip ?_
  refine List.Forall₂.imp ?_ ((List.forall₂_and_left _ _).2 ⟨his, h⟩)
  rintro i x ⟨hi, hx⟩
  have hr : exact.round x = (i : ℤ) := roundHalfEven_of_abs_lt (by exact_mod_cast hx)
  have hi' : i < (labelKeys cats).length := by rw [labelKeys_length hnd]; exact hi
  unfold flip
  simp only [hr]
  rw [if_neg (by omega), Int.toNat_natCast, dictGet_swap _ hi']
  simp [List.getD, hi']

theorem NearCode.self (n i : Nat) : NearCode n i (binarize exact (List.range n) i) := by
  unfold NearCode
  refine List.forall₂_same.2 fun c _ => ?_
  simp

theorem Dim.cat_rt {c : CatDim ℝ} (hv : ValidDim exact (.cat c))
    (hi : Invertible (0 : ℝ) 1 (.cat c)) {col : List (Val ℝ)}
    (hl : ∀ v ∈ col, v ∈ c.cats) : RoundTripsCol (.cat c) col := by
  obtain ⟨hne, hnd, hh⟩ := hv
  have hpos : 0 < c.cats.length := List.length_pos_iff.2 hne
  have hnp : npArray exact col = .ok col := (hh.subset hl).npArray
  have hlab : ∀ v ∈ col, (labelKeys c.cats).idxOf v < c.cats.length := fun v hv => by
    rw [← labelKeys_length hnd]
    exact List.idxOf_lt_length_iff.2 (mem_labelKeys.2 (hl v hv))
  have hdec : ∀ e : LabelEnc ℝ, LabelEnc.fit exact c.cats = .ok e →
      e.inverseTransform exact (col.map fun v => (((labelKeys c.cats).idxOf v : ℤ) : ℝ))
        = .ok col := by
    intro e he
    rw [LabelEnc.decode_near hnd hh he (is := col.map fun v => (labelKeys c.cats).idxOf v),
      map_getD_idxOf fun v hv => mem_labelKeys.2 (hl v hv)]
    · intro i hi
      obtain ⟨v, hv, rfl⟩ := List.mem_map.1 hi
      exact hlab v hv
    · rw [List.forall₂_map_left_iff, List.forall₂_map_right_iff]
      refine List.forall₂_same.2 fun v _ => ?_
      simp
  unfold RoundTripsCol
  simp only [Dim.transform, Dim.inverse, CatDim.inverse, Dim.transformer, CatDim.transformer]
  cases hk : c.transform
  · -- identity
    refine ⟨col.map fun v => [v], rfl, ?_, by simp, ?_⟩
    · simp only [ok_bind]
      rw [(pipeline_rt (ss := [.identity]) (X := col) (Y := col) rfl rfl).2]
      rfl
    · intro row hrow
      obtain ⟨v, _, rfl⟩ := List.mem_map.1 hrow
      simp [Dim.transformedSize, hk]
  · -- normalize
    rw [LabelEnc.fit_valid exact hnd hh]
    simp only [ok_bind]
    generalize hedef : ({ mapping := _, inverse := _ } : LabelEnc ℝ) = e
    have he : LabelEnc.fit exact c.cats = .ok e := by
      rw [← hedef]; exact LabelEnc.fit_valid exact hnd hh
    let ks : List ℤ := col.map fun v => ((labelKeys c.cats).idxOf v : ℤ)
    have hks : col.map (fun v => (((labelKeys c.cats).idxOf v : ℤ) : ℝ)) =
        ks.map fun k : ℤ => (k : ℝ) := by simp [ks, Function.comp_def]
    rcases Nat.lt_or_ge 1 c.cats.length with h2 | h1
    · have hlt : ((0 : ℤ) : ℝ) < (((c.cats.length : ℤ) - 1 : ℤ) : ℝ) := by
        have : (0 : ℤ) < (c.cats.length : ℤ) - 1 := by omega
        exact_mod_cast this
      have hb : ∀ k ∈ ks, ((0 : ℤ) : ℝ) ≤ (k : ℝ) ∧
          (k : ℝ) ≤ (((c.cats.length : ℤ) - 1 : ℤ) : ℝ) := by
        intro k hk
        obtain ⟨v, hv, rfl⟩ := List.mem_map.1 hk
        have := hlab v hv
        exact ⟨Int.cast_le.2 (by omega), Int.cast_le.2 (by omega)⟩
      refine ⟨(ks.map fun k : ℤ => ((k : ℝ) - ((0 : ℤ) : ℝ)) /
          ((((c.cats.length : ℤ) - 1 : ℤ) : ℝ) - ((0 : ℤ) : ℝ))).map fun u => [.num u], ?_, ?_,
          by simp [ks], ?_⟩
      · simp only [Transformer.transform, pipelineTransform, Stage.transform,
          LabelEnc.encode hnd hh he hl, ok_bind]
        rw [mapE_toNum_map_comp]
        simp only [ok_bind]
        have := normalize_transform_int hlt hb
        rw [← hks] at this
        have this' : Normalize.transform exact
            ⟨exact.ofInt 0, exact.ofInt ((c.cats.length : ℤ) - 1), true⟩
            (col.map fun v => exact.ofInt ((labelKeys c.cats).idxOf v : ℤ)) = _ := this
        rw [this']
        simp [Function.comp_def]
      · have hinv := normalize_inverse_int hlt hb
        have hinv' : Normalize.inverse exact
            ⟨exact.ofInt 0, exact.ofInt ((c.cats.length : ℤ) - 1), true⟩ _ = _ := hinv
        have hd := hdec e he
        rw [hks] at hd
        have e1 : ((ks.map fun k : ℤ => ((k : ℝ) - ((0 : ℤ) : ℝ)) /
          ((((c.cats.length : ℤ) - 1 : ℤ) : ℝ) - ((0 : ℤ) : ℝ))).map
            fun u => [(Val.num u : Val ℝ)]) =
          ((ks.map fun k : ℤ => ((k : ℝ) - ((0 : ℤ) : ℝ)) /
          ((((c.cats.length : ℤ) - 1 : ℤ) : ℝ) - ((0 : ℤ) : ℝ))).map Val.num).map
            fun v => [v] := by simp [Function.comp_def]
        rw [e1]
        simp only [Transformer.inverse, scalar_rows_col, ok_bind, pipelineInverse,
          List.reverse_cons, List.reverse_nil, List.nil_append, List.cons_append,
          pipelineInverseLoop, Stage.inverse, mapE_toNum_map, hinv', hd, hnp]
      · intro row hrow
        obtain ⟨v, _, rfl⟩ := List.mem_map.1 hrow
        simp [Dim.transformedSize, hk]
    · -- one category: `Normalize(0, 0)` returns zeros
      have hlen : c.cats.length = 1 := by omega
      have hz : ∀ v ∈ col, (labelKeys c.cats).idxOf v = 0 := fun v hv => by
        have := hlab v hv; omega
      have hzero : (col.map fun v => exact.ofInt ((labelKeys c.cats).idxOf v : ℤ)) =
          col.map fun _ => (0 : ℝ) := by
        refine List.map_congr_left fun v hv => ?_
        rw [hz v hv]; simp [exact]
      have r0 : roundHalfEven (0 : ℝ) = 0 := by
        have := roundHalfEven_intCast (K := ℝ) 0
        simpa using this
      refine ⟨col.map fun _ => [.num 0], ?_, ?_, by simp, ?_⟩
      · simp only [Transformer.transform, pipelineTransform, Stage.transform,
          LabelEnc.encode hnd hh he hl, ok_bind]
        rw [mapE_toNum_map_comp]
        simp only [ok_bind]
        rw [hzero]
        have : Normalize.transform exact
            ⟨exact.ofInt 0, exact.ofInt ((c.cats.length : ℤ) - 1), true⟩
            (col.map fun _ => (0 : ℝ)) = .ok (col.map fun _ => (0 : ℝ)) := by
          rw [hlen]
          unfold Normalize.transform
          have : exact.ofInt ((1 : Nat) - 1 : ℤ) = (0 : ℝ) := by simp [exact]
          simp only [this]
          have z : exact.ofInt 0 = (0 : ℝ) := by simp [exact]
          rw [if_neg, if_neg, if_neg (by simp), if_neg (by simp), if_pos]
          · simp [exact]
          · simp [exact]
          · rw [Bool.true_and]
            refine any_false fun x hxm => not_lt.2 ?_
            obtain ⟨_, _, rfl⟩ := List.mem_map.1 hxm
            show exact.ofInt 0 ≤ exact.ofInt (roundHalfEven 0)
            rw [r0]
          · rw [Bool.true_and]
            refine any_false fun x hxm => not_lt.2 ?_
            obtain ⟨_, _, rfl⟩ := List.mem_map.1 hxm
            show exact.ofInt (roundHalfEven 0) ≤ 0
            rw [r0, z]
        rw [this]
        simp
      · have hd := hdec e he
        have hd' : e.inverseTransform exact (col.map fun _ => (0 : ℝ)) = .ok col := by
          rw [← hzero]; exact hd
        have hinv : Normalize.inverse exact
            ⟨exact.ofInt 0, exact.ofInt ((c.cats.length : ℤ) - 1), true⟩
            (col.map fun _ => (0 : ℝ)) = .ok (col.map fun _ => (0 : ℝ)) := by
          rw [normalize_inverse_of_unit]
          · rw [List.map_map]
            simp [exact, Function.comp_def, r0]
          · intro u hu
            obtain ⟨_, _, rfl⟩ := List.mem_map.1 hu
            norm_num
        have e1 : (col.map fun _ => [(Val.num 0 : Val ℝ)]) =
          ((col.map fun _ => (0 : ℝ)).map Val.num).map fun v => [v] := by
          simp
        rw [e1]
        simp only [Transformer.inverse, scalar_rows_col, ok_bind, pipelineInverse,
          List.reverse_cons, List.reverse_nil, List.nil_append, List.cons_append,
          pipelineInverseLoop, Stage.inverse, mapE_toNum_map, hinv, hd', hnp]
      · intro row hrow
        obtain ⟨v, _, rfl⟩ := List.mem_map.1 hrow
        simp [Dim.transformedSize, hk]
  · -- onehot
    rw [OneHot.fit_nodup hnd hne]
    simp only [ok_bind]
    generalize hedef : ({ mapping := _, inverse := _, classes := _ } : OneHot ℝ) = e
    have he : OneHot.fit c.cats = .ok e := by rw [← hedef]; exact OneHot.fit_nodup hnd hne
    refine ⟨_, OneHot.encode hnd hne he hl, ?_, by simp, ?_⟩
    · have e1 : mapE (mapE Val.toNum) (col.map fun v =>
          (binarize exact (List.range c.cats.length) (c.cats.idxOf v)).map Val.num) =
          .ok (col.map fun v => binarize exact (List.range c.cats.length) (c.cats.idxOf v)) := by
        rw [mapE_map]
        exact mapE_ok_of_forall fun v _ => mapE_toNum_map _
      have hd := OneHot.decode_near hnd hne he (is := col.map fun v => c.cats.idxOf v)
        (rows := col.map fun v => binarize exact (List.range c.cats.length) (c.cats.idxOf v))
        (by
          intro i hi
          obtain ⟨v, hv, rfl⟩ := List.mem_map.1 hi
          exact List.idxOf_lt_length_iff.2 (hl v hv))
        (by
          rw [List.forall₂_map_left_iff, List.forall₂_map_right_iff]
          exact List.forall₂_same.2 fun v _ => NearCode.self _ _)
      rw [map_getD_idxOf hl] at hd
      simp only [Transformer.inverse, e1, ok_bind, hd, hnp]
    · intro row hrow
      obtain ⟨v, _, rfl⟩ := List.mem_map.1 hrow
      rw [List.length_map, binarize_length]
      simp [Dim.transformedSize, hk, oneHotWidth]
  · -- string
    refine ⟨(col.map fun v => Val.str (c.str v)).map fun v => [v], rfl, ?_, by simp, ?_⟩
    · have : pipelineInverse exact [Stage.string c.str c.castStr]
          (col.map fun v => Val.str (c.str v)) = .ok col := by
        simp only [pipelineInverse, List.reverse_cons, List.reverse_nil, List.nil_append,
          pipelineInverseLoop, Stage.inverse, mapE_map]
        have h1 : mapE (fun v => c.castStr (c.str v)) col = .ok col := by
          conv_rhs => rw [← List.map_id col]
          exact mapE_ok_of_forall fun v hv => hi hk v (hl v hv)
        rw [h1]; rfl
      simp only [Transformer.inverse, scalar_rows_col, ok_bind, this, hnp]
    · intro row hrow
      obtain ⟨v, _, rfl⟩ := List.mem_map.1 hrow
      simp [Dim.transformedSize, hk]
  · -- label
    rw [LabelEnc.fit_valid exact hnd hh]
    simp only [ok_bind]
    generalize hedef : ({ mapping := _, inverse := _ } : LabelEnc ℝ) = e
    have he : LabelEnc.fit exact c.cats = .ok e := by
      rw [← hedef]; exact LabelEnc.fit_valid exact hnd hh
    refine ⟨(col.map fun v => Val.num (((labelKeys c.cats).idxOf v : ℤ) : ℝ)).map fun v => [v],
      ?_, ?_, by simp, ?_⟩
    · simp only [Transformer.transform, pipelineTransform, Stage.transform,
        LabelEnc.encode hnd hh he hl, ok_bind]
      rfl
    · simp only [Transformer.inverse, scalar_rows_col, ok_bind, pipelineInverse,
        List.reverse_cons, List.reverse_nil, List.nil_append,
        pipelineInverseLoop, Stage.inverse, mapE_toNum_map_comp, hdec e he, hnp]
    · intro row hrow
      obtain ⟨v, _, rfl⟩ := List.mem_map.1 hrow
      simp [Dim.transformedSize, hk]

/-- Every valid dimension round trips its legal values. -/
theorem Dim.roundTrip {d : Dim ℝ} (hv : ValidDim exact d) (hi : Invertible (0 : ℝ) 1 d)
    {col : List (Val ℝ)} (hl : ∀ v ∈ col, Legal exact d v ∧ Representable d v) :
    RoundTripsCol d col := by
  cases d with
  | real r => exact Dim.real_rt hv hi hl
  | int r => exact Dim.int_rt hv hi fun v hv => (hl v hv).1
  | cat c => exact Dim.cat_rt hv hi fun v hv => (hl v hv).1

end Skopt

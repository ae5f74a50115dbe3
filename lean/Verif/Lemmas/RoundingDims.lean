import Verif.Lemmas.Rounding
import Verif.Lemmas.OnePoint

/-! The round trip of one value of a dimension in floating-point arithmetic. -/

namespace Skopt

variable {F : Type} [LinearOrder F] {A : Arith F} {val : F → ℝ} {u η : ℝ} {N : ℤ}

/-- The encoding of `v` decodes to `w`. -/
def TripOf (A : Arith F) (d : Dim F) (v w : Val F) : Prop :=
  ∃ t, d.transform A [v] = .ok [t] ∧ d.inverse A [t] = .ok [w] ∧ t.length = d.transformedSize

theorem stage_normalize_transform {n : Normalize F} {x t : F} (h : n.transform A [x] = .ok [t]) :
    (Stage.normalize n).transform A [.num x] = .ok [.num t] := by
  show (do let ys ← n.transform A [x]; Except.ok (ys.map Val.num)) = _
  rw [h]; rfl

theorem stage_normalize_inverse {n : Normalize F} {x t : F} (h : n.inverse A [x] = .ok [t]) :
    (Stage.normalize n).inverse A [.num x] = .ok [.num t] := by
  show (do let ys ← n.inverse A [x]; Except.ok (ys.map Val.num)) = _
  rw [h]; rfl

theorem realError_nonneg (h : FloatLike A val u η N) {d : RealDim F} {x : F} (hx : 0 ≤ val x)
    (hp : d.prior = .logUniform) (hb : 1 < val d.base) : 0 ≤ realError val u η d x := by
  have hm : 0 ≤ max |Real.log (val d.low)| |Real.log (val d.high)| := le_trans (abs_nonneg _) (le_max_left _ _)
  have := Real.log_pos hb
  have := h.u_nonneg
  have := h.η_nonneg
  simp only [realError, hp, logSize]
  positivity

theorem normTol_le (h : FloatLike A val u η N) {a b y : F} (h1 : a ≤ y) (h2 : y ≤ b) :
    FloatLike.normTol val u η a b y ≤ 10 * u * boundsSize val a b + η * (4 * boundsSize val a b + 2) := by
  have a1 := h.le_iff.2 h1
  have a2 := h.le_iff.2 h2
  have hu := h.u_nonneg
  have hη := h.η_nonneg
  unfold FloatLike.normTol boundsSize
  set M := max |val a| |val b|
  have m1 : |val a| ≤ M := le_max_left _ _
  have m2 : |val b| ≤ M := le_max_right _ _
  have w : val b - val a ≤ 2 * M := by
    have := le_abs_self (val b)
    have := neg_abs_le (val a)
    linarith
  have hy : |val y| ≤ M := by
    rw [abs_le]
    constructor
    · have := neg_abs_le (val a); linarith
    · have := le_abs_self (val b); linarith
  have k1 := mul_le_mul_of_nonneg_left w hu
  have k2 := mul_le_mul_of_nonneg_left hy hu
  have k3 := mul_le_mul_of_nonneg_left w hη
  have : 0 ≤ u * M := mul_nonneg hu ((abs_nonneg _).trans m1)
  nlinarith

/-- The same with the underflow threshold absorbed. -/
theorem normTol_le' (h : FloatLike A val u η N) {a b y : F} (h1 : a ≤ y) (h2 : y ≤ b) :
    FloatLike.normTol val u η a b y ≤ u * (14 * boundsSize val a b + 2) := by
  have g := normTol_le h h1 h2
  have hM : 0 ≤ boundsSize val a b := le_trans (abs_nonneg _) (le_max_left _ _)
  have := mul_le_mul_of_nonneg_right h.η_le (by linarith : (0 : ℝ) ≤ 4 * boundsSize val a b + 2)
  nlinarith

theorem log_fine (h : FloatLike A val u η N) {low high b : F} {k : ℤ} (h2 : A.ofInt k ≤ high)
    (hk : 1 ≤ val high) (hb : 1 < val b) (g : u * logSize val low high b * val high + η < 1 / 2) :
    u * logSize val low high b ≤ 1 ∧ u * logSize val low high b * val (A.ofInt k) + η < 1 / 2 := by
  have hm : 0 ≤ max |Real.log (val low)| |Real.log (val high)| := le_trans (abs_nonneg _) (le_max_left _ _)
  have := Real.log_pos hb
  have hu := h.u_nonneg
  have hη := h.η_nonneg
  have h0 : 0 ≤ u * logSize val low high b := by unfold logSize; positivity
  have k2 := mul_le_mul_of_nonneg_left (h.le_iff.2 h2) h0
  constructor
  · nlinarith
  · linarith

theorem FloatLike.real_trip (h : FloatLike A val u η N) {r : RealDim F} (hv : ValidDim A (.real r))
    (hf : FinePrecision val u η N (.real r)) {v : Val F} (hl : Legal A (.real r) v) :
    ∃ w, TripOf A (.real r) v w ∧ Recovered val u η (.real r) v w := by
  obtain ⟨hlt, hk, _⟩ := hv
  obtain ⟨hcast, hlog⟩ := hf
  obtain ⟨x, rfl, h1, h2⟩ := hl
  -- it is enough to know the decoded number before clipping
  suffices H : ∃ t z, (r.transformer A).transform A [.num x] = .ok [[.num t]] ∧
      (r.transformer A).inverse A [[.num t]] = .ok [.num z] ∧ |val z - val x| ≤ realError val u η r x by
    obtain ⟨t, z, e1, e2, e3⟩ := H
    refine ⟨.num (npClip r.low r.high z), ⟨[.num t], e1, ?_, rfl⟩, x, _, rfl, rfl, (npClip_mem hlt.le z).1,
      (npClip_mem hlt.le z).2, h.clip_near h1 h2 e3⟩
    simp only [Dim.inverse, RealDim.inverse, e2, ok_bind]
    show Except.ok [Val.num (r.cast _)] = _
    rw [hcast]
  rcases hk with hk | hk <;> cases hp : r.prior
  · refine ⟨x, x, ?_, ?_, by simp [realError, hp, hk]⟩
    · unfold RealDim.transformer; simp only [hk, hp]; rfl
    · unfold RealDim.transformer; simp only [hk, hp]; rfl
  · obtain ⟨g0, g1, g2⟩ := hlog hp
    refine ⟨logNTransform A r.base x, logNInverse A r.base (logNTransform A r.base x), ?_, ?_, ?_⟩
    · unfold RealDim.transformer; simp only [hk, hp]; rfl
    · unfold RealDim.transformer; simp only [hk, hp]; rfl
    · simp only [realError, hp]
      exact h.log_rt g0 g1 g2 h1 h2
  · obtain ⟨t, z, e1, e2, e3⟩ := h.normalize_rt h1 h2
    refine ⟨t, z, ?_, ?_, ?_⟩
    · unfold RealDim.transformer; simp only [hk, hp, Transformer.transform, pipelineTransform]
      show (do let Y ← (do let Y ← (Stage.normalize ⟨r.low, r.high, false⟩).transform A [.num x]; Except.ok Y)
               Except.ok (Y.map fun v => [v])) = _
      rw [stage_normalize_transform e1]; rfl
    · unfold RealDim.transformer; simp only [hk, hp, Transformer.inverse]
      show (do let Y ← (Stage.normalize ⟨r.low, r.high, false⟩).inverse A [.num t]; Except.ok Y) = _
      rw [stage_normalize_inverse e2]; rfl
    · simp only [realError, hp, hk, if_true]
      exact e3.trans (normTol_le h h1 h2)
  · obtain ⟨g0, g1, g2⟩ := hlog hp
    obtain ⟨t, z, e1, e2, e3⟩ := h.log_norm_rt g0 g1 g2 h1 h2
    refine ⟨t, logNInverse A r.base z, ?_, ?_, ?_⟩
    · unfold RealDim.transformer; simp only [hk, hp, Transformer.transform, pipelineTransform]
      show (do let Y ← (do let Y ← (Stage.normalize ⟨logNTransform A r.base r.low, logNTransform A r.base r.high,
                                false⟩).transform A [.num (logNTransform A r.base x)]; Except.ok Y)
               Except.ok (Y.map fun v => [v])) = _
      rw [stage_normalize_transform e1]; rfl
    · unfold RealDim.transformer; simp only [hk, hp, Transformer.inverse]
      show (do let Y ← (Stage.normalize ⟨logNTransform A r.base r.low, logNTransform A r.base r.high,
                  false⟩).inverse A [.num t]
               (do let Z ← (Stage.logN r.base).inverse A Y; Except.ok Z)) = _
      rw [stage_normalize_inverse e2]; rfl
    · simp only [realError, hp]
      exact e3

theorem FloatLike.int_trip (h : FloatLike A val u η N) {r : IntDim F} (hv : ValidDim A (.int r))
    (hf : FinePrecision val u η N (.int r)) {v : Val F} (hl : Legal A (.int r) v) : TripOf A (.int r) v v := by
  obtain ⟨l, b, hlb, hlow, hhigh, hrl, hrb, hk, hwrap⟩ := hv
  obtain ⟨hN, huni, hlog⟩ := hf
  -- the value is one of the integers between the bounds
  obtain ⟨k, rfl, k1, k2⟩ : ∃ k : ℤ, v = .num (A.ofInt k) ∧ l ≤ k ∧ k ≤ b := by
    obtain ⟨k, rfl, g1, g2⟩ := hl
    rw [hlow] at g1
    rw [hhigh] at g2
    rcases lt_or_ge k l with hkl | hkl
    · exact ⟨l, by rw [le_antisymm (h.mono.ofInt_mono hkl.le) g1], le_rfl, hlb.le⟩
    · rcases lt_or_ge b k with hkb | hkb
      · exact ⟨b, by rw [le_antisymm g2 (h.mono.ofInt_mono hkb.le)], hlb.le, le_rfl⟩
      · exact ⟨k, rfl, hkl, hkb⟩
  have h1 : r.low ≤ A.ofInt k := hlow ▸ h.mono.ofInt_mono k1
  have h2 : A.ofInt k ≤ r.high := hhigh ▸ h.mono.ofInt_mono k2
  -- the integers are represented exactly
  obtain ⟨hl, hb⟩ : |l| ≤ N ∧ |b| ≤ N := by
    have hNN : val (A.ofInt N) = N := h.ofInt_eq N (by rw [abs_of_nonneg (by linarith [h.N_pos])])
    have hNM : val (A.ofInt (-N)) = -N := by
      rw [h.ofInt_eq (-N) (by rw [abs_neg, abs_of_nonneg (by linarith [h.N_pos])])]; push_cast; ring
    have big : ∀ m : ℤ, |val (A.ofInt m)| < N → |m| ≤ N := by
      intro m hm
      rw [abs_lt] at hm
      rw [abs_le]
      constructor
      · by_contra hc
        have := h.le_iff.2 (h.mono.ofInt_mono (not_le.1 hc).le)
        rw [hNM] at this
        linarith [hm.1]
      · by_contra hc
        have := h.le_iff.2 (h.mono.ofInt_mono (not_le.1 hc).le)
        rw [hNN] at this
        linarith [hm.2]
    unfold boundsSize at hN
    rw [hlow, hhigh] at hN
    exact ⟨big l (lt_of_le_of_lt (le_max_left _ _) hN), big b (lt_of_le_of_lt (le_max_right _ _) hN)⟩
  have hkN : |k| ≤ N := by
    rw [abs_le] at hl hb ⊢
    omega
  have vk : val (A.ofInt k) = k := h.ofInt_eq k hkN
  -- it is enough to know the decoded number before clipping and rounding
  suffices H : ∃ t z, (r.transformer A).transform A [.num (A.ofInt k)] = .ok [[.num t]] ∧
      (r.transformer A).inverse A [[.num t]] = .ok [.num z] ∧ |val z - val (A.ofInt k)| < 1 / 2 by
    obtain ⟨t, z, e1, e2, e3⟩ := H
    refine ⟨[.num t], e1, ?_, rfl⟩
    simp only [Dim.inverse, IntDim.inverse, e2, ok_bind]
    show Except.ok [Val.num (A.ofInt (r.wrap (A.round (npClip r.low r.high z))))] = _
    have hr : A.round (npClip r.low r.high z) = k := by
      refine h.round_near _ _ ?_
      rw [← vk]
      exact lt_of_le_of_lt (h.clip_near h1 h2 le_rfl) e3
    rw [hr, hwrap k k1 k2]
  have one_le : 0 < val r.low → 1 ≤ val r.high := by
    intro h0
    rw [hlow, h.ofInt_eq l hl] at h0
    rw [hhigh, h.ofInt_eq b hb]
    have : 0 < l := by exact_mod_cast h0
    have : 1 ≤ b := by omega
    exact_mod_cast this
  rcases hk with hk | hk <;> cases hp : r.prior
  · refine ⟨A.ofInt k, A.ofInt k, ?_, ?_, by simp⟩
    · unfold IntDim.transformer; simp only [hk, hp]; rfl
    · unfold IntDim.transformer; simp only [hk, hp]; rfl
  · obtain ⟨g0, g1, g2⟩ := hlog hp
    obtain ⟨s1, s2⟩ := log_fine h h2 (one_le g0) g1 g2
    refine ⟨logNTransform A r.base (A.ofInt k), logNInverse A r.base (logNTransform A r.base (A.ofInt k)), ?_, ?_, ?_⟩
    · unfold IntDim.transformer; simp only [hk, hp]; rfl
    · unfold IntDim.transformer; simp only [hk, hp]; rfl
    · exact lt_of_le_of_lt (h.log_rt g0 g1 s1 h1 h2) s2
  · obtain ⟨t, e1, e2⟩ := h.normalize_int_rt k1 k2 hkN hl hb (by
      rw [hlow] at h1
      rw [hhigh] at h2
      have := normTol_le' h h1 h2
      have g := huni hp
      rw [hlow, hhigh] at g
      exact lt_of_le_of_lt this g)
    refine ⟨t, A.ofInt k, ?_, ?_, by simp⟩
    · unfold IntDim.transformer; simp only [hk, hp, Transformer.transform, pipelineTransform, hlow, hhigh]
      show (do let Y ← (do let Y ← (Stage.normalize ⟨A.ofInt l, A.ofInt b, true⟩).transform A [.num (A.ofInt k)]
                           Except.ok Y)
               Except.ok (Y.map fun v => [v])) = _
      rw [stage_normalize_transform e1]; rfl
    · unfold IntDim.transformer; simp only [hk, hp, Transformer.inverse, hlow, hhigh]
      show (do let Y ← (Stage.normalize ⟨A.ofInt l, A.ofInt b, true⟩).inverse A [.num t]; Except.ok Y) = _
      rw [stage_normalize_inverse e2]; rfl
  · obtain ⟨g0, g1, g2⟩ := hlog hp
    obtain ⟨s1, s2⟩ := log_fine h h2 (one_le g0) g1 g2
    obtain ⟨t, z, e1, e2, e3⟩ := h.log_norm_rt g0 g1 s1 h1 h2
    refine ⟨t, logNInverse A r.base z, ?_, ?_, lt_of_le_of_lt e3 s2⟩
    · unfold IntDim.transformer; simp only [hk, hp, Transformer.transform, pipelineTransform]
      show (do let Y ← (do let Y ← (Stage.normalize ⟨logNTransform A r.base r.low, logNTransform A r.base r.high,
                                false⟩).transform A [.num (logNTransform A r.base (A.ofInt k))]; Except.ok Y)
               Except.ok (Y.map fun v => [v])) = _
      rw [stage_normalize_transform e1]; rfl
    · unfold IntDim.transformer; simp only [hk, hp, Transformer.inverse]
      show (do let Y ← (Stage.normalize ⟨logNTransform A r.base r.low, logNTransform A r.base r.high,
                  false⟩).inverse A [.num t]
               (do let Z ← (Stage.logN r.base).inverse A Y; Except.ok Z)) = _
      rw [stage_normalize_inverse e2]; rfl

/-! ### Categories -/

theorem unbinarize_one (h : FloatLike A val u η N) {n i : Nat} (hi : i < n) :
    unbinarize A (List.range n) [binarize A (List.range n) i] = .ok [i] := by
  have z1 : A.ofInt 0 < A.ofInt 1 := by rw [← h.lt_iff, h.val_zero, h.val_one]; norm_num
  have hh1 : A.half < A.ofInt 1 := by rw [← h.lt_iff, h.half_eq, h.val_one]; norm_num
  have hh0 : ¬ A.half < A.ofInt 0 := by rw [← h.lt_iff, h.half_eq, h.val_zero]; norm_num
  match n, hi with
  | 1, hi =>
    obtain rfl : i = 0 := by omega
    rfl
  | 2, hi =>
    obtain rfl | rfl : i = 0 ∨ i = 1 := by omega
    · show Except.ok ([if A.half < A.ofInt 0 then 1 else 0] : List Nat) = _
      rw [if_neg hh0]
    · show Except.ok ([if A.half < A.ofInt 1 then 1 else 0] : List Nat) = _
      rw [if_pos hh1]
  | n + 3, hi =>
    rw [unbinarize_ge3 A (by simp), binarize_ge3 A (by simp), mapE_eq_ok]
    refine .cons ?_ .nil
    set row := (List.range (n + 3)).map fun c => if i = c then A.ofInt 1 else A.ofInt 0 with hrow
    have hlen : row.length = n + 3 := by simp [hrow]
    obtain ⟨k, hk⟩ := npArgmax_ok (xs := row) (by intro h0; rw [h0] at hlen; simp at hlen)
    obtain ⟨hkl, hmax, _⟩ := npArgmax_spec hk
    have hki : k = i := by
      by_contra hne
      have e1 : row[k] = A.ofInt 0 := by simp [hrow, Ne.symm hne]
      have := hmax (A.ofInt 1) (by
        rw [hrow, List.mem_map]
        exact ⟨i, List.mem_range.2 hi, by simp⟩)
      rw [e1] at this
      exact absurd z1 (not_lt.2 this)
    rw [hk, ok_bind, hki, List.length_range, pyGet_lt (by simp)]
    simp only [List.getElem_range]
    congr 1
    omega

theorem FloatLike.cat_trip (h : FloatLike A val u η N) {c : CatDim F} (hv : ValidDim A (.cat c))
    (hf : FinePrecision val u η N (.cat c)) (hs : c.transform ≠ .string) {v : Val F} (hl : v ∈ c.cats) :
    TripOf A (.cat c) v v := by
  obtain ⟨hne, hnd, hh⟩ := hv
  obtain ⟨hN, hfine⟩ := hf
  have hl' : ∀ w ∈ [v], w ∈ c.cats := by simpa using hl
  have hnp : npArray A [v] = .ok [v] := (hh.subset hl').npArray
  have hlab : (labelKeys c.cats).idxOf v < c.cats.length := by
    rw [← labelKeys_length hnd]
    exact List.idxOf_lt_length_iff.2 (mem_labelKeys.2 hl)
  set i := (labelKeys c.cats).idxOf v with hidef
  have hiN : |(i : ℤ)| ≤ N := by rw [abs_of_nonneg (by omega)]; omega
  have hdec : ∀ e : LabelEnc F, LabelEnc.fit A c.cats = .ok e →
      (Stage.label e).inverse A [.num (A.ofInt i)] = .ok [v] := by
    intro e he
    rw [LabelEnc.fit_valid A hnd hh] at he
    simp only [Except.ok.injEq] at he
    subst he
    show (do let xs ← mapE Val.toNum [.num (A.ofInt i)]; LabelEnc.inverseTransform A _ xs) = _
    rw [show mapE Val.toNum [Val.num (A.ofInt i)] = .ok [A.ofInt i] from rfl, ok_bind]
    unfold LabelEnc.inverseTransform
    rw [mapE_eq_ok]
    refine .cons ?_ .nil
    have hi' : i < (labelKeys c.cats).length := by rw [labelKeys_length hnd]; exact hlab
    rw [h.round_ofInt hiN, if_neg (by omega), Int.toNat_natCast, dictGet_swap _ hi']
    simp [hidef]
  have henc : ∀ e : LabelEnc F, LabelEnc.fit A c.cats = .ok e →
      (Stage.label e).transform A [v] = .ok [.num (A.ofInt i)] := fun e he => LabelEnc.encode hnd hh he hl'
  unfold TripOf
  simp only [Dim.transform, Dim.inverse, CatDim.inverse, Dim.transformer, CatDim.transformer]
  cases hk : c.transform
  · exact ⟨[v], rfl, rfl, by simp [Dim.transformedSize, hk]⟩
  · obtain ⟨e, he⟩ : ∃ e, LabelEnc.fit A c.cats = .ok e := ⟨_, LabelEnc.fit_valid A hnd hh⟩
    obtain ⟨t, e1, e2⟩ := h.normalize_int_rt (l := 0) (k := i) (b := (c.cats.length : ℤ) - 1) (by omega) (by omega) hiN
      (by simpa using h.N_pos.trans' zero_le_one) (by rw [abs_of_nonneg (by omega)]; omega) (by
        have i1 : A.ofInt 0 ≤ A.ofInt i := h.mono.ofInt_mono (by omega)
        have i2 : A.ofInt i ≤ A.ofInt ((c.cats.length : ℤ) - 1) := h.mono.ofInt_mono (by omega)
        have g := normTol_le' h i1 i2
        have hb : boundsSize val (A.ofInt 0) (A.ofInt ((c.cats.length : ℤ) - 1)) ≤ c.cats.length := by
          unfold boundsSize
          rw [h.val_zero, h.ofInt_eq _ (by rw [abs_of_nonneg (by omega)]; omega)]
          refine max_le (by simp) ?_
          have : |(c.cats.length : ℤ) - 1| ≤ (c.cats.length : ℤ) := by rw [abs_of_nonneg (by omega)]; omega
          exact_mod_cast this
        have hu := h.u_nonneg
        refine lt_of_le_of_lt (g.trans ?_) hfine
        exact mul_le_mul_of_nonneg_left (by linarith) hu)
    simp only [he, ok_bind]
    refine ⟨[.num t], ?_, ?_, by simp [Dim.transformedSize, hk]⟩
    · simp only [Transformer.transform, pipelineTransform, henc e he, ok_bind, stage_normalize_transform e1]
      rfl
    · have : pipelineInverse A [.label e, .normalize ⟨A.ofInt 0, A.ofInt ((c.cats.length : ℤ) - 1), true⟩] [.num t] =
          .ok [v] := by
        simp only [pipelineInverse, List.reverse_cons, List.reverse_nil, List.nil_append, List.cons_append,
          pipelineInverseLoop, stage_normalize_inverse e2, ok_bind, hdec e he]
      show (do let vs ← pipelineInverse A _ [.num t]; npArray A vs) = _
      rw [this, ok_bind, hnp]
  · obtain ⟨e, he⟩ : ∃ e, OneHot.fit c.cats = .ok e := ⟨_, OneHot.fit_nodup hnd hne⟩
    have hi : c.cats.idxOf v < c.cats.length := List.idxOf_lt_length_iff.2 hl
    simp only [he, ok_bind]
    refine ⟨_, OneHot.encode hnd hne he hl', ?_, ?_⟩
    · have e1 : mapE (mapE Val.toNum) [(binarize A (List.range c.cats.length) (c.cats.idxOf v)).map Val.num] =
          .ok [binarize A (List.range c.cats.length) (c.cats.idxOf v)] := by
        rw [mapE_eq_ok]
        exact .cons (mapE_toNum_map _) .nil
      have hd : e.inverseTransform A [binarize A (List.range c.cats.length) (c.cats.idxOf v)] = .ok [v] := by
        rw [OneHot.fit_nodup hnd hne] at he
        simp only [Except.ok.injEq] at he
        subst he
        simp only [OneHot.inverseTransform, unbinarize_one h hi, ok_bind]
        rw [mapE_eq_ok]
        refine .cons ?_ .nil
        rw [dictGet_swap _ hi]
        simp
      simp only [Transformer.inverse, e1, ok_bind, hd, hnp]
    · rw [List.length_map, binarize_length]
      simp [Dim.transformedSize, hk, oneHotWidth]
  · exact absurd hk hs
  · obtain ⟨e, he⟩ : ∃ e, LabelEnc.fit A c.cats = .ok e := ⟨_, LabelEnc.fit_valid A hnd hh⟩
    simp only [he, ok_bind]
    refine ⟨[.num (A.ofInt i)], ?_, ?_, by simp [Dim.transformedSize, hk]⟩
    · simp only [Transformer.transform, pipelineTransform, henc e he, ok_bind]
      rfl
    · have : pipelineInverse A [.label e] [.num (A.ofInt i)] = .ok [v] := by
        simp only [pipelineInverse, List.reverse_cons, List.reverse_nil, List.nil_append, pipelineInverseLoop,
          ok_bind, hdec e he]
      show (do let vs ← pipelineInverse A _ [.num (A.ofInt i)]; npArray A vs) = _
      rw [this, ok_bind, hnp]

end Skopt

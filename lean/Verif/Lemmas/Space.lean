import Verif.Spec.Space
import Verif.Lemmas.Basic

/-! Helper lemmas about the dimensions and the space. -/

namespace Skopt

variable {F : Type}

/-! ### Encoders on distinct categories -/

theorem zipIdx_fst {α : Type} (xs : List α) (k : Nat := 0) : (xs.zipIdx k).map Prod.fst = xs := by
  simp

theorem dictOf_zipIdx [DecidableEq F] {cats : List (Val F)} (hnd : cats.Nodup) :
    dictOf cats.zipIdx = cats.zipIdx :=
  dictOf_nodup (by simpa using hnd)

theorem swap_keys_nodup {α : Type} (xs : List α) :
    ((xs.zipIdx.map fun p => (p.2, p.1)).map Prod.fst).Nodup := by
  have : (xs.zipIdx.map fun p => (p.2, p.1)).map Prod.fst = List.range xs.length := by
    simp [List.map_map, Function.comp_def, List.range_eq_range']
  rw [this]
  exact List.nodup_range

theorem dictOf_swap {α : Type} (xs : List α) :
    dictOf (xs.zipIdx.map fun p => (p.2, p.1)) = xs.zipIdx.map fun p => (p.2, p.1) :=
  dictOf_nodup (swap_keys_nodup xs)

theorem dictGet_zipIdx [DecidableEq F] {cats : List (Val F)} (hnd : cats.Nodup) {i : Nat}
    (hi : i < cats.length) : dictGet cats.zipIdx cats[i] = .ok i := by
  refine dictGet_of_mem (by simpa using hnd) ?_
  rw [List.mem_zipIdx_iff_getElem?]
  simp

theorem dictGet_swap {α : Type} (xs : List α) {i : Nat} (hi : i < xs.length) :
    dictGet (xs.zipIdx.map fun p => (p.2, p.1)) i = .ok xs[i] := by
  refine dictGet_of_mem (swap_keys_nodup xs) ?_
  rw [List.mem_map]
  exact ⟨(xs[i], i), by rw [List.mem_zipIdx_iff_getElem?]; simp, rfl⟩

theorem dictGet_swap_inv {α : Type} {xs : List α} {i : Nat} {v : α}
    (h : dictGet (xs.zipIdx.map fun p => (p.2, p.1)) i = .ok v) : xs[i]? = some v := by
  have := dictGet_eq_ok_mem h
  rw [List.mem_map] at this
  obtain ⟨p, hp, hpe⟩ := this
  rw [List.mem_zipIdx_iff_getElem?] at hp
  simp only [Prod.mk.injEq] at hpe
  rw [← hpe.1, ← hpe.2]; exact hp

theorem mapE_dictGet_zipIdx [DecidableEq F] {cats : List (Val F)} (hnd : cats.Nodup) :
    mapE (dictGet cats.zipIdx) cats = .ok (List.range cats.length) := by
  rw [mapE_eq_ok]
  rw [List.forall₂_iff_get]
  refine ⟨by simp, ?_⟩
  intro i h1 h2
  simpa using dictGet_zipIdx hnd h1

/-- The fitted one-hot encoder of distinct categories. -/
theorem OneHot.fit_nodup [DecidableEq F] {cats : List (Val F)} (hnd : cats.Nodup) (hne : cats ≠ []) :
    OneHot.fit cats = .ok
      { mapping := cats.zipIdx, inverse := cats.zipIdx.map fun p => (p.2, p.1),
        classes := List.range cats.length } := by
  have hsort : (List.range cats.length).dedup.insertionSort (· ≤ ·) =
      List.range cats.length := by
    rw [List.Nodup.dedup List.nodup_range]
    apply List.Pairwise.insertionSort_eq
    refine List.Pairwise.imp ?_ (List.pairwise_lt_range (n := cats.length))
    intro a b hab
    exact hab.le
  unfold OneHot.fit
  simp only [dictOf_zipIdx hnd, dictOf_swap, mapE_dictGet_zipIdx hnd, ok_bind]
  rw [if_neg (by simpa using hne), hsort]

/-- Every decoded value is one of the categories the encoder was fitted on. -/
theorem OneHot.inverse_mem [LinearOrder F] {A : Arith F} {cats : List (Val F)} {e : OneHot F}
    (hfit : OneHot.fit cats = .ok e) {rows : List (List F)} {vs : List (Val F)}
    (h : e.inverseTransform A rows = .ok vs) : ∀ v ∈ vs, v ∈ cats := by
  unfold OneHot.fit at hfit
  rw [bind_eq_ok] at hfit
  obtain ⟨labels, _, hfit⟩ := hfit
  split at hfit
  · simp at hfit
  · simp only [Except.ok.injEq] at hfit
    subst hfit
    unfold OneHot.inverseTransform at h
    rw [bind_eq_ok] at h
    obtain ⟨ks, _, h⟩ := h
    intro v hv
    obtain ⟨k, _, hk⟩ := mapE_mem h hv
    have h1 := dictOf_mem (dictGet_eq_ok_mem hk)
    rw [List.mem_map] at h1
    obtain ⟨p, hp, hpe⟩ := h1
    have h2 := dictOf_mem hp
    simp only [Prod.mk.injEq] at hpe
    rw [← hpe.2]
    exact (List.mem_zipIdx_iff_getElem?.1 h2) |> List.mem_of_getElem?

theorem mem_npUnique [LinearOrder F] {xs : List (Val F)} {v : Val F} :
    v ∈ npUnique xs ↔ v ∈ xs := by
  simp [npUnique]

theorem npUnique_nodup [LinearOrder F] (xs : List (Val F)) : (npUnique xs).Nodup :=
  (List.Perm.nodup_iff (List.perm_insertionSort _ _)).2 (List.nodup_dedup xs)

/-- The list of categories in label order. -/
def labelKeys [LinearOrder F] (cats : List (Val F)) : List (Val F) :=
  if isObjectDtype cats then cats else npUnique cats

theorem labelKeys_nodup [LinearOrder F] {cats : List (Val F)} (h : cats.Nodup) :
    (labelKeys cats).Nodup := by
  unfold labelKeys; split
  · exact h
  · exact npUnique_nodup cats

theorem mem_labelKeys [LinearOrder F] {cats : List (Val F)} {v : Val F} :
    v ∈ labelKeys cats ↔ v ∈ cats := by
  unfold labelKeys; split
  · rfl
  · exact mem_npUnique

theorem labelKeys_length [LinearOrder F] {cats : List (Val F)} (h : cats.Nodup) :
    (labelKeys cats).length = cats.length := by
  unfold labelKeys; split
  · rfl
  · simp [npUnique, h.dedup]

theorem Homogeneous.subset {cats xs : List (Val F)} (h : Homogeneous cats)
    (hs : ∀ v ∈ xs, v ∈ cats) : Homogeneous xs :=
  ⟨fun v hv => h.1 v (hs v hv), h.2.imp (fun g v hv => g v (hs v hv)) (fun g v hv => g v (hs v hv))⟩

theorem Homogeneous.npArray {A : Arith F} {xs : List (Val F)} (h : Homogeneous xs) :
    npArray A xs = .ok xs := npArray_homog A h.1 h.2

/-- The fitted label encoder of distinct homogeneous categories. -/
theorem LabelEnc.fit_valid [LinearOrder F] (A : Arith F) {cats : List (Val F)} (hnd : cats.Nodup)
    (hh : Homogeneous cats) :
    LabelEnc.fit A cats = .ok
      { mapping := (labelKeys cats).zipIdx,
        inverse := (labelKeys cats).zipIdx.map fun p => (p.2, p.1) } := by
  unfold LabelEnc.fit
  rw [hh.npArray]
  simp only [ok_bind]
  have e : (if isObjectDtype cats = true then cats else npUnique cats) = labelKeys cats := rfl
  rw [e, dictOf_zipIdx (labelKeys_nodup hnd), dictOf_swap]

theorem LabelEnc.inverse_mem [LinearOrder F] {A : Arith F} {cats : List (Val F)} {e : LabelEnc F}
    (hnd : cats.Nodup) (hh : Homogeneous cats) (hfit : LabelEnc.fit A cats = .ok e)
    {xs : List F} {vs : List (Val F)}
    (h : e.inverseTransform A xs = .ok vs) : ∀ v ∈ vs, v ∈ cats := by
  rw [LabelEnc.fit_valid A hnd hh] at hfit
  simp only [Except.ok.injEq] at hfit
  subst hfit
  intro v hv
  obtain ⟨k, _, hk⟩ := mapE_mem h hv
  split at hk
  · simp at hk
  · exact mem_labelKeys.1 (List.mem_of_getElem? (dictGet_swap_inv hk))

/-! ### Lengths -/

theorem Normalize.transform_length [LinearOrder F] {A : Arith F} {n : Normalize F} {xs ys : List F}
    (h : n.transform A xs = .ok ys) : ys.length = xs.length := by
  unfold Normalize.transform at h
  simp only at h
  repeat' split at h
  all_goals first
    | (simp at h; done)
    | (simp only [Except.ok.injEq] at h; subst h; simp)

theorem Normalize.inverse_length [LinearOrder F] {A : Arith F} {n : Normalize F} {xs ys : List F}
    (h : n.inverse A xs = .ok ys) : ys.length = xs.length := by
  unfold Normalize.inverse at h
  simp only at h
  repeat' split at h
  all_goals first
    | (simp at h; done)
    | (simp only [Except.ok.injEq] at h; subst h; simp)

theorem Stage.inverse_length [LinearOrder F] {A : Arith F} {s : Stage F} {X Y : List (Val F)}
    (h : s.inverse A X = .ok Y) : Y.length = X.length := by
  cases s with
  | identity => simp only [Stage.inverse, Except.ok.injEq] at h; rw [← h]
  | string str cast => exact mapE_length h
  | logN b =>
    simp only [Stage.inverse, bind_eq_ok, Except.ok.injEq] at h
    obtain ⟨xs, h1, rfl⟩ := h
    simp [mapE_length h1]
  | label e =>
    simp only [Stage.inverse, bind_eq_ok] at h
    obtain ⟨xs, h1, h2⟩ := h
    rw [mapE_length h2, mapE_length h1]
  | normalize n =>
    simp only [Stage.inverse, bind_eq_ok, Except.ok.injEq] at h
    obtain ⟨xs, h1, ys, h2, rfl⟩ := h
    rw [List.length_map, Normalize.inverse_length h2, mapE_length h1]

theorem pipelineInverseLoop_length [LinearOrder F] {A : Arith F} : ∀ {ss : List (Stage F)}
    {X Y : List (Val F)}, pipelineInverseLoop A ss X = .ok Y → Y.length = X.length
  | [], X, Y, h => by simp only [pipelineInverseLoop, Except.ok.injEq] at h; rw [h]
  | s :: ss, X, Y, h => by
      simp only [pipelineInverseLoop, bind_eq_ok] at h
      obtain ⟨Z, h1, h2⟩ := h
      rw [pipelineInverseLoop_length h2, Stage.inverse_length h1]

theorem Transformer.pipeline_inverse_length [LinearOrder F] {A : Arith F} {ss : List (Stage F)}
    {rows : List (List (Val F))} {vs : List (Val F)}
    (h : (Transformer.pipeline ss).inverse A rows = .ok vs) : vs.length = rows.length := by
  simp only [Transformer.inverse, bind_eq_ok] at h
  obtain ⟨col, h1, h2⟩ := h
  rw [pipelineInverseLoop_length h2, mapE_length h1]

theorem unbinarize_length [LinearOrder F] {A : Arith F} {classes : List Nat}
    {rows : List (List F)} {ks : List Nat} (h : unbinarize A classes rows = .ok ks)
    (hw : classes.length = 2 → ∀ r ∈ rows, r.length = 1) : ks.length = rows.length := by
  unfold unbinarize at h
  split at h
  · simp at h
  · simp only [Except.ok.injEq] at h; subst h; simp
  · split at h
    · exact mapE_length h
    · simp only [Except.ok.injEq] at h; subst h
      have := hw (by simp)
      clear hw
      simp only [List.length_map, List.length_flatten]
      rename_i hneg
      clear hneg
      induction rows with
      | nil => rfl
      | cons r rows ih =>
        simp only [List.map_cons, List.sum_cons, List.length_cons]
        rw [ih (fun x hx => this x (by simp [hx])), this r (by simp)]
        omega
  · exact mapE_length h

theorem mapE_mapE_toNum_lengths {rows : List (List (Val F))} {rs : List (List F)}
    (h : mapE (mapE Val.toNum) rows = .ok rs) :
    rows = rs.map (fun r => r.map Val.num) := by
  rw [mapE_eq_ok] at h
  induction h with
  | nil => rfl
  | cons h1 _ ih => rw [mapE_toNum_eq_ok.1 h1, ih]; rfl

/-- Each dimension decodes a block of rows to as many values (for valid dimensions and blocks of
the right width when the width is one). -/
theorem Dim.inverse_length [LinearOrder F] {A : Arith F} {d : Dim F} (hd : ValidDim A d)
    {rows : List (List (Val F))} {vs : List (Val F)} (h : d.inverse A rows = .ok vs)
    (hw : d.transformedSize = 1 → ∀ r ∈ rows, r.length = 1) : vs.length = rows.length := by
  cases d with
  | real r =>
    simp only [Dim.inverse, RealDim.inverse, bind_eq_ok, Except.ok.injEq] at h
    obtain ⟨ws, h1, xs, h2, rfl⟩ := h
    have hp : ∃ ss, r.transformer A = .pipeline ss := by
      unfold RealDim.transformer; simp only; split <;> exact ⟨_, rfl⟩
    obtain ⟨ss, hs⟩ := hp
    rw [hs] at h1
    rw [List.length_map, mapE_length h2, Transformer.pipeline_inverse_length h1]
  | int r =>
    simp only [Dim.inverse, IntDim.inverse, bind_eq_ok, Except.ok.injEq] at h
    obtain ⟨ws, h1, xs, h2, rfl⟩ := h
    have hp : ∃ ss, r.transformer A = .pipeline ss := by
      unfold IntDim.transformer; simp only; split <;> exact ⟨_, rfl⟩
    obtain ⟨ss, hs⟩ := hp
    rw [hs] at h1
    rw [List.length_map, mapE_length h2, Transformer.pipeline_inverse_length h1]
  | cat c =>
    simp only [Dim.inverse, CatDim.inverse, bind_eq_ok] at h
    obtain ⟨t, ht, ws, hws, h⟩ := h
    have hlen : vs.length = ws.length := by
      have hnp : npArray A ws = .ok vs → vs.length = ws.length := by
        intro h
        unfold npArray at h
        split at h
        · simp at h
        · simp only [Except.ok.injEq] at h; subst h; simp
      cases hk : c.transform <;> simp only [hk] at h
      · simp only [Except.ok.injEq] at h; rw [h]
      all_goals exact hnp h
    rw [hlen]
    cases hk : c.transform <;> simp only [CatDim.transformer, hk] at ht
    · simp only [Except.ok.injEq] at ht; subst ht
      exact Transformer.pipeline_inverse_length hws
    · rw [bind_eq_ok] at ht
      obtain ⟨e, _, ht⟩ := ht
      simp only [Except.ok.injEq] at ht; subst ht
      exact Transformer.pipeline_inverse_length hws
    · obtain ⟨hne, hnd, _⟩ := hd
      rw [OneHot.fit_nodup hnd hne] at ht
      simp only [ok_bind, Except.ok.injEq] at ht; subst ht
      simp only [Transformer.inverse, bind_eq_ok] at hws
      obtain ⟨rs, hrs, hws⟩ := hws
      simp only [OneHot.inverseTransform, bind_eq_ok] at hws
      obtain ⟨ks, hks, hws⟩ := hws
      rw [mapE_length hws]
      have hrows := mapE_mapE_toNum_lengths hrs
      have : ks.length = rs.length := by
        refine unbinarize_length hks ?_
        intro h2 r hr
        simp only [List.length_range] at h2
        have := hw (by simp [Dim.transformedSize, hk, h2])
        have := this (r.map Val.num) (by rw [hrows]; exact List.mem_map.2 ⟨r, hr, rfl⟩)
        simpa using this
      rw [this, hrows, List.length_map]
    · simp only [Except.ok.injEq] at ht; subst ht
      exact Transformer.pipeline_inverse_length hws
    · rw [bind_eq_ok] at ht
      obtain ⟨e, _, ht⟩ := ht
      simp only [Except.ok.injEq] at ht; subst ht
      exact Transformer.pipeline_inverse_length hws

/-! ### Decoded values are legal -/

/-- Every value decoded by a valid dimension is legal, for every arithmetic. -/
theorem Dim.inverse_legal [LinearOrder F] {A : Arith F} (hA : OrderlyRounding A) {d : Dim F}
    (hd : ValidDim A d) (hdec : Decoding d) {rows : List (List (Val F))} {vs : List (Val F)}
    (h : d.inverse A rows = .ok vs) : ∀ v ∈ vs, Legal A d v := by
  cases d with
  | real r =>
    simp only [Dim.inverse, RealDim.inverse, bind_eq_ok, Except.ok.injEq] at h
    obtain ⟨ws, h1, xs, h2, rfl⟩ := h
    intro v hv
    obtain ⟨x, _, rfl⟩ := List.mem_map.1 hv
    obtain ⟨hlt, _, hcast⟩ := hd
    have hc := npClip_mem hlt.le x
    exact ⟨_, rfl, hcast _ hc.1 hc.2⟩
  | int r =>
    simp only [Dim.inverse, IntDim.inverse, bind_eq_ok, Except.ok.injEq] at h
    obtain ⟨ws, h1, xs, h2, rfl⟩ := h
    intro v hv
    obtain ⟨x, _, rfl⟩ := List.mem_map.1 hv
    obtain ⟨l, u, hlu, hl, hu, hrl, hru, _, hwrap⟩ := hd
    have hle : r.low ≤ r.high := by rw [hl, hu]; exact hA.ofInt_mono hlu.le
    have hc := npClip_mem hle x
    have h1 : l ≤ A.round (npClip r.low r.high x) := by
      rw [← hrl]; exact hA.round_mono hc.1
    have h2 : A.round (npClip r.low r.high x) ≤ u := by
      rw [← hru]; exact hA.round_mono hc.2
    rw [hwrap _ h1 h2]
    refine ⟨_, rfl, ?_, ?_⟩
    · exact hl.le.trans (hA.ofInt_mono h1)
    · exact (hA.ofInt_mono h2).trans hu.ge
  | cat c =>
    obtain ⟨hne, hnd, hh⟩ := hd
    simp only [Dim.inverse, CatDim.inverse, bind_eq_ok] at h
    obtain ⟨t, ht, ws, hws, h⟩ := h
    have key : ∀ v ∈ ws, v ∈ c.cats := by
      rcases hdec with hk | hk | hk
      · simp only [CatDim.transformer, hk, bind_eq_ok] at ht
        obtain ⟨e, he, ht⟩ := ht
        simp only [Except.ok.injEq] at ht; subst ht
        simp only [Transformer.inverse, bind_eq_ok] at hws
        obtain ⟨rs, _, hws⟩ := hws
        exact OneHot.inverse_mem he hws
      · simp only [CatDim.transformer, hk, bind_eq_ok] at ht
        obtain ⟨e, he, ht⟩ := ht
        simp only [Except.ok.injEq] at ht; subst ht
        simp only [Transformer.inverse, bind_eq_ok, pipelineInverse, List.reverse_cons,
          List.reverse_nil, List.nil_append, pipelineInverseLoop, Stage.inverse,
          Except.ok.injEq] at hws
        obtain ⟨col, _, Y, ⟨xs, _, hY⟩, rfl⟩ := hws
        exact LabelEnc.inverse_mem hnd hh he hY
      · simp only [CatDim.transformer, hk, bind_eq_ok] at ht
        obtain ⟨e, he, ht⟩ := ht
        simp only [Except.ok.injEq] at ht; subst ht
        simp only [Transformer.inverse, bind_eq_ok, pipelineInverse, List.reverse_cons,
          List.reverse_nil, List.nil_append, List.cons_append, pipelineInverseLoop, Stage.inverse,
          Except.ok.injEq] at hws
        obtain ⟨col, _, Y, _, Z, ⟨xs, _, hZ⟩, rfl⟩ := hws
        exact LabelEnc.inverse_mem hnd hh he hZ
    have hvs : vs = ws := by
      have hnp := (hh.subset key).npArray (A := A)
      cases hk : c.transform <;> simp only [hk] at h
      · simp only [Except.ok.injEq] at h; exact h.symm
      all_goals
        rw [hnp] at h
        simp only [Except.ok.injEq] at h; exact h.symm
    subst hvs
    exact key

/-! ### Transposition -/

theorem transpose_mem {α : Type} {cols rows : List (List α)} (h : transposeListArray cols = .ok rows) :
    ∀ r ∈ rows, List.Forall₂ (fun col v => v ∈ col) cols r := by
  cases cols with
  | nil => simp [transposeListArray] at h
  | cons c cs =>
    intro r hr
    obtain ⟨i, _, hi⟩ := mapE_mem h hr
    rw [mapE_eq_ok] at hi
    exact hi.imp fun _ _ h => pyGet_mem h

theorem transpose_length {α : Type} {c : List α} {cs rows : List (List α)}
    (h : transposeListArray (c :: cs) = .ok rows) : rows.length = c.length := by
  have := mapE_length h
  simpa using this

/-- Rectangular column lists transpose without error. -/
theorem transpose_ok {α : Type} {cols : List (List α)} {n : Nat} (hne : cols ≠ [])
    (hn : ∀ c ∈ cols, c.length = n) : ∃ rows, transposeListArray cols = .ok rows ∧
      rows.length = n := by
  cases cols with
  | nil => exact absurd rfl hne
  | cons c cs =>
    have hc : c.length = n := hn c (by simp)
    have : ∃ rows, transposeListArray (c :: cs) = .ok rows := by
      by_contra hcon
      push Not at hcon
      cases hm : transposeListArray (c :: cs) with
      | ok rows => exact hcon rows hm
      | error e =>
        obtain ⟨i, hi, e', he'⟩ := mapE_error_iff.1 ⟨e, hm⟩
        obtain ⟨col, hcol, e'', he''⟩ := mapE_error_iff.1 ⟨e', he'⟩
        rw [List.mem_range] at hi
        rw [pyGet_lt (by rw [hn col hcol, ← hc]; exact hi)] at he''
        simp at he''
    obtain ⟨rows, hrows⟩ := this
    exact ⟨rows, hrows, by rw [transpose_length hrows, hc]⟩

theorem block_length {start offset : Nat} {Xt b : List (List (Val F))}
    (h : Space.block start offset Xt = .ok b) : b.length = Xt.length := by
  unfold Space.block at h
  split at h
  · exact mapE_length h
  · simp only [Except.ok.injEq] at h; subst h; simp

theorem block_width_one {start : Nat} {Xt b : List (List (Val F))}
    (h : Space.block start 1 Xt = .ok b) : ∀ r ∈ b, r.length = 1 := by
  unfold Space.block at h
  rw [if_pos rfl] at h
  intro r hr
  obtain ⟨x, _, hx⟩ := mapE_mem h hr
  rw [bind_eq_ok] at hx
  obtain ⟨v, _, hv⟩ := hx
  simp only [Except.ok.injEq] at hv
  subst hv; rfl

theorem inverseCols_spec [LinearOrder F] {A : Arith F} (hA : OrderlyRounding A) :
    ∀ {dims : List (Dim F)} {start : Nat} {Xt cols : List (List (Val F))},
    (∀ d ∈ dims, ValidDim A d) → (∀ d ∈ dims, Decoding d) →
    Space.inverseCols A dims start Xt = .ok cols →
    List.Forall₂ (fun d col => col.length = Xt.length ∧ ∀ v ∈ col, Legal A d v) dims cols
  | [], start, Xt, cols, _, _, h => by
      simp only [Space.inverseCols, Except.ok.injEq] at h; subst h; exact .nil
  | d :: ds, start, Xt, cols, hv, hdec, h => by
      simp only [Space.inverseCols, bind_eq_ok, Except.ok.injEq] at h
      obtain ⟨b, hb, c, hc, cs, hcs, rfl⟩ := h
      refine .cons ⟨?_, ?_⟩ ?_
      · rw [← block_length hb]
        refine Dim.inverse_length (hv d (by simp)) hc ?_
        intro h1
        rw [h1] at hb
        exact block_width_one hb
      · exact Dim.inverse_legal hA (hv d (by simp)) (hdec d (by simp)) hc
      · exact inverseCols_spec hA (fun x hx => hv x (by simp [hx])) (fun x hx => hdec x (by simp [hx])) hcs

theorem inSpace_of_cols [LinearOrder F] {A : Arith F} {n : Nat} {dims : List (Dim F)}
    {cols : List (List (Val F))}
    (h : List.Forall₂ (fun d col => col.length = n ∧ ∀ v ∈ col, Legal A d v) dims cols)
    {p : Point F} (hp : List.Forall₂ (fun col v => v ∈ col) cols p) : InSpace A dims p := by
  unfold InSpace
  induction h generalizing p with
  | nil => cases hp; exact .nil
  | cons h1 _ ih =>
    cases hp with
    | cons hm1 hm2 => exact .cons (h1.2 _ hm1) (ih hm2)

end Skopt

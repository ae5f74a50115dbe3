import Verif.Lemmas.RoundTrip

/-! Lengths, widths and types of transformed blocks, for every arithmetic. -/

namespace Skopt

variable {F : Type}

theorem Stage.transform_length [LinearOrder F] {A : Arith F} {s : Stage F} {X Y : List (Val F)}
    (h : s.transform A X = .ok Y) : Y.length = X.length := by
  cases s with
  | identity => simp only [Stage.transform, Except.ok.injEq] at h; rw [← h]
  | string str cast => simp only [Stage.transform, Except.ok.injEq] at h; subst h; simp
  | logN b =>
    simp only [Stage.transform, bind_eq_ok, Except.ok.injEq] at h
    obtain ⟨xs, h1, rfl⟩ := h
    simp [mapE_length h1]
  | label e =>
    simp only [Stage.transform, LabelEnc.transform, bind_eq_ok] at h
    obtain ⟨xs, h1, h2⟩ := h
    rw [mapE_length h2]
    unfold npArray at h1
    split at h1
    · simp at h1
    · simp only [Except.ok.injEq] at h1; subst h1; simp
  | normalize n =>
    simp only [Stage.transform, bind_eq_ok, Except.ok.injEq] at h
    obtain ⟨xs, h1, ys, h2, rfl⟩ := h
    rw [List.length_map, Normalize.transform_length h2, mapE_length h1]

theorem pipelineTransform_length [LinearOrder F] {A : Arith F} : ∀ {ss : List (Stage F)}
    {X Y : List (Val F)}, pipelineTransform A ss X = .ok Y → Y.length = X.length
  | [], X, Y, h => by simp only [pipelineTransform, Except.ok.injEq] at h; rw [h]
  | s :: ss, X, Y, h => by
      simp only [pipelineTransform, bind_eq_ok] at h
      obtain ⟨Z, h1, h2⟩ := h
      rw [pipelineTransform_length h2, Stage.transform_length h1]

theorem pipeline_transform_shape [LinearOrder F] {A : Arith F} {ss : List (Stage F)}
    {X : List (Val F)} {b : List (List (Val F))}
    (h : (Transformer.pipeline ss).transform A X = .ok b) :
    b.length = X.length ∧ ∀ r ∈ b, r.length = 1 := by
  simp only [Transformer.transform, bind_eq_ok, Except.ok.injEq] at h
  obtain ⟨Y, h1, rfl⟩ := h
  refine ⟨by simp [pipelineTransform_length h1], ?_⟩
  intro r hr
  obtain ⟨v, _, rfl⟩ := List.mem_map.1 hr
  rfl

/-- A valid dimension produces one row per value, of width `transformed_size`. -/
theorem Dim.transform_shape [LinearOrder F] {A : Arith F} {d : Dim F} (hd : ValidDim A d)
    {col : List (Val F)} {b : List (List (Val F))} (h : d.transform A col = .ok b) :
    b.length = col.length ∧ ∀ r ∈ b, r.length = d.transformedSize := by
  simp only [Dim.transform, bind_eq_ok] at h
  obtain ⟨t, ht, h⟩ := h
  cases d with
  | real r =>
    simp only [Dim.transformer, Except.ok.injEq] at ht
    have hp : ∃ ss, r.transformer A = .pipeline ss := by
      unfold RealDim.transformer; simp only; split <;> exact ⟨_, rfl⟩
    obtain ⟨ss, hs⟩ := hp
    rw [← ht, hs] at h
    exact pipeline_transform_shape h
  | int r =>
    simp only [Dim.transformer, Except.ok.injEq] at ht
    have hp : ∃ ss, r.transformer A = .pipeline ss := by
      unfold IntDim.transformer; simp only; split <;> exact ⟨_, rfl⟩
    obtain ⟨ss, hs⟩ := hp
    rw [← ht, hs] at h
    exact pipeline_transform_shape h
  | cat c =>
    obtain ⟨hne, hnd, hh⟩ := hd
    simp only [Dim.transformer] at ht
    cases hk : c.transform <;> simp only [CatDim.transformer, hk] at ht
    · simp only [Except.ok.injEq] at ht; subst ht
      simpa [Dim.transformedSize, hk] using pipeline_transform_shape h
    · rw [bind_eq_ok] at ht
      obtain ⟨e, _, ht⟩ := ht
      simp only [Except.ok.injEq] at ht; subst ht
      simpa [Dim.transformedSize, hk] using pipeline_transform_shape h
    · rw [OneHot.fit_nodup hnd hne] at ht
      simp only [ok_bind, Except.ok.injEq] at ht; subst ht
      simp only [Transformer.transform, OneHot.transform] at h
      refine ⟨mapE_length h, ?_⟩
      intro r hr
      obtain ⟨v, _, hv⟩ := mapE_mem h hr
      rw [bind_eq_ok] at hv
      obtain ⟨i, _, hi⟩ := hv
      simp only [Except.ok.injEq] at hi
      rw [← hi, List.length_map, binarize_length]
      simp [Dim.transformedSize, hk, oneHotWidth]
    · simp only [Except.ok.injEq] at ht; subst ht
      simpa [Dim.transformedSize, hk] using pipeline_transform_shape h
    · rw [bind_eq_ok] at ht
      obtain ⟨e, _, ht⟩ := ht
      simp only [Except.ok.injEq] at ht; subst ht
      simpa [Dim.transformedSize, hk] using pipeline_transform_shape h

/-! ### Types of the entries -/

/-- The stage produces numbers from values that are not strings. -/
theorem Stage.transform_noStr [LinearOrder F] {A : Arith F} {s : Stage F} {X Y : List (Val F)}
    (h : s.transform A X = .ok Y) (hs : ∀ f g, s ≠ .string f g)
    (hX : s = .identity → ∀ v ∈ X, v.isStr = false) : ∀ v ∈ Y, v.isStr = false := by
  cases s with
  | identity =>
    simp only [Stage.transform, Except.ok.injEq] at h; rw [← h]; exact hX rfl
  | string str cast => exact absurd rfl (hs str cast)
  | logN b =>
    simp only [Stage.transform, bind_eq_ok, Except.ok.injEq] at h
    obtain ⟨xs, h1, rfl⟩ := h
    intro v hv
    obtain ⟨x, _, rfl⟩ := List.mem_map.1 hv
    rfl
  | label e =>
    simp only [Stage.transform, LabelEnc.transform, bind_eq_ok] at h
    obtain ⟨xs, h1, h2⟩ := h
    intro v hv
    obtain ⟨x, _, hx⟩ := mapE_mem h2 hv
    rw [bind_eq_ok] at hx
    obtain ⟨i, _, hi⟩ := hx
    simp only [Except.ok.injEq] at hi
    rw [← hi]; rfl
  | normalize n =>
    simp only [Stage.transform, bind_eq_ok, Except.ok.injEq] at h
    obtain ⟨xs, h1, ys, h2, rfl⟩ := h
    intro v hv
    obtain ⟨x, _, rfl⟩ := List.mem_map.1 hv
    rfl

theorem pipelineTransform_noStr [LinearOrder F] {A : Arith F} : ∀ {ss : List (Stage F)}
    {X Y : List (Val F)}, pipelineTransform A ss X = .ok Y →
    (∀ s ∈ ss, ∀ f g, s ≠ .string f g) → ((∀ v ∈ X, v.isStr = false) ∨
      ∃ e ss', ss = .label e :: ss') →
    ∀ v ∈ Y, v.isStr = false
  | [], X, Y, h, _, hX => by
      simp only [pipelineTransform, Except.ok.injEq] at h
      rcases hX with hX | ⟨e, ss', he⟩
      · rw [← h]; exact hX
      · simp at he
  | s :: ss, X, Y, h, hs, hX => by
      simp only [pipelineTransform, bind_eq_ok] at h
      obtain ⟨Z, h1, h2⟩ := h
      refine pipelineTransform_noStr h2 (fun t ht => hs t (by simp [ht])) (Or.inl ?_)
      refine Stage.transform_noStr h1 (hs s (by simp)) ?_
      intro hid
      rcases hX with hX | ⟨e, ss', he⟩
      · exact hX
      · rw [hid] at he; simp at he

theorem pipeline_block_noStr [LinearOrder F] {A : Arith F} {ss : List (Stage F)}
    {X : List (Val F)} {b : List (List (Val F))}
    (h : (Transformer.pipeline ss).transform A X = .ok b)
    (hs : ∀ s ∈ ss, ∀ f g, s ≠ .string f g)
    (hX : (∀ v ∈ X, v.isStr = false) ∨ ∃ e ss', ss = .label e :: ss') :
    ∀ r ∈ b, ∀ v ∈ r, v.isStr = false := by
  simp only [Transformer.transform, bind_eq_ok, Except.ok.injEq] at h
  obtain ⟨Y, h1, rfl⟩ := h
  intro r hr v hv
  obtain ⟨w, hw, rfl⟩ := List.mem_map.1 hr
  rw [List.mem_singleton] at hv
  subst hv
  exact pipelineTransform_noStr h1 hs hX v hw

theorem Dim.transform_noStr [LinearOrder F] {A : Arith F} {d : Dim F} (hy : YieldsNoStr d)
    {col : List (Val F)} (hcol : ∀ v ∈ col, Legal A d v) {b : List (List (Val F))}
    (h : d.transform A col = .ok b) : ∀ r ∈ b, ∀ v ∈ r, v.isStr = false := by
  simp only [Dim.transform, bind_eq_ok] at h
  obtain ⟨t, ht, h⟩ := h
  cases d with
  | real r =>
    simp only [Dim.transformer, Except.ok.injEq] at ht
    have hp : ∃ ss, r.transformer A = .pipeline ss ∧ ∀ s ∈ ss, ∀ f g, s ≠ .string f g := by
      unfold RealDim.transformer; simp only; split <;> exact ⟨_, rfl, by simp⟩
    obtain ⟨ss, hs, hss⟩ := hp
    rw [← ht, hs] at h
    refine pipeline_block_noStr h hss (Or.inl fun v hv => ?_)
    obtain ⟨x, rfl, _⟩ := hcol v hv
    rfl
  | int r =>
    simp only [Dim.transformer, Except.ok.injEq] at ht
    have hp : ∃ ss, r.transformer A = .pipeline ss ∧ ∀ s ∈ ss, ∀ f g, s ≠ .string f g := by
      unfold IntDim.transformer; simp only; split <;> exact ⟨_, rfl, by simp⟩
    obtain ⟨ss, hs, hss⟩ := hp
    rw [← ht, hs] at h
    refine pipeline_block_noStr h hss (Or.inl fun v hv => ?_)
    obtain ⟨x, rfl, _⟩ := hcol v hv
    rfl
  | cat c =>
    obtain ⟨hy1, hy2⟩ := hy
    simp only [Dim.transformer] at ht
    cases hk : c.transform <;> simp only [CatDim.transformer, hk] at ht
    · simp only [Except.ok.injEq] at ht; subst ht
      exact pipeline_block_noStr h (by simp) (Or.inl fun v hv => hy2 hk v (hcol v hv))
    · rw [bind_eq_ok] at ht
      obtain ⟨e, _, ht⟩ := ht
      simp only [Except.ok.injEq] at ht; subst ht
      exact pipeline_block_noStr h (by simp) (Or.inr ⟨_, _, rfl⟩)
    · rw [bind_eq_ok] at ht
      obtain ⟨e, _, ht⟩ := ht
      simp only [Except.ok.injEq] at ht; subst ht
      simp only [Transformer.transform, OneHot.transform] at h
      intro r hr w hw
      obtain ⟨v, _, hv⟩ := mapE_mem h hr
      rw [bind_eq_ok] at hv
      obtain ⟨i, _, hi⟩ := hv
      simp only [Except.ok.injEq] at hi
      rw [← hi] at hw
      obtain ⟨x, _, rfl⟩ := List.mem_map.1 hw
      rfl
    · exact absurd hk hy1
    · rw [bind_eq_ok] at ht
      obtain ⟨e, _, ht⟩ := ht
      simp only [Except.ok.injEq] at ht; subst ht
      exact pipeline_block_noStr h (by simp) (Or.inr ⟨_, _, rfl⟩)

theorem Dim.transform_noNum [LinearOrder F] {A : Arith F} {d : Dim F} (hy : YieldsNoNum d)
    {col : List (Val F)} (hcol : ∀ v ∈ col, Legal A d v) {b : List (List (Val F))}
    (h : d.transform A col = .ok b) : ∀ r ∈ b, ∀ v ∈ r, v.isNum = false := by
  simp only [Dim.transform, bind_eq_ok] at h
  obtain ⟨t, ht, h⟩ := h
  cases d with
  | real r => exact absurd hy id
  | int r => exact absurd hy id
  | cat c =>
    simp only [Dim.transformer] at ht
    rcases hy with hk | ⟨hk, hn⟩
    · simp only [CatDim.transformer, hk, Except.ok.injEq] at ht; subst ht
      simp only [Transformer.transform, pipelineTransform, Stage.transform, ok_bind,
        Except.ok.injEq] at h
      subst h
      intro r hr v hv
      obtain ⟨w, hw, rfl⟩ := List.mem_map.1 hr
      rw [List.mem_singleton] at hv
      subst hv
      obtain ⟨w, _, rfl⟩ := List.mem_map.1 hw
      rfl
    · simp only [CatDim.transformer, hk, Except.ok.injEq] at ht; subst ht
      simp only [Transformer.transform, pipelineTransform, Stage.transform, ok_bind,
        Except.ok.injEq] at h
      subst h
      intro r hr v hv
      obtain ⟨w, hw, rfl⟩ := List.mem_map.1 hr
      rw [List.mem_singleton] at hv
      subst hv
      exact hn _ (hcol _ hw)

/-! ### hstack -/

/-- Every entry of the glued matrix is an entry of a block. -/
theorem mem_foldr_glue {α : Type} {n : Nat} {blocks : List (List (List α))} {r : List α} {v : α}
    (hr : r ∈ blocks.foldr Space.glue (List.replicate n [])) (hv : v ∈ r) :
    ∃ b ∈ blocks, ∃ r' ∈ b, v ∈ r' := by
  induction blocks generalizing r with
  | nil =>
    simp only [List.foldr_nil, List.mem_replicate] at hr
    rw [hr.2] at hv; simp at hv
  | cons b bs ih =>
    rw [List.foldr_cons] at hr
    unfold Space.glue at hr
    obtain ⟨i, hi, rfl⟩ := List.mem_iff_getElem.1 hr
    rw [List.getElem_zipWith] at hv
    rcases List.mem_append.1 hv with hv | hv
    · exact ⟨b, by simp, _, List.getElem_mem _, hv⟩
    · obtain ⟨b', hb', h⟩ := ih (List.getElem_mem _) hv
      exact ⟨b', by simp [hb'], h⟩

theorem asBlock_homog {A : Arith F} {b : List (List (Val F))}
    (h : (∀ r ∈ b, ∀ v ∈ r, v.isStr = false) ∨ (∀ r ∈ b, ∀ v ∈ r, v.isNum = false)) :
    Space.asBlock A b = b := by
  unfold Space.asBlock
  conv_rhs => rw [← List.map_id b]
  refine List.map_congr_left fun r hr => ?_
  conv_rhs => rw [id, ← List.map_id r]
  refine List.map_congr_left fun v hv => ?_
  refine promote_eq_self A (List.mem_flatten.2 ⟨r, hr, hv⟩) ?_
  refine h.imp ?_ ?_
  all_goals
    intro h w hw
    obtain ⟨r', hr', hw⟩ := List.mem_flatten.1 hw
    exact h r' hr' w hw

/-- Without strings (or without numbers) `hstack` does not convert anything. -/
theorem hstack_homog {A : Arith F} {n : Nat} {blocks : List (List (List (Val F)))}
    (h : (∀ b ∈ blocks, ∀ r ∈ b, ∀ v ∈ r, v.isStr = false) ∨
      (∀ b ∈ blocks, ∀ r ∈ b, ∀ v ∈ r, v.isNum = false)) :
    Space.hstack A n blocks = blocks.foldr Space.glue (List.replicate n []) := by
  unfold Space.hstack
  have hb : blocks.map (Space.asBlock A) = blocks := by
    conv_rhs => rw [← List.map_id blocks]
    exact List.map_congr_left fun b hb => asBlock_homog (h.imp (fun h => h b hb) fun h => h b hb)
  simp only [hb]
  set rows := blocks.foldr Space.glue (List.replicate n []) with hrows
  conv_rhs => rw [← List.map_id rows]
  refine List.map_congr_left fun r hr => ?_
  conv_rhs => rw [id, ← List.map_id r]
  refine List.map_congr_left fun v hv => ?_
  refine promote_eq_self A (List.mem_flatten.2 ⟨r, hr, hv⟩) ?_
  refine h.imp ?_ ?_
  all_goals
    intro h w hw
    obtain ⟨r', hr', hw⟩ := List.mem_flatten.1 hw
    obtain ⟨b, hb, r'', hr'', hw⟩ := mem_foldr_glue hr' hw
    exact h b hb r'' hr'' w hw

theorem foldr_glue_width {n : Nat} {dims : List (Dim F)} {blocks : List (List (List (Val F)))}
    (h : List.Forall₂ (fun d b => b.length = n ∧ ∀ r ∈ b, r.length = d.transformedSize)
      dims blocks) :
    ∀ r ∈ blocks.foldr Space.glue (List.replicate n []),
      r.length = Space.transformedNDims dims := by
  induction h with
  | nil =>
    intro r hr
    simp only [List.foldr_nil, List.mem_replicate] at hr
    rw [hr.2]; rfl
  | cons h1 _ ih =>
    rw [List.foldr_cons]
    simp only [Space.transformedNDims, List.map_cons, List.sum_cons]
    exact glue_width h1.2 ih

end Skopt

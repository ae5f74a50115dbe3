import Verif.Lemmas.Bounds
import Verif.Props.SpaceMembership

/-!
# C02, C03, C04 – round trip, layout and bounds of the transformed space
-/

namespace Skopt

/-! ## C02 -/

/-- **C02.** In exact arithmetic, for a space of valid invertible dimensions whose transformed
columns do not mix strings with numbers, transforming points of the space succeeds and
`inverse_transform` gives the same points back, for any number of points and any mixture of
dimension kinds, priors and transforms. -/
theorem C02_round_trip_partial (dims : List (Dim ℝ)) (hne : dims ≠ [])
    (hv : ∀ d ∈ dims, ValidDim exact d) (hi : ∀ d ∈ dims, Invertible (0 : ℝ) 1 d)
    (hmix : (∀ d ∈ dims, YieldsNoStr d) ∨ (∀ d ∈ dims, YieldsNoNum d))
    (X : List (Point ℝ)) (hX : X ≠ []) (hin : ∀ p ∈ X, InSpace exact dims p)
    (hrep : ∀ p ∈ X, List.Forall₂ Representable dims p) :
    ∃ M, Space.transform exact dims X = .ok M ∧ Space.inverseTransform exact dims M = .ok X := by
  have hlen : ∀ p ∈ X, p.length = dims.length := fun p hp => (hin p hp).length_eq.symm
  have hn : 0 < dims.length := List.length_pos_iff.2 hne
  have hcols := columns_forall₂ (P := fun d v => Legal exact d v ∧ Representable d v)
    (dims := dims) (X := X) (fun p hp => by
      have h1 := hin p hp
      have h2 := hrep p hp
      unfold InSpace at h1
      rw [List.forall₂_iff_get] at h1 h2 ⊢
      exact ⟨h1.1, fun i a b => ⟨h1.2 i a b, h2.2 i a b⟩⟩)
  have hct := columns_ok hlen
  have htr := transpose_columns hn hlen
  generalize ((List.range dims.length).map fun j => X.map fun p => p.getD j (.obj 0)) = cols
    at hcols hct htr
  -- blocks of all dimensions
  obtain ⟨blocks, hb, hshape, hinv, hty⟩ : ∃ blocks,
      mapE (fun p => Dim.transform exact p.1 p.2) (dims.zip cols) = .ok blocks ∧
      List.Forall₂ (fun d b => b.length = X.length ∧ ∀ r ∈ b, r.length = d.transformedSize)
        dims blocks ∧
      List.Forall₂ (fun (p : Dim ℝ × List (List (Val ℝ))) col => p.1.inverse exact p.2 = .ok col)
        (dims.zip blocks) cols ∧
      ((∀ b ∈ blocks, ∀ r ∈ b, ∀ v ∈ r, v.isStr = false) ∨
        (∀ b ∈ blocks, ∀ r ∈ b, ∀ v ∈ r, v.isNum = false)) := by
    clear hct htr hlen hn hne hin hrep
    induction hcols with
    | nil => exact ⟨[], rfl, .nil, .nil, Or.inl (by simp)⟩
    | @cons d col ds cs h1 h2 ih =>
      obtain ⟨b, g1, g2, g3, g4⟩ := Dim.roundTrip (hv d (by simp)) (hi d (by simp)) h1.2
      obtain ⟨bs, k1, k2, k3, k4⟩ := ih (fun x hx => hv x (by simp [hx]))
        (fun x hx => hi x (by simp [hx]))
        (hmix.imp (fun h x hx => h x (by simp [hx])) (fun h x hx => h x (by simp [hx])))
      refine ⟨b :: bs, ?_, .cons ⟨by rw [g3, h1.1], g4⟩ k2, .cons g2 k3, ?_⟩
      · rw [List.zip_cons_cons, mapE_cons_ok]
        exact ⟨b, bs, g1, k1, rfl⟩
      · have hl : ∀ v ∈ col, Legal exact d v := fun v hv => (h1.2 v hv).1
        have hall : ∀ (f : Dim ℝ → Prop), (∀ x ∈ d :: ds, f x) → ∀ b' ∈ bs, ∃ d' ∈ ds, ∃ col',
            (∀ v ∈ col', Legal exact d' v) ∧ d'.transform exact col' = .ok b' := by
          intro f _ b' hb'
          obtain ⟨p, hp, hpb⟩ := mapE_mem k1 hb'
          obtain ⟨i, hi', rfl⟩ := List.mem_iff_getElem.1 hp
          simp only [List.getElem_zip] at hpb
          refine ⟨_, List.getElem_mem _, _, ?_, hpb⟩
          have := (List.forall₂_iff_get.1 h2).2 i (by simp at hi'; omega) (by simp at hi'; omega)
          exact fun v hv => (this.2 v hv).1
        refine hmix.imp ?_ ?_
        · intro hm b' hb'
          rcases List.mem_cons.1 hb' with rfl | hb'
          · exact Dim.transform_noStr (hm d (by simp)) hl g1
          · obtain ⟨d', hd', col', hc', ht'⟩ := hall _ hm b' hb'
            exact Dim.transform_noStr (hm d' (by simp [hd'])) hc' ht'
        · intro hm b' hb'
          rcases List.mem_cons.1 hb' with rfl | hb'
          · exact Dim.transform_noNum (hm d (by simp)) hl g1
          · obtain ⟨d', hd', col', hc', ht'⟩ := hall _ hm b' hb'
            exact Dim.transform_noNum (hm d' (by simp [hd'])) hc' ht'
  have hM : Space.transform exact dims X =
      .ok (blocks.foldr Space.glue (List.replicate X.length [])) := by
    unfold Space.transform
    simp only [hct, ok_bind, hb]
    rw [if_neg (by simp [hX, hne]), hstack_homog hty]
  refine ⟨_, hM, ?_⟩
  unfold Space.inverseTransform
  have hL : (blocks.foldr Space.glue (List.replicate X.length [])).length = X.length :=
    foldr_glue_length fun b hb' => by
      obtain ⟨_, _, h⟩ := forall₂_mem_right hshape hb'
      exact h.1
  have hic := inverseCols_glue (A := exact) (s := 0) (P := List.replicate X.length [])
    (by simp) (by intro r hr; rw [(List.mem_replicate.1 hr).2]; rfl) hshape hinv
  rw [glue_nil_left hL] at hic
  rw [hic, ok_bind, if_neg, htr]
  intro h
  simp only [Bool.and_eq_true, List.isEmpty_iff] at h
  rw [← List.length_eq_zero_iff, hL] at h
  exact hX (List.length_eq_zero_iff.1 h.1)

/-- A space over ℝ exercising every branch: normalised log prior, integer, log prior with base 2,
one-hot, label and single-category dimensions. -/
noncomputable def exDimsR : List (Dim ℝ) :=
  [.real ⟨1, 100, .logUniform, 10, .normalize, none, id⟩,
   .int ⟨-5, 5, .uniform, 10, .normalize, none, id⟩,
   .int ⟨1, 8, .logUniform, 2, .identity, none, id⟩,
   .cat ⟨[.str "a", .str "b", .str "c"], none, .onehot, none, fun _ => "", fun s => .ok (.str s)⟩,
   .cat ⟨[.str "x"], none, .normalize, none, fun _ => "", fun s => .ok (.str s)⟩,
   .cat ⟨[.str "p", .str "q"], none, .label, none, fun _ => "", fun s => .ok (.str s)⟩]

theorem exDimsR_valid : ∀ d ∈ exDimsR, ValidDim exact d := by
  have ri : ∀ k : ℤ, exact.round (exact.ofInt k) = k := fun k => roundHalfEven_intCast (K := ℝ) k
  intro d hd
  simp only [exDimsR, List.mem_cons, List.not_mem_nil, or_false] at hd
  rcases hd with rfl | rfl | rfl | rfl | rfl | rfl
  · exact ⟨by norm_num, Or.inr rfl, fun x h1 h2 => ⟨h1, h2⟩⟩
  · have e1 : (-5 : ℝ) = exact.ofInt (-5) := by norm_num [exact]
    have e2 : (5 : ℝ) = exact.ofInt 5 := by norm_num [exact]
    exact ⟨-5, 5, by norm_num, e1, e2, by simp only [e1, ri], by simp only [e2, ri],
      Or.inr rfl, fun k _ _ => rfl⟩
  · have e1 : (1 : ℝ) = exact.ofInt 1 := by norm_num [exact]
    have e2 : (8 : ℝ) = exact.ofInt 8 := by norm_num [exact]
    exact ⟨1, 8, by norm_num, e1, e2, by simp only [e1, ri], by simp only [e2, ri],
      Or.inl rfl, fun k _ _ => rfl⟩
  · exact ⟨by simp, by simp, by simp [Val.isSeq], Or.inr (by simp [Val.isNum])⟩
  · exact ⟨by simp, by simp, by simp [Val.isSeq], Or.inr (by simp [Val.isNum])⟩
  · exact ⟨by simp, by simp, by simp [Val.isSeq], Or.inr (by simp [Val.isNum])⟩

theorem exDimsR_invertible : ∀ d ∈ exDimsR, Invertible (0 : ℝ) 1 d := by
  intro d hd
  simp only [exDimsR, List.mem_cons, List.not_mem_nil, or_false] at hd
  rcases hd with rfl | rfl | rfl | rfl | rfl | rfl <;> simp [Invertible]

/-- Two points of the example space. -/
noncomputable def exPointsR : List (Point ℝ) :=
  [[.num 7, .num 3, .num 5, .str "b", .str "x", .str "q"],
   [.num 100, .num (-5), .num 1, .str "c", .str "x", .str "p"]]

theorem exPointsR_in : ∀ p ∈ exPointsR, InSpace exact exDimsR p := by
  intro p hp
  simp only [exPointsR, List.mem_cons, List.not_mem_nil, or_false] at hp
  rcases hp with rfl | rfl
  · refine .cons ⟨7, rfl, by norm_num, by norm_num⟩ (.cons ⟨3, ?_⟩ (.cons ⟨5, ?_⟩
      (.cons ?_ (.cons ?_ (.cons ?_ .nil))))) <;> norm_num [exact, Legal]
  · refine .cons ⟨100, rfl, by norm_num, by norm_num⟩ (.cons ⟨-5, ?_⟩ (.cons ⟨1, ?_⟩
      (.cons ?_ (.cons ?_ (.cons ?_ .nil))))) <;> norm_num [exact, Legal]

/-- C02 applies to the example space and points. -/
example : ∃ M, Space.transform exact exDimsR exPointsR = .ok M ∧
    Space.inverseTransform exact exDimsR M = .ok exPointsR := by
  refine C02_round_trip_partial exDimsR (by simp [exDimsR]) exDimsR_valid exDimsR_invertible (Or.inl ?_)
    exPointsR (by simp [exPointsR]) exPointsR_in ?_
  · intro d hd
    simp only [exDimsR, List.mem_cons, List.not_mem_nil, or_false] at hd
    rcases hd with rfl | rfl | rfl | rfl | rfl | rfl <;> simp [YieldsNoStr]
  · intro p hp
    simp only [exPointsR, List.mem_cons, List.not_mem_nil, or_false] at hp
    rcases hp with rfl | rfl <;>
      exact .cons rfl (.cons trivial (.cons trivial (.cons trivial (.cons trivial
        (.cons trivial .nil)))))

/-- C02 is false with repeated categories: `Categorical(['a','a','b','c'])` with the default one-hot
encoding is accepted, but `transformed_size` counts the repetition and the encoder does not, so the
next dimension is decoded from the wrong columns: 'y' comes back as 'x'. -/
theorem C02_refuted_duplicate_categories :
    ∃ d e : Dim ℚ, mkCat [.str "a", .str "a", .str "b", .str "c"] none none none (fun _ => "")
        (fun s => .ok (.str s)) = .ok d ∧
      mkCat [.str "x", .str "y", .str "z"] none none none (fun _ => "")
        (fun s => .ok (.str s)) = .ok e ∧
      Space.contains [d, e] [.str "b", .str "y"] = .ok true ∧
      ∃ M, Space.transform ratArith [d, e] [[.str "b", .str "y"]] = .ok M ∧
        Space.inverseTransform ratArith [d, e] M = .ok [[.str "b", .str "x"]] := by
  refine ⟨_, _, rfl, rfl, by decide +kernel,
    [[.num 0, .num 1, .num 0, .num 0, .num 1, .num 0]], by decide +kernel, by decide +kernel⟩

/-- C02 is false for categories mixing numbers and strings: numpy turns the decoded list into an
array of strings as soon as one of the points has a string there. -/
theorem C02_refuted_mixed_type_categories :
    ∃ d : Dim ℚ, mkCat [.num 1, .num 2, .str "a"] none none none (fun _ => "")
        (fun s => .ok (.str s)) = .ok d ∧
      (∀ p ∈ [[Val.num 1], [Val.str "a"]], Space.contains [d] p = .ok true) ∧
      ∃ M, Space.transform ratArith [d] [[.num 1], [.str "a"]] = .ok M ∧
        Space.inverseTransform ratArith [d] M = .ok [[.str "1/1"], [.str "a"]] := by
  refine ⟨_, rfl, by decide +kernel, [[.num 1, .num 0, .num 0], [.num 0, .num 0, .num 1]],
    by decide +kernel, by decide +kernel⟩

/-- C02 is false when a string-valued transform sits beside a numeric dimension: `np.hstack` turns
the whole matrix into strings and decoding the numeric column raises. -/
theorem C02_refuted_string_beside_number :
    ∃ d e : Dim ℚ, mkReal 0 1 .uniform 10 none none id = .ok d ∧
      mkCat [.str "a", .str "b"] none (some .identity) none (fun _ => "")
        (fun s => .ok (.str s)) = .ok e ∧
      Space.contains [d, e] [.num 1, .str "a"] = .ok true ∧
      ∃ M, Space.transform ratArith [d, e] [[.num 1, .str "a"]] = .ok M ∧
        Space.inverseTransform ratArith [d, e] M = .error .typeError := by
  refine ⟨.real ⟨0, 1, .uniform, 10, .identity, none, id⟩, _,
    by rw [mkReal, if_neg (by norm_num)]; rfl, rfl, by decide +kernel,
    [[.str "1/1", .str "a"]], by decide +kernel, by decide +kernel⟩

/-- C02 is false for booleans encoded as strings: the string encoder decodes with `bool(text)`, which
is true for every non-empty text, so `False` is encoded as "False" and comes back as `True`
(`Categorical([False, True], transform="string")`, transformers.py:50-82). -/
theorem C02_refuted_boolean_strings :
    ∃ d : Dim ℚ, mkCat [.obj 0, .obj 1] none (some .string) none
        (fun v => if v = .obj 0 then "False" else "True")
        (fun s => .ok (if s = "" then .obj 0 else .obj 1)) = .ok d ∧
      Space.contains [d] [.obj 0] = .ok true ∧
      ∃ M, Space.transform ratArith [d] [[.obj 0]] = .ok M ∧
        Space.inverseTransform ratArith [d] M = .ok [[.obj 1]] := by
  refine ⟨_, rfl, by decide +kernel, [[.str "False"]], by decide +kernel, by decide +kernel⟩

/-! ## C03 -/

variable {F : Type}

/-- **C03 (shape).** For every arithmetic: whatever `Space.transform` returns has one row per point,
`transformed_n_dims` columns, and `transformed_bounds` has one entry per column. -/
theorem C03_shape [LinearOrder F] (A : Arith F) (dims : List (Dim F))
    (hv : ∀ d ∈ dims, ValidDim A d) (X : List (Point F)) (M : List (List (Val F)))
    (h : Space.transform A dims X = .ok M) :
    M.length = X.length ∧ (∀ r ∈ M, r.length = Space.transformedNDims dims) ∧
      (Space.transformedBounds A dims).length = Space.transformedNDims dims := by
  have hbounds : (Space.transformedBounds A dims).length = Space.transformedNDims dims := by
    clear h
    induction dims with
    | nil => rfl
    | cons d ds ih =>
      have hd : (d.transformedBounds A).length = d.transformedSize := by
        cases d with
        | real r => simp only [Dim.transformedBounds]; split <;> rfl
        | int r => simp only [Dim.transformedBounds]; split <;> rfl
        | cat c => simp [Dim.transformedBounds]
      have := ih fun x hx => hv x (by simp [hx])
      simp only [Space.transformedBounds, Space.transformedNDims, List.flatMap_cons,
        List.length_append, List.map_cons, List.sum_cons, hd] at this ⊢
      rw [this]
  unfold Space.transform at h
  simp only [bind_eq_ok] at h
  obtain ⟨cols, hcols, blocks, hblocks, h⟩ := h
  split at h
  · simp at h
  rename_i hnem; clear hnem
  simp only [Except.ok.injEq] at h
  have hlen : cols.length = dims.length := by
    have := mapE_length hcols; simpa using this
  have hcl : ∀ c ∈ cols, c.length = X.length := by
    intro c hc
    obtain ⟨j, _, hj⟩ := mapE_mem hcols hc
    exact mapE_length hj
  have hshape : List.Forall₂ (fun d b => b.length = X.length ∧ ∀ r ∈ b,
      r.length = d.transformedSize) dims blocks := by
    clear hcols h hbounds
    induction dims generalizing cols blocks with
    | nil => simp [mapE_nil] at hblocks; subst hblocks; exact .nil
    | cons d ds ih =>
      cases cols with
      | nil => simp at hlen
      | cons c cs =>
        rw [List.zip_cons_cons, mapE_cons_ok] at hblocks
        obtain ⟨b, bs, h1, h2, rfl⟩ := hblocks
        have hs := Dim.transform_shape (hv d (by simp)) h1
        refine .cons ⟨by rw [hs.1, hcl c (by simp)], hs.2⟩ ?_
        exact ih (fun x hx => hv x (by simp [hx])) cs bs h2 (by simpa using hlen)
          (fun x hx => hcl x (by simp [hx]))
  subst h
  replace hshape : List.Forall₂ (fun (d : Dim F) b => b.length = X.length ∧
      ∀ r ∈ b, r.length = d.transformedSize) dims (blocks.map (Space.asBlock A)) := by
    refine List.forall₂_map_right_iff.2 (hshape.imp fun d b h => ⟨?_, fun r hr => ?_⟩)
    · rw [Space.asBlock, List.length_map]; exact h.1
    · obtain ⟨r', hr', rfl⟩ := List.mem_map.1 hr
      rw [List.length_map]; exact h.2 r' hr'
  refine ⟨?_, ?_, hbounds⟩
  · simp only [Space.hstack, List.length_map]
    exact foldr_glue_length fun b hb => by
      obtain ⟨_, _, h⟩ := forall₂_mem_right hshape hb
      exact h.1
  · intro r hr
    simp only [Space.hstack] at hr
    obtain ⟨r', hr', rfl⟩ := List.mem_map.1 hr
    rw [List.length_map]
    exact foldr_glue_width hshape r' hr'

/-- Reading the columns of one dimension out of the glued matrix. -/
theorem slice_glue {P B R : List (List (Val F))} {n s k : Nat} (hP : P.length = n)
    (hB : B.length = n) (hR : R.length = n) (hPw : ∀ r ∈ P, r.length = s)
    (hBw : ∀ r ∈ B, r.length = k) :
    (Space.glue P (Space.glue B R)).map (fun r => (r.drop s).take k) = B := by
  by_cases hk : k = 1
  · subst hk
    refine List.ext_getElem (by simp [Space.glue, hP, hB, hR]) fun i h1 h2 => ?_
    have hi : i < n := by rw [← hB]; exact h2
    simp only [Space.glue, List.getElem_map, List.getElem_zipWith]
    rw [List.drop_left' (hPw _ (List.getElem_mem _)), List.take_left' (hBw _ (List.getElem_mem _))]
  · have := block_glue hP hB hR hPw hBw
    unfold Space.block at this
    rw [if_neg hk] at this
    simpa using this

/-- **C03 (layout).** If no dimension produces strings, the columns of the dimension at position `j`
are the `transformed_size` columns that follow the columns of the earlier dimensions, and they
contain the transform of the `j`-th components of the points. -/
theorem C03_layout_partial [LinearOrder F] (A : Arith F) (pre post : List (Dim F)) (d : Dim F)
    (hv : ∀ e ∈ pre ++ d :: post, ValidDim A e) (hs : ∀ e ∈ pre ++ d :: post, YieldsNoStr e)
    (X : List (Point F)) (hin : ∀ p ∈ X, InSpace A (pre ++ d :: post) p)
    (M : List (List (Val F))) (h : Space.transform A (pre ++ d :: post) X = .ok M) :
    ∃ col, List.Forall₂ (fun p v => p[pre.length]? = some v) X col ∧
      d.transform A col = .ok
        (M.map fun r => (r.drop (Space.transformedNDims pre)).take d.transformedSize) := by
  have hlen : ∀ p ∈ X, p.length = (pre ++ d :: post).length :=
    fun p hp => (hin p hp).length_eq.symm
  have hcols := columns_forall₂ (P := Legal A) hin
  unfold Space.transform at h
  rw [columns_ok hlen] at h
  simp only [ok_bind, bind_eq_ok] at h
  obtain ⟨blocks, hblocks, h⟩ := h
  split at h
  · simp at h
  simp only [Except.ok.injEq] at h
  rw [mapE_eq_ok] at hblocks
  have hj : pre.length < (pre ++ d :: post).length := by simp
  refine ⟨X.map fun p => p.getD pre.length (.obj 0), ?_, ?_⟩
  · rw [List.forall₂_map_right_iff]
    refine List.forall₂_same.2 fun p hp => ?_
    have : pre.length < p.length := by rw [hlen p hp]; exact hj
    simp [List.getD, this]
  · -- facts about every block
    have hzl : ((pre ++ d :: post).zip ((List.range (pre ++ d :: post).length).map fun j =>
        X.map fun p => p.getD j (.obj 0))).length = (pre ++ d :: post).length := by simp
    have hbl : blocks.length = (pre ++ d :: post).length := by
      rw [← hblocks.length_eq, hzl]
    have hget : ∀ i (h1 : i < (pre ++ d :: post).length), (pre ++ d :: post)[i].transform A
        (X.map fun p => p.getD i (.obj 0)) = .ok (blocks[i]'(by rw [hbl]; exact h1)) := by
      intro i h1
      have := (List.forall₂_iff_get.1 hblocks).2 i (by rw [hzl]; exact h1) (by rw [hbl]; exact h1)
      simpa using this
    have hfacts : List.Forall₂ (fun e b => (b.length = X.length ∧ ∀ r ∈ b,
        r.length = e.transformedSize) ∧ ∀ r ∈ b, ∀ v ∈ r, v.isStr = false)
        (pre ++ d :: post) blocks := by
      rw [List.forall₂_iff_get]
      refine ⟨hbl.symm, fun i h1 h2 => ?_⟩
      simp only [List.get_eq_getElem]
      have hg := hget i h1
      have hsh := Dim.transform_shape (hv _ (List.getElem_mem h1)) hg
      have hl := (List.forall₂_iff_get.1 hcols).2 i h1 (by simpa using h1)
      simp only [List.get_eq_getElem, List.getElem_map, List.getElem_range] at hl
      exact ⟨⟨by simpa using hsh.1, hsh.2⟩,
        Dim.transform_noStr (hs _ (List.getElem_mem h1)) hl.2 hg⟩
    have hd := hget pre.length hj
    have hlen0 : (pre ++ d :: post)[pre.length] = d := by simp
    rw [hlen0] at hd
    rw [hd]
    congr 1
    rw [← h, hstack_homog (Or.inl fun b hb => by
      obtain ⟨_, _, h⟩ := forall₂_mem_right hfacts hb
      exact h.2)]
    -- split the blocks
    have hb1 := List.forall₂_take pre.length hfacts
    have hb2 := List.forall₂_drop pre.length hfacts
    rw [List.take_left] at hb1
    rw [List.drop_left] at hb2
    obtain ⟨bpre, hbpre⟩ : ∃ l, l = blocks.take pre.length := ⟨_, rfl⟩
    obtain ⟨brest, hbrest⟩ : ∃ l, l = blocks.drop pre.length := ⟨_, rfl⟩
    have hbe : blocks = bpre ++ brest := by rw [hbpre, hbrest, List.take_append_drop]
    rw [← hbpre] at hb1
    rw [← hbrest] at hb2
    clear hbpre hbrest
    cases hb2 with
    | @cons _ b _ bpost hbd hbpost =>
    subst hbe
    have hbl1 : bpre.length = pre.length := hb1.length_eq.symm
    have hblk : (bpre ++ b :: bpost)[pre.length]'(by rw [hbl]; exact hj) = b := by
      simp [← hbl1]
    rw [hblk]
    have hfold : ∀ (bs : List (List (List (Val F)))) (R : List (List (Val F))),
        (∀ x ∈ bs, x.length = X.length) → R.length = X.length →
        bs.foldr Space.glue R = Space.glue (bs.foldr Space.glue (List.replicate X.length [])) R := by
      intro bs R hbs hR
      induction bs with
      | nil => rw [List.foldr_nil, List.foldr_nil, glue_nil_left hR]
      | cons x bs ih =>
        rw [List.foldr_cons, List.foldr_cons, glue_assoc, ih fun y hy => hbs y (by simp [hy])]
    rw [List.foldr_append, List.foldr_cons]
    have hpostlen : ∀ x ∈ bpost, x.length = X.length := fun x hx => by
      obtain ⟨_, _, h⟩ := forall₂_mem_right hbpost hx
      exact h.1.1
    have hprelen : ∀ x ∈ bpre, x.length = X.length := fun x hx => by
      obtain ⟨_, _, h⟩ := forall₂_mem_right hb1 hx
      exact h.1.1
    rw [hfold bpre _ hprelen (glue_length hbd.1.1 (foldr_glue_length hpostlen))]
    exact (slice_glue (foldr_glue_length hprelen) hbd.1.1 (foldr_glue_length hpostlen)
      (foldr_glue_width (hb1.imp fun _ _ h => h.1)) hbd.1.2).symm

/-- Non-vacuity of C03: shape and layout on the mixed example space.
Meets the hypotheses of `C03_shape`. -/
example : Space.transform ratArith exDims [[.num 5, .num (-2), .str "b"], [.num 0, .num 5, .str "a"]]
    = .ok [[.num (1/2), .num (3/10), .num 0, .num 1, .num 0],
           [.num 0, .num 1, .num 1, .num 0, .num 0]] ∧ Space.transformedNDims exDims = 5 := by
  constructor <;> decide +kernel

/-- C03 is false with repeated categories: the matrix has fewer columns than announced. -/
theorem C03_refuted_duplicate_categories :
    ∃ d : Dim ℚ, mkCat [.str "a", .str "a", .str "b"] none none none (fun _ => "")
        (fun s => .ok (.str s)) = .ok d ∧
      Space.transform ratArith [d] [[.str "a"]] = .ok [[.num 0]] ∧
      Space.transformedNDims [d] = 3 := by
  refine ⟨_, rfl, by decide +kernel, rfl⟩

/-! ## C04 -/

/-- **C04.** For real numbers and for every monotone (e.g. correctly rounded) arithmetic: every
entry of a transformed point of the space is a number inside the corresponding entry of
`transformed_bounds`, for the dimensions listed in `GoodBounds` (the remaining combinations are
refuted below). -/
theorem C04_transformed_bounds_partial [LinearOrder F] (A : Arith F) (hA : MonoArith A)
    (dims : List (Dim F)) (hv : ∀ d ∈ dims, ValidDim A d)
    (hi : ∀ d ∈ dims, Invertible (A.ofInt 0) (A.ofInt 1) d) (hg : ∀ d ∈ dims, GoodBounds A d)
    (X : List (Point F)) (hin : ∀ p ∈ X, InSpace A dims p) (M : List (List (Val F)))
    (h : Space.transform A dims X = .ok M) :
    ∀ r ∈ M, List.Forall₂ (fun (b : F × F) v => ∃ x, v = .num x ∧ b.1 ≤ x ∧ x ≤ b.2)
      (Space.transformedBounds A dims) r := by
  have hlen : ∀ p ∈ X, p.length = dims.length := fun p hp => (hin p hp).length_eq.symm
  have hcols := columns_forall₂ (P := Legal A) hin
  unfold Space.transform at h
  rw [columns_ok hlen] at h
  simp only [ok_bind, bind_eq_ok] at h
  obtain ⟨blocks, hblocks, h⟩ := h
  split at h
  · simp at h
  rename_i hnem; clear hnem
  simp only [Except.ok.injEq] at h
  generalize ((List.range dims.length).map fun j => X.map fun p => p.getD j (.obj 0)) = cols
    at hcols hblocks
  have hfacts : List.Forall₂ (fun d b => (∀ r ∈ b, List.Forall₂ InInterval
      (Dim.transformedBounds A d) r) ∧ ∀ r ∈ b, ∀ v ∈ r, v.isStr = false) dims blocks := by
    clear h hlen hin
    induction hcols generalizing blocks with
    | nil => simp [mapE_nil] at hblocks; subst hblocks; exact .nil
    | @cons d col ds cs h1 h2 ih =>
      rw [List.zip_cons_cons, mapE_cons_ok] at hblocks
      obtain ⟨b, bs, k1, k2, rfl⟩ := hblocks
      have hb := Dim.transform_inBounds hA (hv d (by simp)) (hi d (by simp)) (hg d (by simp))
        h1.2 k1
      refine .cons ⟨hb, ?_⟩ (ih (fun x hx => hv x (by simp [hx])) (fun x hx => hi x (by simp [hx]))
        (fun x hx => hg x (by simp [hx])) bs k2)
      intro r hr v hv
      obtain ⟨_, _, x, rfl, _⟩ := forall₂_mem_right (hb r hr) hv
      rfl
  rw [hstack_homog (Or.inl fun b hb => by
    obtain ⟨_, _, h⟩ := forall₂_mem_right hfacts hb
    exact h.2)] at h
  subst h
  exact foldr_glue_forall₂ (hfacts.imp fun _ _ h => h.1)

/-- Exact real arithmetic is monotone, so C04 applies to it. -/
theorem exact_mono : MonoArith exact where
  ofInt_mono := fun _ _ h => Int.cast_le.2 h
  sub_mono := fun c h => sub_le_sub_right h c
  sub_self := fun a => by simp [exact]
  div_mono := fun {a b c} hc h => by
    have : (0 : ℝ) < c := by simpa [exact] using hc
    exact div_le_div_of_nonneg_right h this.le
  div_self := fun {c} hc => by
    have : (0 : ℝ) < c := by simpa [exact] using hc
    simp [exact, this.ne']
  zero_div := fun {c} _ => by simp [exact]
  div_one := fun a => by simp [exact]
  mul_zero := fun a => by simp [exact]
  log10_mono := fun {a b} ha h => by
    have : (0 : ℝ) < a := by simpa [exact] using ha
    exact Real.logb_le_logb_of_le (by norm_num) this h
  log10_pos := fun {a} ha => by
    have : (1 : ℝ) < a := by simpa [exact] using ha
    simpa [exact] using Real.logb_pos (b := 10) (by norm_num) this
  log10_ten := by
    simp [exact]

/-- C04 applies to the first four and the fifth dimension kinds of the example space. -/
example : ∃ M, Space.transform exact (exDimsR.take 2) (exPointsR.map (·.take 2)) = .ok M ∧
    ∀ r ∈ M, List.Forall₂ (fun (b : ℝ × ℝ) v => ∃ x, v = .num x ∧ b.1 ≤ x ∧ x ≤ b.2)
      (Space.transformedBounds exact (exDimsR.take 2)) r := by
  have hsub : ∀ d ∈ exDimsR.take 2, d ∈ exDimsR := fun d hd => List.mem_of_mem_take hd
  have hin : ∀ p ∈ exPointsR.map (·.take 2), InSpace exact (exDimsR.take 2) p := by
    intro p hp
    obtain ⟨q, hq, rfl⟩ := List.mem_map.1 hp
    exact List.forall₂_take 2 (exPointsR_in q hq)
  obtain ⟨M, hM, _⟩ := C02_round_trip_partial (exDimsR.take 2) (by simp [exDimsR])
    (fun d hd => exDimsR_valid d (hsub d hd)) (fun d hd => exDimsR_invertible d (hsub d hd))
    (Or.inl (by simp [exDimsR, YieldsNoStr])) (exPointsR.map (·.take 2)) (by simp [exPointsR]) hin
    (by
      intro p hp
      simp only [exPointsR, List.map_cons, List.map_nil, List.mem_cons, List.not_mem_nil,
        or_false] at hp
      rcases hp with rfl | rfl <;> exact .cons rfl (.cons trivial .nil))
  refine ⟨M, hM, C04_transformed_bounds_partial exact exact_mono _
    (fun d hd => exDimsR_valid d (hsub d hd)) (fun d hd => ?_) ?_ _ hin M hM⟩
  · simpa [exact] using exDimsR_invertible d (hsub d hd)
  · simp [exDimsR, GoodBounds]

/-- C04 fails for `Integer(1, 1000, prior='log-uniform')`: the point 1 is transformed to 0, outside
the reported bounds (1, 1000); clipping to the reported bounds (as the optimizer does before
decoding) turns it into 10. -/
theorem C04_refuted_integer_log_uniform :
    ∃ d : Dim ℝ, mkInt 1 1000 .logUniform 10 none none id = .ok d ∧
      Space.contains [d] [.num 1] = .ok true ∧
      Space.transform exact [d] [[.num 1]] = .ok [[.num 0]] ∧
      Space.transformedBounds exact [d] = [(1, 1000)] ∧
      Space.inverseTransform exact [d] [[.num (npClip 1 1000 0)]] = .ok [[.num 10]] := by
  have hmap : ∀ v : ℝ, promote exact [.num v] (.num v) = .num v := fun v => by
    simp [promote, Val.isObj, Val.isStr]
  refine ⟨.int ⟨1, 1000, .logUniform, 10, .identity, none, id⟩,
    by rw [mkInt, if_neg (by norm_num)]; rfl, ?_, ?_, rfl, ?_⟩
  · simp only [Space.contains, Dim.contains, Val.toNum, ok_bind]
    norm_num
  · have : Space.transform exact [.int ⟨1, 1000, .logUniform, 10, .identity, none, id⟩]
        [[.num 1]] = .ok [[promote exact [promote exact [.num (logNTransform exact 10 1)]
          (.num (logNTransform exact 10 1))] (promote exact [.num (logNTransform exact 10 1)]
          (.num (logNTransform exact 10 1)))]] := rfl
    rw [this, hmap, hmap, logN_exact]
    simp
  · have : Space.inverseTransform exact [.int ⟨1, 1000, .logUniform, 10, .identity, none, id⟩]
        [[.num (npClip 1 1000 0)]] = .ok [[.num ((roundHalfEven (npClip (1 : ℝ) 1000
          ((10 : ℝ) ^ (npClip (1 : ℝ) 1000 0))) : ℤ) : ℝ)]] := rfl
    rw [this]
    have h1 : npClip (1 : ℝ) 1000 0 = 1 := by norm_num [npClip]
    have h2 : npClip (1 : ℝ) 1000 10 = 10 := by norm_num [npClip]
    rw [h1, Real.rpow_one, h2]
    have h3 : roundHalfEven (10 : ℝ) = 10 := by
      have := roundHalfEven_intCast (K := ℝ) 10
      simpa using this
    rw [h3]
    norm_num

/-- C04 fails for `Real(1, 8, prior='log-uniform', base=2)`: the reported bounds are base-10
logarithms, so 8 ↦ 3 is outside. -/
theorem C04_refuted_real_log_uniform_base :
    ∃ d : Dim ℝ, mkReal 1 8 .logUniform 2 none none id = .ok d ∧
      Space.contains [d] [.num 8] = .ok true ∧
      Space.transform exact [d] [[.num 8]] = .ok [[.num 3]] ∧
      ∃ hi, Space.transformedBounds exact [d] = [(0, hi)] ∧ hi < 1 := by
  have hmap : ∀ v : ℝ, promote exact [.num v] (.num v) = .num v := fun v => by
    simp [promote, Val.isObj, Val.isStr]
  refine ⟨.real ⟨1, 8, .logUniform, 2, .identity, none, id⟩,
    by rw [mkReal, if_neg (by norm_num)]; rfl, ?_, ?_, Real.logb 10 8, ?_, ?_⟩
  · simp only [Space.contains, Dim.contains, Val.toNum, ok_bind]
    norm_num
  · have : Space.transform exact [.real ⟨1, 8, .logUniform, 2, .identity, none, id⟩]
        [[.num 8]] = .ok [[promote exact [promote exact [.num (logNTransform exact 2 8)]
          (.num (logNTransform exact 2 8))] (promote exact [.num (logNTransform exact 2 8)]
          (.num (logNTransform exact 2 8)))]] := rfl
    rw [this, hmap, hmap, logN_exact]
    have : Real.logb 2 8 = 3 := by
      rw [show (8 : ℝ) = 2 ^ (3 : ℝ) by norm_num]
      exact Real.logb_rpow (by norm_num) (by norm_num)
    rw [this]
  · have : Space.transformedBounds exact [.real ⟨1, 8, .logUniform, 2, .identity, none, id⟩] =
        [(Real.logb 10 1, Real.logb 10 8)] := rfl
    rw [this, Real.logb_one]
  · have := Real.logb_lt_logb (b := 10) (x := 8) (y := 10) (by norm_num) (by norm_num) (by norm_num)
    rwa [Real.logb_self_eq_one (by norm_num)] at this

/-- C04 fails for `Categorical([...], transform='label')` with more than two categories. -/
theorem C04_refuted_categorical_label :
    ∃ d : Dim ℚ, mkCat [.str "a", .str "b", .str "c"] none (some .label) none (fun _ => "")
        (fun s => .ok (.str s)) = .ok d ∧
      Space.contains [d] [.str "c"] = .ok true ∧
      Space.transform ratArith [d] [[.str "c"]] = .ok [[.num 2]] ∧
      Space.transformedBounds ratArith [d] = [(0, 1)] := by
  refine ⟨_, rfl, by decide +kernel, by decide +kernel, by decide +kernel⟩

/-- C04 fails for numeric categories with the `identity` transform. -/
theorem C04_refuted_categorical_identity :
    ∃ d : Dim ℚ, mkCat [.num 5, .num 7] none (some .identity) none (fun _ => "")
        (fun s => .ok (.str s)) = .ok d ∧
      Space.contains [d] [.num 7] = .ok true ∧
      Space.transform ratArith [d] [[.num 7]] = .ok [[.num 7]] ∧
      Space.transformedBounds ratArith [d] = [(0, 1)] := by
  refine ⟨_, rfl, by decide +kernel, by decide +kernel, by decide +kernel⟩

end Skopt

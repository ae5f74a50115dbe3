import Verif.Lemmas.Space

/-! Helper lemmas about the column / block layout of `Space.transform`. -/

namespace Skopt

variable {F : Type}

theorem forall₂_mem_right {α β : Type} {R : α → β → Prop} {as : List α} {bs : List β}
    (h : List.Forall₂ R as bs) {b : β} (hb : b ∈ bs) : ∃ a ∈ as, R a b := by
  induction h with
  | nil => simp at hb
  | cons h1 _ ih =>
    rcases List.mem_cons.1 hb with rfl | hb
    · exact ⟨_, by simp, h1⟩
    · obtain ⟨a, ha, hr⟩ := ih hb
      exact ⟨a, by simp [ha], hr⟩

theorem forall₂_mem_left {α β : Type} {R : α → β → Prop} {as : List α} {bs : List β}
    (h : List.Forall₂ R as bs) {a : α} (ha : a ∈ as) : ∃ b ∈ bs, R a b := by
  induction h with
  | nil => simp at ha
  | cons h1 _ ih =>
    rcases List.mem_cons.1 ha with rfl | ha
    · exact ⟨_, by simp, h1⟩
    · obtain ⟨b, hb, hr⟩ := ih ha
      exact ⟨b, by simp [hb], hr⟩

/-! ### Columns and transposition -/

/-- The columns of a list of points with the right number of components. -/
theorem columns_ok {n : Nat} {X : List (Point F)} (hX : ∀ p ∈ X, p.length = n) :
    Space.columns n X =
      .ok ((List.range n).map fun j => X.map fun p => p.getD j (.obj 0)) := by
  unfold Space.columns
  refine mapE_ok_of_forall fun j hj => mapE_ok_of_forall fun p hp => ?_
  rw [List.mem_range] at hj
  have : j < p.length := by rw [hX p hp]; exact hj
  rw [pyGet_lt this]
  simp [List.getD, this]

/-- Transposing the columns gives the points back. -/
theorem transpose_columns {n : Nat} (hn : 0 < n) {X : List (Point F)}
    (hX : ∀ p ∈ X, p.length = n) :
    transposeListArray ((List.range n).map fun j => X.map fun p => p.getD j (.obj 0)) = .ok X := by
  have hunf : ∀ cols : List (List (Val F)), cols ≠ [] → (∀ c ∈ cols, c.length = X.length) →
      transposeListArray cols =
        mapE (fun i => mapE (fun col => pyGet col i) cols) (List.range X.length) := by
    intro cols h1 h2
    cases cols with
    | nil => exact absurd rfl h1
    | cons c cs => simp only [transposeListArray]; rw [h2 c (by simp)]
  rw [hunf _ (by simp; omega) (by
    intro c hc
    obtain ⟨j, _, rfl⟩ := List.mem_map.1 hc
    simp)]
  rw [mapE_eq_ok, List.forall₂_iff_get]
  refine ⟨by simp, ?_⟩
  intro i h1 h2
  simp only [List.get_eq_getElem, List.getElem_range]
  rw [mapE_map, mapE_eq_ok, List.forall₂_iff_get]
  have hlen := hX X[i] (List.getElem_mem h2)
  refine ⟨by simp [hlen], ?_⟩
  intro j h3 h4
  simp only [List.get_eq_getElem, List.getElem_range]
  rw [pyGet_lt (by simpa using h2)]
  simp only [List.getElem_map]
  simp only [List.length_range] at h3
  simp [List.getD, hlen, h3]

/-- A pointwise property of points is a property of the columns. -/
theorem columns_forall₂ {α : Type} {P : α → Val F → Prop} {dims : List α} {X : List (Point F)}
    (h : ∀ p ∈ X, List.Forall₂ P dims p) :
    List.Forall₂ (fun d col => col.length = X.length ∧ ∀ v ∈ col, P d v) dims
      ((List.range dims.length).map fun j => X.map fun p => p.getD j (.obj 0)) := by
  rw [List.forall₂_iff_get]
  refine ⟨by simp, ?_⟩
  intro j h1 h2
  simp only [List.get_eq_getElem, List.getElem_map, List.getElem_range, List.length_map,
    List.mem_map, true_and]
  rintro v ⟨p, hp, rfl⟩
  have := h p hp
  rw [List.forall₂_iff_get] at this
  have hj : j < p.length := by rw [← this.1]; exact h1
  have := this.2 j h1 hj
  simpa [List.getD, hj] using this

/-! ### Gluing blocks -/

theorem glue_length {α : Type} {a b : List (List α)} {n : Nat} (ha : a.length = n)
    (hb : b.length = n) : (Space.glue a b).length = n := by
  simp [Space.glue, ha, hb]

theorem glue_assoc {α : Type} (a b c : List (List α)) :
    Space.glue (Space.glue a b) c = Space.glue a (Space.glue b c) := by
  unfold Space.glue
  induction a generalizing b c with
  | nil => simp
  | cons x a ih =>
    cases b with
    | nil => simp
    | cons y b =>
      cases c with
      | nil => simp
      | cons z c => simp [ih]

theorem glue_width {α : Type} {a b : List (List α)} {s k : Nat} (ha : ∀ r ∈ a, r.length = s)
    (hb : ∀ r ∈ b, r.length = k) : ∀ r ∈ Space.glue a b, r.length = s + k := by
  unfold Space.glue
  induction a generalizing b with
  | nil => simp
  | cons x a ih =>
    cases b with
    | nil => simp
    | cons y b =>
      intro r hr
      simp only [List.zipWith_cons_cons, List.mem_cons] at hr
      rcases hr with rfl | hr
      · simp [ha x (by simp), hb y (by simp)]
      · exact ih (fun r hr => ha r (by simp [hr])) (fun r hr => hb r (by simp [hr])) r hr

theorem glue_nil_left {α : Type} {b : List (List α)} {n : Nat} (hb : b.length = n) :
    Space.glue (List.replicate n []) b = b := by
  unfold Space.glue
  induction b generalizing n with
  | nil => simp at hb; subst hb; rfl
  | cons y b ih =>
    simp only [List.length_cons] at hb
    subst hb
    simp [List.replicate_succ, ih rfl]

/-- The rows before promotion. -/
theorem foldr_glue_length {α : Type} {n : Nat} {blocks : List (List (List α))}
    (h : ∀ b ∈ blocks, b.length = n) :
    (blocks.foldr Space.glue (List.replicate n [])).length = n := by
  induction blocks with
  | nil => simp
  | cons b bs ih =>
    exact glue_length (h b (by simp)) (ih fun x hx => h x (by simp [hx]))

/-- Reading back the block that starts after `P`. -/
theorem block_glue {P B R : List (List (Val F))} {n s k : Nat} (hP : P.length = n)
    (hB : B.length = n) (hR : R.length = n) (hPw : ∀ r ∈ P, r.length = s)
    (hBw : ∀ r ∈ B, r.length = k) :
    Space.block s k (Space.glue P (Space.glue B R)) = .ok B := by
  unfold Space.block Space.glue
  induction P generalizing B R n with
  | nil =>
    simp only [List.length_nil] at hP; subst hP
    obtain rfl := List.length_eq_zero_iff.1 hB
    split <;> rfl
  | cons p P ih =>
    cases B with
    | nil => simp only [List.length_nil] at hB; subst hB; simp at hP
    | cons b B =>
      cases R with
      | nil => simp only [List.length_nil] at hR; subst hR; simp at hP
      | cons r R =>
        simp only [List.length_cons] at hP hB hR
        subst hP
        have ih' := ih (B := B) (R := R) rfl (by omega) (by omega)
          (fun r hr => hPw r (by simp [hr])) (fun r hr => hBw r (by simp [hr]))
        have hp := hPw p (by simp)
        have hb := hBw b (by simp)
        by_cases hk : k = 1
        · simp only [hk, if_true] at ih' ⊢
          rw [List.zipWith_cons_cons, List.zipWith_cons_cons, mapE_cons_ok]
          refine ⟨b, B, ?_, ih', rfl⟩
          rw [hk] at hb
          match b, hb with
          | [v], _ =>
            rw [bind_eq_ok]
            refine ⟨v, ?_, rfl⟩
            rw [pyGet_eq_ok, ← hp]
            simp
        · simp only [hk, if_false, Except.ok.injEq] at ih' ⊢
          rw [List.zipWith_cons_cons, List.zipWith_cons_cons, List.map_cons, ih']
          congr 1
          rw [← hp, List.drop_left, ← hb, List.take_left]

/-- If every dimension decodes its own block to its column, the loop of `inverse_transform` with
its running offset decodes the glued matrix to the columns. -/
theorem inverseCols_glue [LinearOrder F] {A : Arith F} {n : Nat} :
    ∀ {dims : List (Dim F)} {blocks : List (List (List (Val F)))} {cols : List (List (Val F))}
      {s : Nat} {P : List (List (Val F))}, P.length = n → (∀ r ∈ P, r.length = s) →
      List.Forall₂ (fun d b => b.length = n ∧ ∀ r ∈ b, r.length = d.transformedSize) dims blocks →
      List.Forall₂ (fun (p : Dim F × List (List (Val F))) col => p.1.inverse A p.2 = .ok col)
        (dims.zip blocks) cols →
      Space.inverseCols A dims s
        (Space.glue P (blocks.foldr Space.glue (List.replicate n []))) = .ok cols
  | [], [], cols, s, P, _, _, _, hi => by
      cases hi; rfl
  | d :: ds, b :: bs, cols, s, P, hP, hPw, hb, hi => by
      cases hb with
      | cons hb1 hb2 =>
      rw [List.zip_cons_cons] at hi
      cases hi with
      | cons hi1 hi2 =>
      rename_i c cs
      have hR : (bs.foldr Space.glue (List.replicate n [])).length = n :=
        foldr_glue_length fun x hx => by
          obtain ⟨y, _, hy⟩ := forall₂_mem_right hb2 hx
          exact hy.1
      rw [List.foldr_cons]
      simp only [Space.inverseCols]
      rw [block_glue hP hb1.1 hR hPw hb1.2]
      simp only [ok_bind]
      simp only at hi1
      rw [hi1]
      simp only [ok_bind]
      rw [← glue_assoc, inverseCols_glue (glue_length hP hb1.1) (glue_width hPw hb1.2) hb2 hi2]
      rfl

end Skopt

import Verif.Lemmas.Shape

/-! Transformed values stay inside `transformed_bounds`, for every monotone arithmetic. -/

namespace Skopt

variable {F : Type}

/-- A number inside an interval. -/
def InInterval [LinearOrder F] (b : F × F) (v : Val F) : Prop :=
  ∃ x, v = .num x ∧ b.1 ≤ x ∧ x ≤ b.2

theorem normalize_value [LinearOrder F] {A : Arith F} (hA : MonoArith A) {lo hi x : F}
    (h1 : lo ≤ x) (h2 : x ≤ hi) (hne : A.sub hi lo ≠ A.ofInt 0) :
    A.ofInt 0 ≤ A.div (A.sub x lo) (A.sub hi lo) ∧
      A.div (A.sub x lo) (A.sub hi lo) ≤ A.ofInt 1 := by
  have hpos : A.ofInt 0 < A.sub hi lo := by
    refine lt_of_le_of_ne ?_ (Ne.symm hne)
    rw [← hA.sub_self lo]
    exact hA.sub_mono lo (h1.trans h2)
  constructor
  · rw [← hA.zero_div hpos]
    refine hA.div_mono hpos ?_
    rw [← hA.sub_self lo]
    exact hA.sub_mono lo h1
  · rw [← hA.div_self hpos]
    exact hA.div_mono hpos (hA.sub_mono lo h2)

theorem not_any_lt [LinearOrder F] {p : F → Prop} [DecidablePred p] {xs : List F}
    (h : ¬ (xs.any fun x => decide (p x)) = true) : ∀ x ∈ xs, ¬ p x := by
  simpa using h

/-- The output of `Normalize.transform` lies in the unit interval. -/
theorem normalize_range [LinearOrder F] {A : Arith F} (hA : MonoArith A) {n : Normalize F}
    {xs ys : List F} (h : n.transform A xs = .ok ys)
    (hx : n.isInt = false → ∀ x ∈ xs, n.low ≤ x ∧ x ≤ n.high) :
    ∀ y ∈ ys, A.ofInt 0 ≤ y ∧ y ≤ A.ofInt 1 := by
  unfold Normalize.transform at h
  simp only at h
  split at h
  · simp at h
  rename_i h1
  split at h
  · simp at h
  rename_i h2
  split at h
  · simp at h
  split at h
  · simp at h
  split at h
  · simp only [Except.ok.injEq] at h
    subst h
    intro y hy
    obtain ⟨x, _, rfl⟩ := List.mem_map.1 hy
    rw [hA.mul_zero]
    exact ⟨le_rfl, hA.ofInt_mono (by norm_num)⟩
  rename_i hne
  split at h
  · rename_i hint
    simp only [Except.ok.injEq] at h
    subst h
    rw [hint, Bool.true_and] at h1 h2
    intro y hy
    obtain ⟨x, hxm, rfl⟩ := List.mem_map.1 hy
    exact normalize_value hA (not_lt.1 (not_any_lt h2 x hxm)) (not_lt.1 (not_any_lt h1 x hxm)) hne
  · rename_i hint
    simp only [Except.ok.injEq] at h
    subst h
    intro y hy
    obtain ⟨x, hxm, rfl⟩ := List.mem_map.1 hy
    have := hx (by simpa using hint) x hxm
    exact normalize_value hA this.1 this.2 hne

/-- A pipeline ending in `Normalize` whose input lies in the interval. -/
theorem normalize_block [LinearOrder F] {A : Arith F} (hA : MonoArith A) {s : Stage F}
    {n : Normalize F} {col : List (Val F)} {b : List (List (Val F))}
    (h : (Transformer.pipeline [s, .normalize n]).transform A col = .ok b)
    (hx : n.isInt = false → ∀ ws, s.transform A col = .ok ws →
      ∀ x, .num x ∈ ws → n.low ≤ x ∧ x ≤ n.high) :
    ∀ r ∈ b, List.Forall₂ InInterval [(A.ofInt 0, A.ofInt 1)] r := by
  simp only [Transformer.transform, pipelineTransform, Stage.transform, bind_eq_ok,
    Except.ok.injEq] at h
  obtain ⟨Y, ⟨ws, hws, Z, ⟨xs, hxs, ys, hys, rfl⟩, rfl⟩, rfl⟩ := h
  intro r hr
  obtain ⟨v, hv, rfl⟩ := List.mem_map.1 hr
  obtain ⟨y, hy, rfl⟩ := List.mem_map.1 hv
  refine .cons ⟨y, rfl, ?_⟩ .nil
  refine normalize_range hA hys ?_ y hy
  intro hint x hxm
  refine hx hint ws hws x ?_
  rw [mapE_toNum_eq_ok.1 hxs]
  exact List.mem_map.2 ⟨x, hxm, rfl⟩

theorem logN_mem [LinearOrder F] {A : Arith F} {base : F} {col ws : List (Val F)}
    (h : (Stage.logN base).transform A col = .ok ws) {v : Val F} (hv : v ∈ ws) :
    ∃ x, .num x ∈ col ∧ v = .num (A.div (A.log10 x) (A.log10 base)) := by
  simp only [Stage.transform, bind_eq_ok, Except.ok.injEq] at h
  obtain ⟨xs, hxs, rfl⟩ := h
  obtain ⟨x, hx, rfl⟩ := List.mem_map.1 hv
  refine ⟨x, ?_, rfl⟩
  rw [mapE_toNum_eq_ok.1 hxs]
  exact List.mem_map.2 ⟨x, hx, rfl⟩

theorem log_mono [LinearOrder F] {A : Arith F} (hA : MonoArith A) {base lo hi x : F}
    (hb : A.ofInt 1 < base) (hlo : A.ofInt 0 < lo) (h1 : lo ≤ x) (h2 : x ≤ hi) :
    A.div (A.log10 lo) (A.log10 base) ≤ A.div (A.log10 x) (A.log10 base) ∧
    A.div (A.log10 x) (A.log10 base) ≤ A.div (A.log10 hi) (A.log10 base) :=
  ⟨hA.div_mono (hA.log10_pos hb) (hA.log10_mono hlo h1),
    hA.div_mono (hA.log10_pos hb) (hA.log10_mono (lt_of_lt_of_le hlo h1) h2)⟩

/-- `binarize` produces entries in the unit interval. -/
theorem binarize_range [LinearOrder F] {A : Arith F} (hA : MonoArith A) (cs : List Nat) (i : Nat) :
    ∀ y ∈ binarize A cs i, A.ofInt 0 ≤ y ∧ y ≤ A.ofInt 1 := by
  have h01 : A.ofInt 0 ≤ A.ofInt 1 := hA.ofInt_mono (by norm_num)
  have hind : ∀ c, A.ofInt 0 ≤ (if i = c then A.ofInt 1 else A.ofInt 0) ∧
      (if i = c then A.ofInt 1 else A.ofInt 0) ≤ A.ofInt 1 := by
    intro c; split
    · exact ⟨h01, le_rfl⟩
    · exact ⟨le_rfl, h01⟩
  intro y hy
  unfold binarize at hy
  simp only at hy
  split at hy
  · simp at hy
  · rw [List.mem_singleton] at hy; subst hy; exact ⟨le_rfl, h01⟩
  · rw [List.mem_singleton] at hy; subst hy; exact hind _
  · obtain ⟨c, _, rfl⟩ := List.mem_map.1 hy; exact hind _

theorem Dim.transform_inBounds [LinearOrder F] {A : Arith F} (hA : MonoArith A) {d : Dim F}
    (hv : ValidDim A d) (hi : Invertible (A.ofInt 0) (A.ofInt 1) d) (hg : GoodBounds A d)
    {col : List (Val F)} (hcol : ∀ v ∈ col, Legal A d v) {b : List (List (Val F))}
    (h : d.transform A col = .ok b) :
    ∀ r ∈ b, List.Forall₂ InInterval (d.transformedBounds A) r := by
  have hshape := Dim.transform_shape hv h
  simp only [Dim.transform, bind_eq_ok] at h
  obtain ⟨t, ht, h⟩ := h
  cases d with
  | real r =>
    simp only [Dim.transformer, Except.ok.injEq] at ht
    subst ht
    obtain ⟨_, hk, _⟩ := hv
    have hc : ∀ x, .num x ∈ col → r.low ≤ x ∧ x ≤ r.high := by
      intro x hx
      obtain ⟨y, hy, hb⟩ := hcol _ hx
      simp only [Val.num.injEq] at hy
      subst hy; exact hb
    simp only [Invertible] at hi
    unfold RealDim.transformer at h
    rcases hk with hk | hk <;> cases hp : r.prior <;> simp only [hk, hp] at h <;>
      simp only [Dim.transformedBounds, hk, hp]
    · simp only [Transformer.transform, pipelineTransform, Stage.transform, ok_bind,
        Except.ok.injEq] at h
      subst h
      intro row hrow
      obtain ⟨v, hv, rfl⟩ := List.mem_map.1 hrow
      exact .cons (hcol v hv) .nil
    · simp only [Transformer.transform, pipelineTransform, bind_eq_ok, Except.ok.injEq] at h
      obtain ⟨Y, ⟨ws, hws, rfl⟩, rfl⟩ := h
      intro row hrow
      obtain ⟨v, hv, rfl⟩ := List.mem_map.1 hrow
      obtain ⟨x, hx, rfl⟩ := logN_mem hws hv
      have hbase : r.base = A.ofInt 10 := by
        rcases hg with h' | h' | h'
        · rw [hk] at h'; simp at h'
        · rw [hp] at h'; simp at h'
        · exact h'
      rw [hbase, hA.log10_ten, hA.div_one]
      exact .cons ⟨_, rfl, hA.log10_mono (hi hp).1 (hc x hx).1,
        hA.log10_mono (lt_of_lt_of_le (hi hp).1 (hc x hx).1) (hc x hx).2⟩ .nil
    · refine normalize_block hA h fun _ ws hws x hx => ?_
      simp only [Stage.transform, Except.ok.injEq] at hws
      rw [← hws] at hx
      exact hc x hx
    · refine normalize_block hA h fun _ ws hws y hy => ?_
      obtain ⟨x, hx, hxe⟩ := logN_mem hws hy
      simp only [Val.num.injEq] at hxe
      subst hxe
      exact log_mono hA (hi hp).2 (hi hp).1 (hc x hx).1 (hc x hx).2
  | int r =>
    simp only [Dim.transformer, Except.ok.injEq] at ht
    subst ht
    obtain ⟨_, _, _, _, _, _, _, hk, _⟩ := hv
    have hc : ∀ x, .num x ∈ col → r.low ≤ x ∧ x ≤ r.high := by
      intro x hx
      obtain ⟨y, hy, hb⟩ := hcol _ hx
      simp only [Val.num.injEq] at hy
      subst hy; exact hb
    simp only [Invertible] at hi
    unfold IntDim.transformer at h
    rcases hk with hk | hk <;> cases hp : r.prior <;> simp only [hk, hp] at h <;>
      simp only [Dim.transformedBounds, hk]
    · simp only [Transformer.transform, pipelineTransform, Stage.transform, ok_bind,
        Except.ok.injEq] at h
      subst h
      intro row hrow
      obtain ⟨v, hv, rfl⟩ := List.mem_map.1 hrow
      obtain ⟨k, rfl, hb⟩ := hcol v hv
      exact .cons ⟨_, rfl, hb⟩ .nil
    · exfalso
      rcases hg with h' | h'
      · rw [hk] at h'; simp at h'
      · rw [hp] at h'; simp at h'
    · exact normalize_block hA h fun h' => by simp at h'
    · refine normalize_block hA h fun _ ws hws y hy => ?_
      obtain ⟨x, hx, hxe⟩ := logN_mem hws hy
      simp only [Val.num.injEq] at hxe
      subst hxe
      exact log_mono hA (hi hp).2 (hi hp).1 (hc x hx).1 (hc x hx).2
  | cat c =>
    simp only [Dim.transformer] at ht
    rcases hg with hk | hk
    · simp only [CatDim.transformer, hk, bind_eq_ok] at ht
      obtain ⟨e, he, ht⟩ := ht
      simp only [Except.ok.injEq] at ht; subst ht
      simp only [Transformer.transform, OneHot.transform] at h
      intro row hrow
      have hlen := hshape.2 row hrow
      simp only [Dim.transformedBounds]
      rw [← hlen]
      obtain ⟨v, _, hv⟩ := mapE_mem h hrow
      rw [bind_eq_ok] at hv
      obtain ⟨i, _, hi⟩ := hv
      simp only [Except.ok.injEq] at hi
      subst hi
      have hr := binarize_range hA e.classes i
      generalize binarize A e.classes i = ys at hr
      clear hlen hrow
      induction ys with
      | nil => exact .nil
      | cons y ys ih =>
        exact .cons ⟨y, rfl, hr y (by simp)⟩ (ih fun z hz => hr z (by simp [hz]))
    · simp only [CatDim.transformer, hk, bind_eq_ok] at ht
      obtain ⟨e, he, ht⟩ := ht
      simp only [Except.ok.injEq] at ht; subst ht
      have : (Dim.cat c).transformedBounds A = [(A.ofInt 0, A.ofInt 1)] := by
        simp [Dim.transformedBounds, Dim.transformedSize, hk]
      rw [this]
      exact normalize_block hA h fun h' => by simp at h'

theorem foldr_glue_forall₂ {R : F × F → Val F → Prop} {n : Nat} {dims : List (Dim F)}
    {bd : Dim F → List (F × F)}
    {blocks : List (List (List (Val F)))}
    (h : List.Forall₂ (fun d b => ∀ r ∈ b, List.Forall₂ R (bd d) r) dims blocks) :
    ∀ r ∈ blocks.foldr Space.glue (List.replicate n []), List.Forall₂ R (dims.flatMap bd) r := by
  induction h with
  | nil =>
    intro r hr
    simp only [List.foldr_nil, List.mem_replicate] at hr
    rw [hr.2]; exact .nil
  | cons h1 _ ih =>
    rw [List.foldr_cons]
    intro r hr
    unfold Space.glue at hr
    obtain ⟨i, hi, rfl⟩ := List.mem_iff_getElem.1 hr
    rw [List.getElem_zipWith, List.flatMap_cons]
    exact List.rel_append (h1 _ (List.getElem_mem _)) (ih _ (List.getElem_mem _))

end Skopt

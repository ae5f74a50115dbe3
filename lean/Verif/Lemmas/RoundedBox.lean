import Verif.Lemmas.Live
import Verif.Lemmas.RoundingDims
import Verif.Props.Rounding

/-!
# Lemmas for C145: decoding and sampling in floating-point arithmetic

The same steps as in `Verif.Lemmas.Live`, for any arithmetic in which numbers of the unit interval decode
(`DecodesUnit`).
-/

namespace Skopt.Rounded

set_option linter.unusedSectionVars false

variable {F : Type} [LinearOrder F] {A : Arith F}

/-- The row lies in the box: one number per interval, inside it. -/
def InBox (bounds : List (F × F)) (r : List (Val F)) : Prop :=
  List.Forall₂ (fun (b : F × F) v => ∃ x, v = .num x ∧ b.1 ≤ x ∧ x ≤ b.2) bounds r

/-- Numbers of the unit interval are decoded by the dimension, once it is normalized. -/
def DecodesUnit (A : Arith F) (d : Dim F) : Prop :=
  ∀ xs : List F, (∀ x ∈ xs, A.ofInt 0 ≤ x ∧ x ≤ A.ofInt 1) →
    ∃ vs, d.normalized.inverse A (xs.map fun x => [.num x]) = .ok vs

theorem normalized_of_tkind {d : Dim F} (ht : d.tkind = .normalize) : d.normalized = d := by
  cases d with
  | real r => obtain ⟨lo, hi, prior, base, tr, nm, c⟩ := r; simp only [Dim.tkind] at ht; subst ht; rfl
  | int r => obtain ⟨lo, hi, prior, base, tr, nm, c⟩ := r; simp only [Dim.tkind] at ht; subst ht; rfl
  | cat r => obtain ⟨cs, prior, tr, nm, c1, c2⟩ := r; simp only [Dim.tkind] at ht; subst ht; rfl

theorem InBox.nums {bounds : List (F × F)} {r : List (Val F)} (h : InBox bounds r) :
    ∃ xs : List F, r = xs.map Val.num ∧ List.Forall₂ (fun (b : F × F) x => b.1 ≤ x ∧ x ≤ b.2) bounds xs := by
  induction h with
  | nil => exact ⟨[], rfl, .nil⟩
  | cons h1 _ ih =>
    obtain ⟨x, rfl, hx⟩ := h1
    obtain ⟨xs, rfl, hxs⟩ := ih
    exact ⟨x :: xs, rfl, .cons hx hxs⟩

theorem InBox.single {b : F × F} {r : List (Val F)} (h : InBox [b] r) :
    ∃ x, r = [.num x] ∧ b.1 ≤ x ∧ x ≤ b.2 := by
  cases h with
  | cons h1 h2 =>
    cases h2
    obtain ⟨x, rfl, hx⟩ := h1
    exact ⟨x, rfl, hx⟩

theorem singles {b : F × F} {rows : List (List (Val F))} (h : ∀ r ∈ rows, InBox [b] r) :
    ∃ xs : List F, rows = xs.map (fun x => [Val.num x]) ∧ ∀ x ∈ xs, b.1 ≤ x ∧ x ≤ b.2 := by
  induction rows with
  | nil => exact ⟨[], rfl, by simp⟩
  | cons r rows ih =>
    obtain ⟨xs, rfl, hx⟩ := ih fun r hr => h r (List.mem_cons_of_mem _ hr)
    obtain ⟨x, rfl, h1⟩ := (h r List.mem_cons_self).single
    refine ⟨x :: xs, rfl, ?_⟩
    intro y hy
    rcases List.mem_cons.1 hy with rfl | hy
    · exact h1
    · exact hx y hy

/-- Numbers for an identity-transformed numeric dimension always decode. -/
theorem Dim.inverse_identity_ok {d : Dim F} (hd : ¬ d.isCat = true) (ht : d.tkind = .identity) (xs : List F) :
    ∃ vs, d.inverse A (xs.map fun x => [.num x]) = .ok vs := by
  have hcol : mapE scalarRow (xs.map fun x => [(.num x : Val F)]) = .ok (xs.map .num) := by
    have := scalar_rows_col (xs.map (Val.num : F → Val F))
    rwa [List.map_map] at this
  cases d with
  | real r =>
    obtain ⟨lo, hi, prior, base, tr, nm, c⟩ := r
    simp only [Dim.tkind] at ht
    subst ht
    cases prior <;>
      simp only [Dim.inverse, RealDim.inverse, RealDim.transformer, Transformer.inverse, hcol, ok_bind,
        pipelineInverse, List.reverse_cons, List.reverse_nil, List.nil_append, pipelineInverseLoop,
        Stage.inverse, mapE_toNum_map, mapE_toNum_map_comp] <;> exact ⟨_, rfl⟩
  | int r =>
    obtain ⟨lo, hi, prior, base, tr, nm, c⟩ := r
    simp only [Dim.tkind] at ht
    subst ht
    cases prior <;>
      simp only [Dim.inverse, IntDim.inverse, IntDim.transformer, Transformer.inverse, hcol, ok_bind,
        pipelineInverse, List.reverse_cons, List.reverse_nil, List.nil_append, pipelineInverseLoop,
        Stage.inverse, mapE_toNum_map, mapE_toNum_map_comp] <;> exact ⟨_, rfl⟩
  | cat c => exact absurd rfl hd

theorem unbinarize_ok {n : Nat} (hn : 0 < n) {rows : List (List F)}
    (hr : ∀ r ∈ rows, r.length = if n = 2 then 1 else n) :
    ∃ ks, unbinarize A (List.range n) rows = .ok ks ∧ ∀ k ∈ ks, k < n := by
  match n, hn with
  | 1, _ =>
    refine ⟨rows.map fun _ => 0, rfl, ?_⟩
    intro k hk
    obtain ⟨_, _, rfl⟩ := List.mem_map.1 hk
    omega
  | 2, _ =>
    have hcs : List.range 2 = [0, 1] := rfl
    rw [hcs]
    simp only [unbinarize]
    have hpick : ∀ y : F, (if A.half < y then 1 else 0 : Nat) < 2 := fun y => by split <;> omega
    split
    · next hall =>
      refine ⟨rows.map fun r => if A.half < r.getD 1 (A.ofInt 0) then 1 else 0, ?_, ?_⟩
      · refine mapE_ok_of_forall fun r hr' => ?_
        have : r.length = 2 := by
          have := List.all_eq_true.1 hall r hr'
          simpa using this
        rw [pyGet_lt (by omega), ok_bind, getD_lt (by omega)]
      · intro k hk
        obtain ⟨r, _, rfl⟩ := List.mem_map.1 hk
        exact hpick _
    · refine ⟨_, rfl, ?_⟩
      intro k hk
      obtain ⟨y, _, rfl⟩ := List.mem_map.1 hk
      exact hpick _
  | n + 3, _ =>
    have hcs : List.range (n + 3) = 0 :: 1 :: 2 :: (List.range n).map (· + 3) := by
      rw [show n + 3 = 3 + n by omega, List.range_add]
      simp [List.range_succ, Nat.add_comm]
    have hform : unbinarize A (List.range (n + 3)) rows = mapE (fun r => do
        let k ← npArgmax r
        pyGet (List.range (n + 3)) (min k ((List.range (n + 3)).length - 1))) rows := by
      rw [hcs]; rfl
    rw [hform]
    have hdef : ∀ r ∈ rows, ∃ k, (do
        let k ← npArgmax r
        pyGet (List.range (n + 3)) (min k ((List.range (n + 3)).length - 1))) = .ok k ∧ k < n + 3 := by
      intro r hr'
      obtain ⟨k, hk⟩ := npArgmax_ok (xs := r) (by
        rintro rfl
        have := hr _ hr'
        simp at this)
      refine ⟨min k (n + 2), ?_, by omega⟩
      rw [hk, ok_bind, pyGet_lt (by simp)]
      simp
    clear hr hform
    induction rows with
    | nil => exact ⟨[], rfl, by simp⟩
    | cons r rows ih =>
      obtain ⟨ks, h1, h2⟩ := ih fun r hr => hdef r (List.mem_cons_of_mem _ hr)
      obtain ⟨k, h3, h4⟩ := hdef r List.mem_cons_self
      refine ⟨k :: ks, ?_, ?_⟩
      · rw [mapE_cons_ok]
        exact ⟨k, ks, h3, h1, rfl⟩
      · intro j hj
        rcases List.mem_cons.1 hj with rfl | hj
        · exact h4
        · exact h2 j hj

/-- Rows inside the transformed bounds of a dimension decode. -/
theorem Dim.inverse_box_ok {d : Dim F} (hv : ValidDim A d) (hf : DecodesUnit A d) (hg : GoodBounds A d)
    {rows : List (List (Val F))} (h : ∀ r ∈ rows, InBox (d.transformedBounds A) r) :
    ∃ vs, d.inverse A rows = .ok vs := by
  have hnorm : d.tkind = .normalize → d.normalized = d := by
    intro ht
    cases d with
    | real r => obtain ⟨lo, hi, prior, base, tr, nm, c⟩ := r; simp only [Dim.tkind] at ht; subst ht; rfl
    | int r => obtain ⟨lo, hi, prior, base, tr, nm, c⟩ := r; simp only [Dim.tkind] at ht; subst ht; rfl
    | cat r => obtain ⟨cs, prior, tr, nm, c1, c2⟩ := r; simp only [Dim.tkind] at ht; subst ht; rfl
  have hunit : d.tkind = .normalize → d.transformedBounds A = [(A.ofInt 0, A.ofInt 1)] := by
    intro ht
    cases d with
    | real r =>
      obtain ⟨lo, hi, prior, base, tr, nm, c⟩ := r
      simp only [Dim.tkind] at ht; subst ht
      simp [Dim.transformedBounds]
    | int r =>
      obtain ⟨lo, hi, prior, base, tr, nm, c⟩ := r
      simp only [Dim.tkind] at ht; subst ht
      simp [Dim.transformedBounds]
    | cat r =>
      obtain ⟨cs, prior, tr, nm, c1, c2⟩ := r
      simp only [Dim.tkind] at ht; subst ht
      simp [Dim.transformedBounds, Dim.transformedSize]
  by_cases ht : d.tkind = .normalize
  · rw [hunit ht] at h
    obtain ⟨xs, rfl, hx⟩ := singles h
    have := hf xs hx
    rwa [hnorm ht] at this
  · cases d with
    | real r =>
      have hid : r.transform = .identity := by
        rcases hv.2.1 with h | h
        · exact h
        · exact absurd h ht
      obtain ⟨b, hb⟩ : ∃ b, (Dim.real r).transformedBounds A = [b] := by
        simp only [Dim.transformedBounds, hid]
        cases r.prior <;> exact ⟨_, rfl⟩
      rw [hb] at h
      obtain ⟨xs, rfl, -⟩ := singles h
      exact Dim.inverse_identity_ok (d := .real r) (by simp [Dim.isCat]) hid xs
    | int r =>
      obtain ⟨l, u, _, _, _, _, _, htr, _⟩ := hv
      have hid : r.transform = .identity := by
        rcases htr with h | h
        · exact h
        · exact absurd h ht
      obtain ⟨b, hb⟩ : ∃ b, (Dim.int r).transformedBounds A = [b] := by
        simp only [Dim.transformedBounds, hid]
        exact ⟨_, rfl⟩
      rw [hb] at h
      obtain ⟨xs, rfl, -⟩ := singles h
      exact Dim.inverse_identity_ok (d := .int r) (by simp [Dim.isCat]) hid xs
    | cat c =>
      obtain ⟨hne, hnd, hh⟩ := hv
      have hoh : c.transform = .onehot := by
        rcases hg with h | h
        · exact h
        · exact absurd h ht
      have hpos : 0 < c.cats.length := List.length_pos_iff.2 hne
      have hfit := OneHot.fit_nodup hnd hne
      obtain ⟨rs, hrs, hlen⟩ : ∃ rs : List (List F), mapE (mapE Val.toNum) rows = .ok rs ∧
          ∀ r ∈ rs, r.length = if c.cats.length = 2 then 1 else c.cats.length := by
        clear hfit
        induction rows with
        | nil => exact ⟨[], rfl, by simp⟩
        | cons r rows ih =>
          obtain ⟨rs, h1, h2⟩ := ih fun r hr => h r (List.mem_cons_of_mem _ hr)
          obtain ⟨xs, rfl, h3⟩ := (h _ List.mem_cons_self).nums
          refine ⟨xs :: rs, ?_, ?_⟩
          · rw [mapE_cons_ok]
            exact ⟨xs, rs, mapE_toNum_map xs, h1, rfl⟩
          · intro y hy
            rcases List.mem_cons.1 hy with rfl | hy
            · have := h3.length_eq
              simp only [Dim.transformedBounds, List.length_replicate, Dim.transformedSize, hoh] at this
              exact this.symm
            · exact h2 y hy
      obtain ⟨ks, hks, hlt⟩ := unbinarize_ok (A := A) hpos hlen
      have hget : mapE (dictGet (c.cats.zipIdx.map fun p => (p.2, p.1))) ks =
          .ok (ks.map fun i => c.cats.getD i (.obj 0)) := by
        refine mapE_ok_of_forall fun i hi => ?_
        rw [dictGet_swap c.cats (hlt i hi), getD_lt (hlt i hi)]
      have hsub : ∀ v ∈ ks.map (fun i => c.cats.getD i (.obj 0)), v ∈ c.cats := by
        intro v hv
        obtain ⟨i, hi, rfl⟩ := List.mem_map.1 hv
        rw [getD_lt (hlt i hi)]
        exact List.getElem_mem _
      simp only [Dim.inverse, CatDim.inverse, CatDim.transformer, hoh, hfit, ok_bind, Transformer.inverse, hrs,
        OneHot.inverseTransform, hks, hget]
      exact ⟨_, (hh.subset hsub).npArray⟩

theorem Dim.transformedBounds_length {A : Arith F} (d : Dim F) : (d.transformedBounds A).length = d.transformedSize := by
  cases d with
  | real r => simp only [Dim.transformedBounds]; split <;> rfl
  | int r => simp only [Dim.transformedBounds]; split <;> rfl
  | cat c => simp [Dim.transformedBounds]

theorem inverseCols_box_ok {dims : List (Dim F)} (hv : ∀ d ∈ dims, ValidDim A d) (hf : ∀ d ∈ dims, DecodesUnit A d)
    (hg : ∀ d ∈ dims, GoodBounds A d) (pre r : List (Val F))
    (h : InBox (Space.transformedBounds A dims) r) :
    ∃ cols, Space.inverseCols A dims pre.length [pre ++ r] = .ok cols ∧ cols.length = dims.length ∧
      ∀ c ∈ cols, c.length = 1 := by
  induction dims generalizing pre r with
  | nil => exact ⟨[], rfl, rfl, by simp⟩
  | cons d ds ih =>
    have hsplit : Space.transformedBounds A (d :: ds) =
        d.transformedBounds A ++ Space.transformedBounds A ds := rfl
    rw [hsplit] at h
    obtain ⟨r1, r2, h1, h2, rfl⟩ : ∃ r1 r2, InBox (d.transformedBounds A) r1 ∧
        InBox (Space.transformedBounds A ds) r2 ∧ r = r1 ++ r2 := by
      refine ⟨r.take (d.transformedBounds A).length, r.drop (d.transformedBounds A).length, ?_, ?_,
        (List.take_append_drop _ _).symm⟩
      · have := List.forall₂_take (d.transformedBounds A).length h
        rwa [List.take_left] at this
      · have := List.forall₂_drop (d.transformedBounds A).length h
        rwa [List.drop_left] at this
    have hlen : r1.length = d.transformedSize := by
      rw [← Dim.transformedBounds_length (A := A) d]; exact h1.length_eq.symm
    obtain ⟨cs, e1, e2, e3⟩ := ih (fun d hd => hv d (List.mem_cons_of_mem _ hd))
      (fun d hd => hf d (List.mem_cons_of_mem _ hd)) (fun d hd => hg d (List.mem_cons_of_mem _ hd)) (pre ++ r1) r2 h2
    rw [List.append_assoc, List.length_append, hlen] at e1
    have hb : Space.block pre.length d.transformedSize [pre ++ (r1 ++ r2)] = .ok [r1] := by
      unfold Space.block
      split
      · next h1' =>
        rw [h1'] at hlen
        obtain ⟨v, rfl⟩ := List.length_eq_one_iff.1 hlen
        refine mapE_ok_of_forall (g := fun _ => [v]) ?_
        intro q hq
        rw [List.mem_singleton] at hq
        subst hq
        rw [pyGet_lt (by simp)]
        simp
      · simp [← hlen]
    obtain ⟨c, hc⟩ := Dim.inverse_box_ok (hv d List.mem_cons_self) (hf d List.mem_cons_self) (hg d List.mem_cons_self)
      (rows := [r1]) (by simpa using h1)
    refine ⟨c :: cs, ?_, by simp [e2], ?_⟩
    · have e : Space.inverseCols A (d :: ds) pre.length [pre ++ (r1 ++ r2)] = (do
          let b ← Space.block pre.length d.transformedSize [pre ++ (r1 ++ r2)]
          let c ← d.inverse A b
          let cs ← Space.inverseCols A ds (pre.length + d.transformedSize) [pre ++ (r1 ++ r2)]
          .ok (c :: cs)) := rfl
      rw [e, hb, ok_bind, hc, ok_bind, e1, ok_bind]
    · intro x hx
      rcases List.mem_cons.1 hx with rfl | hx
      · have := Dim.inverse_length (hv d List.mem_cons_self) hc (by
          intro h0 q hq
          rw [List.mem_singleton] at hq
          subst hq
          first | exact hlen | (rw [hlen]; exact h0))
        simpa using this
      · exact e3 x hx

/-- A row inside the transformed bounds of the space decodes to a point. -/
theorem inverse_box_ok {dims : List (Dim F)} (hne : dims ≠ []) (hv : ∀ d ∈ dims, ValidDim A d) (hf : ∀ d ∈ dims, DecodesUnit A d)
    (hg : ∀ d ∈ dims, GoodBounds A d) {r : List (Val F)}
    (h : InBox (Space.transformedBounds A dims) r) :
    ∃ p, Space.inverseTransform A dims [r] = .ok [p] := by
  obtain ⟨cols, h1, h2, h3⟩ := inverseCols_box_ok hv hf hg [] r h
  rw [List.length_nil, List.nil_append] at h1
  have hne' : cols ≠ [] := by
    rintro rfl
    exact hne (List.length_eq_zero_iff.1 h2.symm)
  obtain ⟨rows, h4, h5⟩ := transpose_ok hne' h3
  obtain ⟨p, rfl⟩ := List.length_eq_one_iff.1 h5
  refine ⟨p, ?_⟩
  unfold Space.inverseTransform
  rw [h1, ok_bind, if_neg (by simp), h4]

/-- Draws a dimension can use: numbers in the unit interval for a normalized dimension, category indices for
another categorical one. -/
def UsableDraw (A : Arith F) (d : Dim F) (raw : RawDraw F) : Prop :=
  (d.tkind = .normalize → ∀ x ∈ raw.nums, A.ofInt 0 ≤ x ∧ x ≤ A.ofInt 1) ∧
  match d with
  | .cat c => ∀ i ∈ raw.idxs, i < c.cats.length
  | _ => True

theorem Dim.rvs_ok {d : Dim F} (hv : ValidDim A d) (hf : DecodesUnit A d) {raw : RawDraw F} (h : UsableDraw A d raw) :
    ∃ vs, d.rvs A raw = .ok vs := by
  by_cases ht : d.tkind = .normalize
  · have := hf _ (h.1 ht)
    rw [normalized_of_tkind ht] at this
    cases d with
    | real r => exact this
    | int r => exact this
    | cat c =>
      have ht' : c.transform = .normalize := ht
      simp only [Dim.rvs, ht']
      exact this
  · cases d with
    | real r =>
      have hid : (Dim.real r).tkind = .identity := by
        rcases hv.2.1 with h | h
        · exact h
        · exact absurd h ht
      exact Dim.inverse_identity_ok (by simp [Dim.isCat]) hid raw.nums
    | int r =>
      obtain ⟨l, u, _, _, _, _, _, htr, _⟩ := hv
      have hid : (Dim.int r).tkind = .identity := by
        rcases htr with h | h
        · exact h
        · exact absurd h ht
      exact Dim.inverse_identity_ok (by simp [Dim.isCat]) hid raw.nums
    | cat c =>
      have e : (Dim.cat c).rvs A raw = mapE (fun i => pyGet c.cats i) raw.idxs := by
        simp only [Dim.rvs]
        cases hk : c.transform with
        | normalize => exact absurd hk ht
        | _ => rfl
      rw [e]
      exact ⟨_, mapE_ok_of_forall (g := fun i => c.cats.getD i (.obj 0)) fun i hi => by
        rw [pyGet_lt (h.2 i hi), getD_lt (h.2 i hi)]⟩

/-- With usable draws `Space.rvs` returns. -/
theorem Space.rvs_ok {dims : List (Dim F)} (hne : dims ≠ []) (hv : ∀ d ∈ dims, ValidDim A d) (hf : ∀ d ∈ dims, DecodesUnit A d)
    {raws : List (RawDraw F)} {n : Nat} (hn : ∀ r ∈ raws, r.nums.length = n ∧ r.idxs.length = n)
    (h : List.Forall₂ (UsableDraw A) dims raws) : ∃ pts, Space.rvs A dims raws = .ok pts := by
  obtain ⟨cols, h1, h2, h3⟩ : ∃ cols, mapE (fun p => Dim.rvs A p.1 p.2) (dims.zip raws) = .ok cols ∧
      cols.length = dims.length ∧ ∀ c ∈ cols, c.length = n := by
    clear hne
    induction h with
    | nil => exact ⟨[], rfl, rfl, by simp⟩
    | @cons d raw ds rs h1 _ ih =>
      obtain ⟨cols, e1, e2, e3⟩ := ih (fun d hd => hv d (List.mem_cons_of_mem _ hd))
        (fun d hd => hf d (List.mem_cons_of_mem _ hd))
        (fun r hr => hn r (List.mem_cons_of_mem _ hr))
      obtain ⟨vs, hvs⟩ := Dim.rvs_ok (hv d List.mem_cons_self) (hf d List.mem_cons_self) h1
      refine ⟨vs :: cols, ?_, by simp [e2], ?_⟩
      · rw [List.zip_cons_cons, mapE_cons_ok]
        exact ⟨vs, cols, hvs, e1, rfl⟩
      · intro c hc
        rcases List.mem_cons.1 hc with rfl | hc
        · exact Dim.rvs_length (hv d List.mem_cons_self) (hn raw List.mem_cons_self) hvs
        · exact e3 c hc
  have hne' : cols ≠ [] := by
    rintro rfl
    exact hne (List.length_eq_zero_iff.1 h2.symm)
  obtain ⟨rows, h4, -⟩ := transpose_ok hne' h3
  refine ⟨rows, ?_⟩
  unfold Space.rvs
  rw [h1, ok_bind, h4]

/-! ### Floating point -/

section
variable {val : F → ℝ} {u η : ℝ} {N : ℤ}

theorem normalize_unit (h : FloatLike A val u η N) (n : Normalize F) {xs : List F}
    (hx : ∀ x ∈ xs, A.ofInt 0 ≤ x ∧ x ≤ A.ofInt 1) :
    n.inverse A xs = .ok (xs.map fun x => if n.isInt then
        A.ofInt (A.round (A.add (A.mul x (A.sub n.high n.low)) n.low))
      else A.add (A.mul x (A.sub n.high n.low)) n.low) := by
  unfold Normalize.inverse
  rw [if_neg, if_neg]
  · cases n.isInt <;> simp
  · refine any_false fun x hxm => not_lt.2 ?_
    exact (h.sub_le _ _ h.eps_nonneg).trans (hx x hxm).1
  · refine any_false fun x hxm => not_lt.2 ?_
    exact (hx x hxm).2.trans (h.add_ge _ _ h.eps_nonneg)

theorem label_err {x m d q a u η : ℝ} (hx0 : 0 ≤ x) (hx1 : x ≤ 1) (hm : 0 ≤ m) (hu0 : 0 ≤ u) (hu : u ≤ 1 / 1000)
    (hη : η ≤ u) (hfine : u * (14 * (m + 1) + 2) < 1 / 2)
    (e1 : |d - m| ≤ u * |m|) (e2 : |q - x * d| ≤ u * |x * d| + η) (e3 : |a - q| ≤ u * |q|) :
    -(1 / 2) < a ∧ a < m + 1 / 2 := by
  have hum : 0 ≤ u * m := mul_nonneg hu0 hm
  rw [abs_of_nonneg hm] at e1
  have d1 := abs_le.1 e1
  have hd0 : 0 ≤ d := by nlinarith
  have hd2 : d ≤ m + u * m := by linarith
  have hxd : 0 ≤ x * d := mul_nonneg hx0 hd0
  have hxd1 : x * d ≤ m + u * m := le_trans (mul_le_of_le_one_left hd0 hx1) hd2
  rw [abs_of_nonneg hxd] at e2
  have q1 := abs_le.1 e2
  have hux : u * (x * d) ≤ u * (m + u * m) := mul_le_mul_of_nonneg_left hxd1 hu0
  have huu : u * (u * m) ≤ u * m / 1000 := by nlinarith
  have hqa : |q| ≤ m + 3 * (u * m) + u := by
    rw [abs_le]; constructor <;> nlinarith
  have huq : u * |q| ≤ u * (m + 3 * (u * m) + u) := mul_le_mul_of_nonneg_left hqa hu0
  have huu2 : u * u ≤ u / 1000 := by nlinarith
  have a1 := abs_le.1 e3
  have hux0 : 0 ≤ u * (x * d) := mul_nonneg hu0 hxd
  constructor <;> nlinarith

/-- The label a number of the unit interval is decoded to is the position of a category. -/
theorem label_range (h : FloatLike A val u η N) (hA : OrderlyRounding A) {n : ℕ} (hn : 0 < n) (hN : (n : ℤ) ≤ N)
    (hfine : u * (14 * n + 2) < 1 / 2) {x : F} (hx : A.ofInt 0 ≤ x ∧ x ≤ A.ofInt 1) :
    0 ≤ A.round (A.add (A.mul x (A.sub (A.ofInt ((n : ℤ) - 1)) (A.ofInt 0))) (A.ofInt 0)) ∧
      A.round (A.add (A.mul x (A.sub (A.ofInt ((n : ℤ) - 1)) (A.ofInt 0))) (A.ofInt 0)) ≤ (n : ℤ) - 1 := by
  have v1 : val (A.ofInt ((n : ℤ) - 1)) = (((n : ℤ) - 1 : ℤ) : ℝ) := h.ofInt_eq _ (by
    rw [abs_of_nonneg (by omega)]; omega)
  have hm : (0 : ℝ) ≤ (((n : ℤ) - 1 : ℤ) : ℝ) := by exact_mod_cast (by omega : (0 : ℤ) ≤ (n : ℤ) - 1)
  have e1 := h.sub_err (A.ofInt ((n : ℤ) - 1)) (A.ofInt 0)
  rw [v1, h.val_zero, sub_zero] at e1
  have e2 := h.mul_err x (A.sub (A.ofInt ((n : ℤ) - 1)) (A.ofInt 0))
  have e3 := h.add_err (A.mul x (A.sub (A.ofInt ((n : ℤ) - 1)) (A.ofInt 0))) (A.ofInt 0)
  rw [h.val_zero, add_zero] at e3
  have x0 := h.le_iff.2 hx.1
  have x1 := h.le_iff.2 hx.2
  rw [h.val_zero] at x0
  rw [h.val_one] at x1
  have hfine' : u * (14 * ((((n : ℤ) - 1 : ℤ) : ℝ) + 1) + 2) < 1 / 2 := by push_cast; simpa using hfine
  obtain ⟨g1, g2⟩ := label_err x0 x1 hm h.u_nonneg h.u_small h.η_le hfine' e1 e2 e3
  set a := A.add (A.mul x (A.sub (A.ofInt ((n : ℤ) - 1)) (A.ofInt 0))) (A.ofInt 0) with ha
  have r0 : A.round (A.ofInt 0) = 0 := h.round_near _ 0 (by rw [h.val_zero]; norm_num)
  have rn : A.round (A.ofInt ((n : ℤ) - 1)) = (n : ℤ) - 1 := h.round_near _ _ (by rw [v1]; norm_num)
  constructor
  · by_cases hneg : val a < 0
    · rw [h.round_near a 0 (by rw [Int.cast_zero, sub_zero, abs_lt]; constructor <;> linarith)]
    · rw [← r0]
      exact hA.round_mono (h.le_iff.1 (by rw [h.val_zero]; linarith))
  · by_cases hbig : (((n : ℤ) - 1 : ℤ) : ℝ) < val a
    · rw [h.round_near a ((n : ℤ) - 1) (by rw [abs_lt]; constructor <;> linarith)]
    · rw [← rn]
      exact hA.round_mono (h.le_iff.1 (by rw [v1]; linarith))

/-- In floating point, numbers of the unit interval decode. -/
theorem decodesUnit (h : FloatLike A val u η N) (hA : OrderlyRounding A) {d : Dim F} (hv : ValidDim A d)
    (hf : FinePrecision val u η N d) : DecodesUnit A d := by
  intro xs hx
  have hcol : mapE scalarRow (xs.map fun x => [(.num x : Val F)]) = .ok (xs.map .num) := by
    have := scalar_rows_col (xs.map (Val.num : F → Val F))
    rwa [List.map_map] at this
  cases d with
  | real r =>
    simp only [Dim.normalized, Dim.inverse, RealDim.inverse, RealDim.transformer]
    cases r.prior <;>
      simp only [Transformer.inverse, hcol, ok_bind, pipelineInverse, List.reverse_cons,
        List.reverse_nil, List.nil_append, List.cons_append, pipelineInverseLoop, Stage.inverse,
        mapE_toNum_map, mapE_toNum_map_comp, normalize_unit h _ hx] <;> exact ⟨_, rfl⟩
  | int r =>
    simp only [Dim.normalized, Dim.inverse, IntDim.inverse, IntDim.transformer]
    cases r.prior <;>
      simp only [Transformer.inverse, hcol, ok_bind, pipelineInverse, List.reverse_cons,
        List.reverse_nil, List.nil_append, List.cons_append, pipelineInverseLoop, Stage.inverse,
        mapE_toNum_map, mapE_toNum_map_comp, normalize_unit h _ hx] <;> exact ⟨_, rfl⟩
  | cat c =>
    obtain ⟨hne, hnd, hh⟩ := hv
    obtain ⟨hN, hfine⟩ := hf
    have hpos : 0 < c.cats.length := List.length_pos_iff.2 hne
    simp only [Dim.normalized, Dim.inverse, CatDim.inverse, CatDim.transformer,
      LabelEnc.fit_valid A hnd hh, ok_bind, Transformer.inverse, hcol, pipelineInverse,
      List.reverse_cons, List.reverse_nil, List.nil_append, List.cons_append, pipelineInverseLoop,
      Stage.inverse, mapE_toNum_map, normalize_unit h _ hx, if_true]
    set lab : F → ℤ := fun x =>
      A.round (A.add (A.mul x (A.sub (A.ofInt ((c.cats.length : ℤ) - 1)) (A.ofInt 0))) (A.ofInt 0)) with hlab
    have hr : ∀ x ∈ xs, 0 ≤ lab x ∧ lab x ≤ (c.cats.length : ℤ) - 1 := fun x hxm =>
      label_range h hA hpos hN hfine (hx x hxm)
    have hround : ∀ x ∈ xs, A.round (A.ofInt (lab x)) = lab x := fun x hxm => h.round_ofInt (by
      have := hr x hxm
      rw [abs_of_nonneg this.1]; omega)
    have hlen := labelKeys_length hnd
    rw [show LabelEnc.inverseTransform A _ (xs.map fun x => A.ofInt (lab x)) =
        .ok (xs.map fun x => (labelKeys c.cats).getD (lab x).toNat (.obj 0)) by
      unfold LabelEnc.inverseTransform
      rw [mapE_map]
      refine mapE_ok_of_forall fun x hxm => ?_
      have := hr x hxm
      have hlt : (lab x).toNat < (labelKeys c.cats).length := by rw [hlen]; omega
      rw [hround x hxm, if_neg (by omega), dictGet_swap _ hlt, getD_lt hlt]]
    simp only [ok_bind]
    have hsub : ∀ v ∈ xs.map (fun x => (labelKeys c.cats).getD (lab x).toNat (.obj 0)), v ∈ c.cats := by
      intro v hv
      obtain ⟨x, hxm, rfl⟩ := List.mem_map.1 hv
      have := hr x hxm
      have hlt : (lab x).toNat < (labelKeys c.cats).length := by rw [hlen]; omega
      rw [← mem_labelKeys, getD_lt hlt]
      exact List.getElem_mem _
    exact ⟨_, (hh.subset hsub).npArray⟩

end

end Skopt.Rounded

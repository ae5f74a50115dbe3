import Verif.Props.Suggestion

/-! Helper lemmas: under which conditions decoding, sampling and the fit block do not raise. -/

namespace Skopt

variable {M R G : Type}

/-- The row lies in the box: one number per interval, inside it. -/
def InBox (bounds : List (ℝ × ℝ)) (r : List (Val ℝ)) : Prop :=
  List.Forall₂ (fun (b : ℝ × ℝ) v => ∃ x, v = .num x ∧ b.1 ≤ x ∧ x ≤ b.2) bounds r

theorem InBox.nums {bounds : List (ℝ × ℝ)} {r : List (Val ℝ)} (h : InBox bounds r) :
    ∃ xs : List ℝ, r = xs.map Val.num ∧ List.Forall₂ (fun (b : ℝ × ℝ) x => b.1 ≤ x ∧ x ≤ b.2) bounds xs := by
  induction h with
  | nil => exact ⟨[], rfl, .nil⟩
  | cons h1 _ ih =>
    obtain ⟨x, rfl, hx⟩ := h1
    obtain ⟨xs, rfl, hxs⟩ := ih
    exact ⟨x :: xs, rfl, .cons hx hxs⟩

theorem InBox.single {b : ℝ × ℝ} {r : List (Val ℝ)} (h : InBox [b] r) :
    ∃ x, r = [.num x] ∧ b.1 ≤ x ∧ x ≤ b.2 := by
  cases h with
  | cons h1 h2 =>
    cases h2
    obtain ⟨x, rfl, hx⟩ := h1
    exact ⟨x, rfl, hx⟩

theorem singles {b : ℝ × ℝ} {rows : List (List (Val ℝ))} (h : ∀ r ∈ rows, InBox [b] r) :
    ∃ xs : List ℝ, rows = xs.map (fun x => [Val.num x]) ∧ ∀ x ∈ xs, b.1 ≤ x ∧ x ≤ b.2 := by
  induction rows with
  | nil => exact ⟨[], rfl, by simp⟩
  | cons r rows ih =>
    obtain ⟨xs, rfl, hx⟩ := ih fun r hr => h r (List.mem_cons_of_mem _ hr)
    obtain ⟨x, rfl, h1⟩ := (h r List.mem_cons_self).single
    refine ⟨x :: xs, rfl, ?_⟩
    intro y hy
    rcases List.mem_cons.1 hy with rfl | hy
    · exact h1
    · exact hx y hy

/-- Numbers for an identity-transformed numeric dimension always decode. -/
theorem Dim.inverse_identity_ok {d : Dim ℝ} (hd : ¬ d.isCat = true) (ht : d.tkind = .identity) (xs : List ℝ) :
    ∃ vs, d.inverse exact (xs.map fun x => [.num x]) = .ok vs := by
  have hcol : mapE scalarRow (xs.map fun x => [(.num x : Val ℝ)]) = .ok (xs.map .num) := by
    have := scalar_rows_col (xs.map (Val.num : ℝ → Val ℝ))
    rwa [List.map_map] at this
  cases d with
  | real r =>
    obtain ⟨lo, hi, prior, base, tr, nm, c⟩ := r
    simp only [Dim.tkind] at ht
    subst ht
    cases prior <;>
      simp only [Dim.inverse, RealDim.inverse, RealDim.transformer, Transformer.inverse, hcol, ok_bind,
        pipelineInverse, List.reverse_cons, List.reverse_nil, List.nil_append, pipelineInverseLoop,
        Stage.inverse, mapE_toNum_map, mapE_toNum_map_comp] <;> exact ⟨_, rfl⟩
  | int r =>
    obtain ⟨lo, hi, prior, base, tr, nm, c⟩ := r
    simp only [Dim.tkind] at ht
    subst ht
    cases prior <;>
      simp only [Dim.inverse, IntDim.inverse, IntDim.transformer, Transformer.inverse, hcol, ok_bind,
        pipelineInverse, List.reverse_cons, List.reverse_nil, List.nil_append, pipelineInverseLoop,
        Stage.inverse, mapE_toNum_map, mapE_toNum_map_comp] <;> exact ⟨_, rfl⟩
  | cat c => exact absurd rfl hd

theorem unbinarize_ok {n : Nat} (hn : 0 < n) {rows : List (List ℝ)}
    (hr : ∀ r ∈ rows, r.length = if n = 2 then 1 else n) :
    ∃ ks, unbinarize exact (List.range n) rows = .ok ks ∧ ∀ k ∈ ks, k < n := by
  match n, hn with
  | 1, _ =>
    refine ⟨rows.map fun _ => 0, rfl, ?_⟩
    intro k hk
    obtain ⟨_, _, rfl⟩ := List.mem_map.1 hk
    omega
  | 2, _ =>
    have hcs : List.range 2 = [0, 1] := rfl
    rw [hcs]
    simp only [unbinarize]
    have hpick : ∀ y : ℝ, (if exact.half < y then 1 else 0 : Nat) < 2 := fun y => by split <;> omega
    split
    · next hall =>
      refine ⟨rows.map fun r => if exact.half < r.getD 1 0 then 1 else 0, ?_, ?_⟩
      · refine mapE_ok_of_forall fun r hr' => ?_
        have : r.length = 2 := by
          have := List.all_eq_true.1 hall r hr'
          simpa using this
        rw [pyGet_lt (by omega), ok_bind, getD_lt (by omega)]
      · intro k hk
        obtain ⟨r, _, rfl⟩ := List.mem_map.1 hk
        exact hpick _
    · refine ⟨_, rfl, ?_⟩
      intro k hk
      obtain ⟨y, _, rfl⟩ := List.mem_map.1 hk
      exact hpick _
  | n + 3, _ =>
    have hcs : List.range (n + 3) = 0 :: 1 :: 2 :: (List.range n).map (· + 3) := by
      rw [show n + 3 = 3 + n by omega, List.range_add]
      simp [List.range_succ, Nat.add_comm]
    have hform : unbinarize exact (List.range (n + 3)) rows = mapE (fun r => do
        let k ← npArgmax r
        pyGet (List.range (n + 3)) (min k ((List.range (n + 3)).length - 1))) rows := by
      rw [hcs]; rfl
    rw [hform]
    have hdef : ∀ r ∈ rows, ∃ k, (do
        let k ← npArgmax r
        pyGet (List.range (n + 3)) (min k ((List.range (n + 3)).length - 1))) = .ok k ∧ k < n + 3 := by
      intro r hr'
      obtain ⟨k, hk⟩ := npArgmax_ok (xs := r) (by
        rintro rfl
        have := hr _ hr'
        simp at this)
      refine ⟨min k (n + 2), ?_, by omega⟩
      rw [hk, ok_bind, pyGet_lt (by simp)]
      simp
    clear hr hform
    induction rows with
    | nil => exact ⟨[], rfl, by simp⟩
    | cons r rows ih =>
      obtain ⟨ks, h1, h2⟩ := ih fun r hr => hdef r (List.mem_cons_of_mem _ hr)
      obtain ⟨k, h3, h4⟩ := hdef r List.mem_cons_self
      refine ⟨k :: ks, ?_, ?_⟩
      · rw [mapE_cons_ok]
        exact ⟨k, ks, h3, h1, rfl⟩
      · intro j hj
        rcases List.mem_cons.1 hj with rfl | hj
        · exact h4
        · exact h2 j hj

/-- Rows inside the transformed bounds of a dimension decode. -/
theorem Dim.inverse_box_ok {d : Dim ℝ} (hv : ValidDim exact d) (hg : GoodBounds exact d)
    {rows : List (List (Val ℝ))} (h : ∀ r ∈ rows, InBox (d.transformedBounds exact) r) :
    ∃ vs, d.inverse exact rows = .ok vs := by
  have hnorm : d.tkind = .normalize → d.normalized = d := by
    intro ht
    cases d with
    | real r => obtain ⟨lo, hi, prior, base, tr, nm, c⟩ := r; simp only [Dim.tkind] at ht; subst ht; rfl
    | int r => obtain ⟨lo, hi, prior, base, tr, nm, c⟩ := r; simp only [Dim.tkind] at ht; subst ht; rfl
    | cat r => obtain ⟨cs, prior, tr, nm, c1, c2⟩ := r; simp only [Dim.tkind] at ht; subst ht; rfl
  have hunit : d.tkind = .normalize → d.transformedBounds exact = [(0, 1)] := by
    intro ht
    cases d with
    | real r =>
      obtain ⟨lo, hi, prior, base, tr, nm, c⟩ := r
      simp only [Dim.tkind] at ht; subst ht
      simp [Dim.transformedBounds, exact]
    | int r =>
      obtain ⟨lo, hi, prior, base, tr, nm, c⟩ := r
      simp only [Dim.tkind] at ht; subst ht
      simp [Dim.transformedBounds, exact]
    | cat r =>
      obtain ⟨cs, prior, tr, nm, c1, c2⟩ := r
      simp only [Dim.tkind] at ht; subst ht
      simp [Dim.transformedBounds, exact, Dim.transformedSize]
  by_cases ht : d.tkind = .normalize
  · rw [hunit ht] at h
    obtain ⟨xs, rfl, hx⟩ := singles h
    have := Dim.inverse_unit_ok hv (xs := xs) hx
    rwa [hnorm ht] at this
  · cases d with
    | real r =>
      have hid : r.transform = .identity := by
        rcases hv.2.1 with h | h
        · exact h
        · exact absurd h ht
      obtain ⟨b, hb⟩ : ∃ b, (Dim.real r).transformedBounds exact = [b] := by
        simp only [Dim.transformedBounds, hid]
        cases r.prior <;> exact ⟨_, rfl⟩
      rw [hb] at h
      obtain ⟨xs, rfl, -⟩ := singles h
      exact Dim.inverse_identity_ok (d := .real r) (by simp [Dim.isCat]) hid xs
    | int r =>
      obtain ⟨l, u, _, _, _, _, _, htr, _⟩ := hv
      have hid : r.transform = .identity := by
        rcases htr with h | h
        · exact h
        · exact absurd h ht
      obtain ⟨b, hb⟩ : ∃ b, (Dim.int r).transformedBounds exact = [b] := by
        simp only [Dim.transformedBounds, hid]
        exact ⟨_, rfl⟩
      rw [hb] at h
      obtain ⟨xs, rfl, -⟩ := singles h
      exact Dim.inverse_identity_ok (d := .int r) (by simp [Dim.isCat]) hid xs
    | cat c =>
      obtain ⟨hne, hnd, hh⟩ := hv
      have hoh : c.transform = .onehot := by
        rcases hg with h | h
        · exact h
        · exact absurd h ht
      have hpos : 0 < c.cats.length := List.length_pos_iff.2 hne
      have hfit := OneHot.fit_nodup hnd hne
      obtain ⟨rs, hrs, hlen⟩ : ∃ rs : List (List ℝ), mapE (mapE Val.toNum) rows = .ok rs ∧
          ∀ r ∈ rs, r.length = if c.cats.length = 2 then 1 else c.cats.length := by
        clear hfit
        induction rows with
        | nil => exact ⟨[], rfl, by simp⟩
        | cons r rows ih =>
          obtain ⟨rs, h1, h2⟩ := ih fun r hr => h r (List.mem_cons_of_mem _ hr)
          obtain ⟨xs, rfl, h3⟩ := (h _ List.mem_cons_self).nums
          refine ⟨xs :: rs, ?_, ?_⟩
          · rw [mapE_cons_ok]
            exact ⟨xs, rs, mapE_toNum_map xs, h1, rfl⟩
          · intro y hy
            rcases List.mem_cons.1 hy with rfl | hy
            · have := h3.length_eq
              simp only [Dim.transformedBounds, List.length_replicate, Dim.transformedSize, hoh] at this
              exact this.symm
            · exact h2 y hy
      obtain ⟨ks, hks, hlt⟩ := unbinarize_ok hpos hlen
      have hget : mapE (dictGet (c.cats.zipIdx.map fun p => (p.2, p.1))) ks =
          .ok (ks.map fun i => c.cats.getD i (.obj 0)) := by
        refine mapE_ok_of_forall fun i hi => ?_
        rw [dictGet_swap c.cats (hlt i hi), getD_lt (hlt i hi)]
      have hsub : ∀ v ∈ ks.map (fun i => c.cats.getD i (.obj 0)), v ∈ c.cats := by
        intro v hv
        obtain ⟨i, hi, rfl⟩ := List.mem_map.1 hv
        rw [getD_lt (hlt i hi)]
        exact List.getElem_mem _
      simp only [Dim.inverse, CatDim.inverse, CatDim.transformer, hoh, hfit, ok_bind, Transformer.inverse, hrs,
        OneHot.inverseTransform, hks, hget]
      exact ⟨_, (hh.subset hsub).npArray⟩

theorem Dim.transformedBounds_length (d : Dim ℝ) : (d.transformedBounds exact).length = d.transformedSize := by
  cases d with
  | real r => simp only [Dim.transformedBounds]; split <;> rfl
  | int r => simp only [Dim.transformedBounds]; split <;> rfl
  | cat c => simp [Dim.transformedBounds]

theorem inverseCols_box_ok {dims : List (Dim ℝ)} (hv : ∀ d ∈ dims, ValidDim exact d)
    (hg : ∀ d ∈ dims, GoodBounds exact d) (pre r : List (Val ℝ))
    (h : InBox (Space.transformedBounds exact dims) r) :
    ∃ cols, Space.inverseCols exact dims pre.length [pre ++ r] = .ok cols ∧ cols.length = dims.length ∧
      ∀ c ∈ cols, c.length = 1 := by
  induction dims generalizing pre r with
  | nil => exact ⟨[], rfl, rfl, by simp⟩
  | cons d ds ih =>
    have hsplit : Space.transformedBounds exact (d :: ds) =
        d.transformedBounds exact ++ Space.transformedBounds exact ds := rfl
    rw [hsplit] at h
    obtain ⟨r1, r2, h1, h2, rfl⟩ : ∃ r1 r2, InBox (d.transformedBounds exact) r1 ∧
        InBox (Space.transformedBounds exact ds) r2 ∧ r = r1 ++ r2 := by
      refine ⟨r.take (d.transformedBounds exact).length, r.drop (d.transformedBounds exact).length, ?_, ?_,
        (List.take_append_drop _ _).symm⟩
      · have := List.forall₂_take (d.transformedBounds exact).length h
        rwa [List.take_left] at this
      · have := List.forall₂_drop (d.transformedBounds exact).length h
        rwa [List.drop_left] at this
    have hlen : r1.length = d.transformedSize := by
      rw [← d.transformedBounds_length]; exact h1.length_eq.symm
    obtain ⟨cs, e1, e2, e3⟩ := ih (fun d hd => hv d (List.mem_cons_of_mem _ hd))
      (fun d hd => hg d (List.mem_cons_of_mem _ hd)) (pre ++ r1) r2 h2
    rw [List.append_assoc, List.length_append, hlen] at e1
    have hb : Space.block pre.length d.transformedSize [pre ++ (r1 ++ r2)] = .ok [r1] := by
      unfold Space.block
      split
      · next h1' =>
        rw [h1'] at hlen
        obtain ⟨v, rfl⟩ := List.length_eq_one_iff.1 hlen
        refine mapE_ok_of_forall (g := fun _ => [v]) ?_
        intro q hq
        rw [List.mem_singleton] at hq
        subst hq
        rw [pyGet_lt (by simp)]
        simp
      · simp [← hlen]
    obtain ⟨c, hc⟩ := Dim.inverse_box_ok (hv d List.mem_cons_self) (hg d List.mem_cons_self)
      (rows := [r1]) (by simpa using h1)
    refine ⟨c :: cs, ?_, by simp [e2], ?_⟩
    · have e : Space.inverseCols exact (d :: ds) pre.length [pre ++ (r1 ++ r2)] = (do
          let b ← Space.block pre.length d.transformedSize [pre ++ (r1 ++ r2)]
          let c ← d.inverse exact b
          let cs ← Space.inverseCols exact ds (pre.length + d.transformedSize) [pre ++ (r1 ++ r2)]
          .ok (c :: cs)) := rfl
      rw [e, hb, ok_bind, hc, ok_bind, e1, ok_bind]
    · intro x hx
      rcases List.mem_cons.1 hx with rfl | hx
      · have := Dim.inverse_length (hv d List.mem_cons_self) hc (by
          intro h0 q hq
          rw [List.mem_singleton] at hq
          subst hq
          first | exact hlen | (rw [hlen]; exact h0))
        simpa using this
      · exact e3 x hx

/-- A row inside the transformed bounds of the space decodes to a point. -/
theorem inverse_box_ok {dims : List (Dim ℝ)} (hne : dims ≠ []) (hv : ∀ d ∈ dims, ValidDim exact d)
    (hg : ∀ d ∈ dims, GoodBounds exact d) {r : List (Val ℝ)}
    (h : InBox (Space.transformedBounds exact dims) r) :
    ∃ p, Space.inverseTransform exact dims [r] = .ok [p] := by
  obtain ⟨cols, h1, h2, h3⟩ := inverseCols_box_ok hv hg [] r h
  rw [List.length_nil, List.nil_append] at h1
  have hne' : cols ≠ [] := by
    rintro rfl
    exact hne (List.length_eq_zero_iff.1 h2.symm)
  obtain ⟨rows, h4, h5⟩ := transpose_ok hne' h3
  obtain ⟨p, rfl⟩ := List.length_eq_one_iff.1 h5
  refine ⟨p, ?_⟩
  unfold Space.inverseTransform
  rw [h1, ok_bind, if_neg (by simp), h4]

/-- Draws a dimension can use: numbers in the unit interval for a normalized dimension, category indices for
another categorical one. -/
def UsableDraw (d : Dim ℝ) (raw : RawDraw ℝ) : Prop :=
  (d.tkind = .normalize → ∀ x ∈ raw.nums, 0 ≤ x ∧ x ≤ 1) ∧
  match d with
  | .cat c => ∀ i ∈ raw.idxs, i < c.cats.length
  | _ => True

theorem Dim.normalized_of_tkind {d : Dim ℝ} (ht : d.tkind = .normalize) : d.normalized = d := by
  cases d with
  | real r => obtain ⟨lo, hi, prior, base, tr, nm, c⟩ := r; simp only [Dim.tkind] at ht; subst ht; rfl
  | int r => obtain ⟨lo, hi, prior, base, tr, nm, c⟩ := r; simp only [Dim.tkind] at ht; subst ht; rfl
  | cat r => obtain ⟨cs, prior, tr, nm, c1, c2⟩ := r; simp only [Dim.tkind] at ht; subst ht; rfl

theorem Dim.rvs_ok {d : Dim ℝ} (hv : ValidDim exact d) {raw : RawDraw ℝ} (h : UsableDraw d raw) :
    ∃ vs, d.rvs exact raw = .ok vs := by
  by_cases ht : d.tkind = .normalize
  · have := Dim.inverse_unit_ok hv (h.1 ht)
    rw [Dim.normalized_of_tkind ht] at this
    cases d with
    | real r => exact this
    | int r => exact this
    | cat c =>
      have ht' : c.transform = .normalize := ht
      simp only [Dim.rvs, ht']
      exact this
  · cases d with
    | real r =>
      have hid : (Dim.real r).tkind = .identity := by
        rcases hv.2.1 with h | h
        · exact h
        · exact absurd h ht
      exact Dim.inverse_identity_ok (by simp [Dim.isCat]) hid raw.nums
    | int r =>
      obtain ⟨l, u, _, _, _, _, _, htr, _⟩ := hv
      have hid : (Dim.int r).tkind = .identity := by
        rcases htr with h | h
        · exact h
        · exact absurd h ht
      exact Dim.inverse_identity_ok (by simp [Dim.isCat]) hid raw.nums
    | cat c =>
      have e : (Dim.cat c).rvs exact raw = mapE (fun i => pyGet c.cats i) raw.idxs := by
        simp only [Dim.rvs]
        cases hk : c.transform with
        | normalize => exact absurd hk ht
        | _ => rfl
      rw [e]
      exact ⟨_, mapE_ok_of_forall (g := fun i => c.cats.getD i (.obj 0)) fun i hi => by
        rw [pyGet_lt (h.2 i hi), getD_lt (h.2 i hi)]⟩

/-- With usable draws `Space.rvs` returns. -/
theorem Space.rvs_ok {dims : List (Dim ℝ)} (hne : dims ≠ []) (hv : ∀ d ∈ dims, ValidDim exact d)
    {raws : List (RawDraw ℝ)} {n : Nat} (hn : ∀ r ∈ raws, r.nums.length = n ∧ r.idxs.length = n)
    (h : List.Forall₂ UsableDraw dims raws) : ∃ pts, Space.rvs exact dims raws = .ok pts := by
  obtain ⟨cols, h1, h2, h3⟩ : ∃ cols, mapE (fun p => Dim.rvs exact p.1 p.2) (dims.zip raws) = .ok cols ∧
      cols.length = dims.length ∧ ∀ c ∈ cols, c.length = n := by
    clear hne
    induction h with
    | nil => exact ⟨[], rfl, rfl, by simp⟩
    | @cons d raw ds rs h1 _ ih =>
      obtain ⟨cols, e1, e2, e3⟩ := ih (fun d hd => hv d (List.mem_cons_of_mem _ hd))
        (fun r hr => hn r (List.mem_cons_of_mem _ hr))
      obtain ⟨vs, hvs⟩ := Dim.rvs_ok (hv d List.mem_cons_self) h1
      refine ⟨vs :: cols, ?_, by simp [e2], ?_⟩
      · rw [List.zip_cons_cons, mapE_cons_ok]
        exact ⟨vs, cols, hvs, e1, rfl⟩
      · intro c hc
        rcases List.mem_cons.1 hc with rfl | hc
        · exact Dim.rvs_length (hv d List.mem_cons_self) (hn raw List.mem_cons_self) hvs
        · exact e3 c hc
  have hne' : cols ≠ [] := by
    rintro rfl
    exact hne (List.length_eq_zero_iff.1 h2.symm)
  obtain ⟨rows, h4, -⟩ := transpose_ok hne' h3
  refine ⟨rows, ?_⟩
  unfold Space.rvs
  rw [h1, ok_bind, h4]

end Skopt

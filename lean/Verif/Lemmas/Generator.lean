import Verif.Model.Halton
import Verif.Lemmas.RoundTrip
import Verif.Props.SpaceMembership

/-!
# Lemmas shared by all initial point generators
-/

namespace Skopt

variable {F : Type}

theorem getD_lt {α : Type*} {l : List α} {i : Nat} {d : α} (h : i < l.length) :
    l.getD i d = l[i] := by
  simp [List.getD, List.getElem?_eq_getElem h]

/-- The transform of the dimension is one that its constructor accepts. -/
def HasLegalTransform : Dim F → Prop
  | .real d => d.transform = .identity ∨ d.transform = .normalize
  | .int d => d.transform = .identity ∨ d.transform = .normalize
  | .cat _ => True

/-- The dimension with its transform replaced by `normalize`. -/
def Dim.normalized : Dim F → Dim F
  | .real d => .real { d with transform := .normalize }
  | .int d => .int { d with transform := .normalize }
  | .cat d => .cat { d with transform := .normalize }

theorem setTransformer_normalize (dims : List (Dim F)) :
    Space.setTransformer dims .normalize = .ok (dims.map Dim.normalized) :=
  mapE_ok_of_forall fun d _ => by cases d <;> rfl

theorem restore_one {d : Dim F} (h : HasLegalTransform d) :
    d.normalized.setTransformer d.tkind = .ok d := by
  cases d with
  | real r =>
    obtain ⟨lo, hi, pr, b, tr, nm, c⟩ := r
    rcases h with h | h <;> (simp only at h; subst h; rfl)
  | int r =>
    obtain ⟨lo, hi, pr, b, tr, nm, c⟩ := r
    rcases h with h | h <;> (simp only at h; subst h; rfl)
  | cat c => rfl

theorem restore_all {dims : List (Dim F)} (h : ∀ d ∈ dims, HasLegalTransform d) :
    Space.setTransformers (dims.map Dim.normalized) (Space.getTransformer dims) = .ok dims := by
  induction dims with
  | nil => rfl
  | cons d ds ih =>
    have e : Space.setTransformers ((d :: ds).map Dim.normalized)
        (Space.getTransformer (d :: ds)) = (do
          let d' ← d.normalized.setTransformer d.tkind
          let ds' ← Space.setTransformers (ds.map Dim.normalized) (Space.getTransformer ds)
          .ok (d' :: ds')) := rfl
    rw [e, restore_one (h d (by simp)), ok_bind, ih fun x hx => h x (by simp [hx]), ok_bind]

/-- The outcome of the common frame: the points are those of the body, run on the normalized
dimensions; the dimensions are restored exactly if the body returns. -/
theorem withNormalized_eq {dims : List (Dim F)} (h : ∀ d ∈ dims, HasLegalTransform d)
    (body : List (Dim F) → Except PyErr (List (Point F))) :
    withNormalized dims body =
      match body (dims.map Dim.normalized) with
      | .ok pts => (dims, .ok pts)
      | .error e => (dims.map Dim.normalized, .error e) := by
  unfold withNormalized
  simp only [setTransformer_normalize]
  cases body (dims.map Dim.normalized) with
  | error e => rfl
  | ok pts => simp only [restore_all h]

theorem withNormalized_snd (dims : List (Dim F)) (h : ∀ d ∈ dims, HasLegalTransform d)
    (body : List (Dim F) → Except PyErr (List (Point F))) :
    (withNormalized dims body).2 = body (dims.map Dim.normalized) := by
  rw [withNormalized_eq h]
  cases body (dims.map Dim.normalized) <;> rfl

theorem withNormalized_restores (dims : List (Dim F)) (h : ∀ d ∈ dims, HasLegalTransform d)
    (body : List (Dim F) → Except PyErr (List (Point F))) {pts : List (Point F)}
    (hok : (withNormalized dims body).2 = .ok pts) : (withNormalized dims body).1 = dims := by
  rw [withNormalized_eq h] at hok ⊢
  cases hb : body (dims.map Dim.normalized) with
  | ok p => rfl
  | error e => rw [hb] at hok; simp at hok

theorem ValidDim.legalTransform [LinearOrder F] {A : Arith F} {d : Dim F} (h : ValidDim A d) :
    HasLegalTransform d := by
  cases d with
  | real r => exact h.2.1
  | int r => obtain ⟨_, _, _, _, _, _, _, h, _⟩ := h; exact h
  | cat c => trivial

theorem ValidDim.normalized [LinearOrder F] {A : Arith F} {d : Dim F} (h : ValidDim A d) :
    ValidDim A d.normalized := by
  cases d with
  | real r => exact ⟨h.1, Or.inr rfl, h.2.2⟩
  | int r =>
    obtain ⟨l, u, h1, h2, h3, h4, h5, _, h7⟩ := h
    exact ⟨l, u, h1, h2, h3, h4, h5, Or.inr rfl, h7⟩
  | cat c => exact h

theorem decoding_normalized (d : Dim F) : Decoding d.normalized := by
  cases d with
  | real r => trivial
  | int r => trivial
  | cat c => exact Or.inr (Or.inr rfl)

theorem legal_normalized [LinearOrder F] {A : Arith F} {d : Dim F} {v : Val F} :
    Legal A d.normalized v ↔ Legal A d v := by
  cases d <;> rfl

theorem inSpace_normalized [LinearOrder F] {A : Arith F} {dims : List (Dim F)} {p : Point F} :
    InSpace A (dims.map Dim.normalized) p ↔ InSpace A dims p := by
  unfold InSpace
  rw [List.forall₂_map_left_iff]
  constructor <;> intro h <;> exact h.imp fun _ _ h => by simpa [legal_normalized] using h

/-- Mapping a unit-cube matrix into the space gives one in-space point per row, however the
arithmetic rounds. -/
theorem unit_points_in_space [LinearOrder F] {A : Arith F} (hA : OrderlyRounding A)
    {dims : List (Dim F)} (hv : ∀ d ∈ dims, ValidDim A d) {M : List (List F)}
    {pts : List (Point F)}
    (h : Space.inverseTransform A (dims.map Dim.normalized) (numRows M) = .ok pts) :
    pts.length = M.length ∧ ∀ p ∈ pts, InSpace A dims p := by
  have := C01_inverse_transform_in_space_partial A hA (dims.map Dim.normalized)
    (by
      intro d hd
      obtain ⟨d', hd', rfl⟩ := List.mem_map.1 hd
      exact (hv d' hd').normalized)
    (by
      intro d hd
      obtain ⟨d', _, rfl⟩ := List.mem_map.1 hd
      exact decoding_normalized d')
    (numRows M) pts h
  refine ⟨by simpa [numRows] using this.1, fun p hp => inSpace_normalized.1 (this.2 p hp)⟩

theorem transformedSize_normalized (d : Dim F) : d.normalized.transformedSize = 1 := by
  cases d <;> rfl

/-- In exact arithmetic a column of unit-interval numbers decodes without error. -/
theorem Dim.inverse_unit_ok {d : Dim ℝ} (hv : ValidDim exact d) {xs : List ℝ}
    (hx : ∀ x ∈ xs, 0 ≤ x ∧ x ≤ 1) :
    ∃ vs, d.normalized.inverse exact (xs.map fun x => [.num x]) = .ok vs := by
  have hcol : mapE scalarRow (xs.map fun x => [(.num x : Val ℝ)]) = .ok (xs.map .num) := by
    have := scalar_rows_col (xs.map (Val.num : ℝ → Val ℝ))
    rwa [List.map_map] at this
  cases d with
  | real r =>
    simp only [Dim.normalized, Dim.inverse, RealDim.inverse, RealDim.transformer]
    cases r.prior with
    | uniform =>
      simp only [Transformer.inverse, hcol, ok_bind, pipelineInverse, List.reverse_cons,
        List.reverse_nil, List.nil_append, List.cons_append, pipelineInverseLoop, Stage.inverse,
        mapE_toNum_map, normalize_inverse_of_unit false hx]
      exact ⟨_, rfl⟩
    | logUniform =>
      simp only [Transformer.inverse, hcol, ok_bind, pipelineInverse, List.reverse_cons,
        List.reverse_nil, List.nil_append, List.cons_append, pipelineInverseLoop, Stage.inverse,
        mapE_toNum_map, mapE_toNum_map_comp, normalize_inverse_of_unit false hx]
      exact ⟨_, rfl⟩
  | int r =>
    simp only [Dim.normalized, Dim.inverse, IntDim.inverse, IntDim.transformer]
    cases r.prior with
    | uniform =>
      simp only [Transformer.inverse, hcol, ok_bind, pipelineInverse, List.reverse_cons,
        List.reverse_nil, List.nil_append, List.cons_append, pipelineInverseLoop, Stage.inverse,
        mapE_toNum_map, normalize_inverse_of_unit true hx]
      exact ⟨_, rfl⟩
    | logUniform =>
      simp only [Transformer.inverse, hcol, ok_bind, pipelineInverse, List.reverse_cons,
        List.reverse_nil, List.nil_append, List.cons_append, pipelineInverseLoop, Stage.inverse,
        mapE_toNum_map, mapE_toNum_map_comp, normalize_inverse_of_unit false hx]
      exact ⟨_, rfl⟩
  | cat c =>
    obtain ⟨hne, hnd, hh⟩ := hv
    have hpos : 0 < c.cats.length := List.length_pos_iff.2 hne
    simp only [Dim.normalized, Dim.inverse, CatDim.inverse, CatDim.transformer,
      LabelEnc.fit_valid exact hnd hh, ok_bind, Transformer.inverse, hcol, pipelineInverse,
      List.reverse_cons, List.reverse_nil, List.nil_append, List.cons_append, pipelineInverseLoop,
      Stage.inverse, mapE_toNum_map, normalize_inverse_of_unit true hx]
    -- the rounded labels are positions of categories
    have hround : ∀ x ∈ xs, 0 ≤ roundHalfEven (x * (((c.cats.length : ℤ) - 1 : ℤ) : ℝ)) ∧
        roundHalfEven (x * (((c.cats.length : ℤ) - 1 : ℤ) : ℝ)) ≤ (c.cats.length : ℤ) - 1 := by
      intro x hxm
      have hn : (0 : ℝ) ≤ (((c.cats.length : ℤ) - 1 : ℤ) : ℝ) := by
        exact_mod_cast (by omega : (0 : ℤ) ≤ (c.cats.length : ℤ) - 1)
      constructor
      · have := roundHalfEven_mono (mul_nonneg (hx x hxm).1 hn)
        have h0 := roundHalfEven_intCast (K := ℝ) 0
        rw [Int.cast_zero] at h0
        rwa [h0] at this
      · have := roundHalfEven_mono (mul_le_of_le_one_left hn (hx x hxm).2)
        rwa [roundHalfEven_intCast] at this
    have hdec := LabelEnc.decode_near hnd hh (LabelEnc.fit_valid exact hnd hh)
      (is := xs.map fun x => (roundHalfEven (x * (((c.cats.length : ℤ) - 1 : ℤ) : ℝ))).toNat)
      (xs := xs.map fun x : ℝ => ((roundHalfEven (x * (((c.cats.length : ℤ) - 1 : ℤ) : ℝ)) : ℤ) : ℝ))
      (by
        intro i hi
        obtain ⟨x, hxm, rfl⟩ := List.mem_map.1 hi
        have := hround x hxm
        omega)
      (by
        rw [List.forall₂_map_left_iff, List.forall₂_map_right_iff]
        refine List.forall₂_same.2 fun x hxm => ?_
        have h1 : ((roundHalfEven (x * (((c.cats.length : ℤ) - 1 : ℤ) : ℝ))).toNat : ℤ) =
            roundHalfEven (x * (((c.cats.length : ℤ) - 1 : ℤ) : ℝ)) :=
          Int.toNat_of_nonneg (hround x hxm).1
        have h2 : (((roundHalfEven (x * (((c.cats.length : ℤ) - 1 : ℤ) : ℝ))).toNat : ℤ) : ℝ) =
            ((roundHalfEven (x * (((c.cats.length : ℤ) - 1 : ℤ) : ℝ)) : ℤ) : ℝ) := by rw [h1]
        rw [Int.cast_natCast] at h2
        rw [h2]
        norm_num)
    have harg : (xs.map fun u => if True then
          ((roundHalfEven (u * (exact.ofInt ((c.cats.length : ℤ) - 1) - exact.ofInt 0) +
            exact.ofInt 0) : ℤ) : ℝ)
        else u * (exact.ofInt ((c.cats.length : ℤ) - 1) - exact.ofInt 0) + exact.ofInt 0) =
        xs.map fun x : ℝ =>
          ((roundHalfEven (x * (((c.cats.length : ℤ) - 1 : ℤ) : ℝ)) : ℤ) : ℝ) := by
      refine List.map_congr_left fun x _ => ?_
      simp [exact]
    rw [harg, hdec]
    simp only [ok_bind]
    have hsub : ∀ v ∈ ((xs.map fun x => (roundHalfEven (x *
        (((c.cats.length : ℤ) - 1 : ℤ) : ℝ))).toNat).map
          fun i => (labelKeys c.cats).getD i (.obj 0)), v ∈ c.cats := by
      intro v hv
      rw [List.map_map] at hv
      obtain ⟨x, hxm, rfl⟩ := List.mem_map.1 hv
      have hlt : (roundHalfEven (x * (((c.cats.length : ℤ) - 1 : ℤ) : ℝ))).toNat <
          (labelKeys c.cats).length := by
        rw [labelKeys_length hnd]
        have := hround x hxm
        omega
      rw [← mem_labelKeys]
      show (labelKeys c.cats).getD _ _ ∈ _
      rw [getD_lt hlt]
      exact List.getElem_mem _
    exact ⟨_, (hh.subset hsub).npArray⟩

/-- In exact arithmetic a non-empty rectangular matrix of unit-interval numbers is mapped into the
space without error. -/
theorem unit_inverse_ok {dims : List (Dim ℝ)} (hd : dims ≠ []) (hv : ∀ d ∈ dims, ValidDim exact d)
    {M : List (List ℝ)} (hM : M ≠ []) (hw : ∀ r ∈ M, r.length = dims.length)
    (hu : ∀ r ∈ M, ∀ x ∈ r, 0 ≤ x ∧ x ≤ 1) :
    ∃ pts, Space.inverseTransform exact (dims.map Dim.normalized) (numRows M) = .ok pts ∧
      pts.length = M.length ∧ ∀ p ∈ pts, InSpace exact dims p := by
  have hcols : ∀ (ds : List (Dim ℝ)) (start : Nat), (∀ d ∈ ds, ValidDim exact d) →
      (∀ r ∈ M, start + ds.length ≤ r.length) →
      ∃ cols, Space.inverseCols exact (ds.map Dim.normalized) start (numRows M) = .ok cols ∧
        cols.length = ds.length ∧ ∀ c ∈ cols, c.length = M.length := by
    intro ds
    induction ds with
    | nil => intro start _ _; exact ⟨[], rfl, rfl, by simp⟩
    | cons d ds ih =>
      intro start hv hlen
      obtain ⟨cs, hcs, hcl, hcn⟩ := ih (start + 1) (fun x hx => hv x (by simp [hx]))
        (fun r hr => by have := hlen r hr; simp only [List.length_cons] at this; omega)
      have hb : Space.block start 1 (numRows M) =
          .ok ((M.map fun r => r.getD start 0).map fun x => [(.num x : Val ℝ)]) := by
        unfold Space.block numRows
        rw [if_pos rfl, mapE_map, List.map_map]
        refine mapE_ok_of_forall fun r hr => ?_
        have := hlen r hr
        simp only [List.length_cons] at this
        rw [pyGet_lt (by simp; omega)]
        simp only [ok_bind, List.getElem_map, Function.comp_apply]
        rw [getD_lt (by omega)]
      obtain ⟨vs, hvs⟩ := Dim.inverse_unit_ok (hv d (by simp)) (xs := M.map fun r => r.getD start 0)
        (by
          intro x hx
          obtain ⟨r, hr, rfl⟩ := List.mem_map.1 hx
          have := hlen r hr
          simp only [List.length_cons] at this
          rw [getD_lt (by omega)]
          exact hu r hr _ (List.getElem_mem _))
      refine ⟨vs :: cs, ?_, by simp [hcl], ?_⟩
      · have e : Space.inverseCols exact ((d :: ds).map Dim.normalized) start (numRows M) = (do
            let b ← Space.block start d.normalized.transformedSize (numRows M)
            let c ← d.normalized.inverse exact b
            let cs ← Space.inverseCols exact (ds.map Dim.normalized)
              (start + d.normalized.transformedSize) (numRows M)
            .ok (c :: cs)) := rfl
        rw [e, transformedSize_normalized, hb, ok_bind, hvs, ok_bind, hcs, ok_bind]
      · intro c hc
        rcases List.mem_cons.1 hc with rfl | hc
        · have := Dim.inverse_length (hv d (by simp)).normalized hvs (by
            intro _ r hr
            obtain ⟨x, _, rfl⟩ := List.mem_map.1 hr
            rfl)
          simpa using this
        · exact hcn c hc
  obtain ⟨cols, h1, h2, h3⟩ := hcols dims 0 hv (fun r hr => by rw [hw r hr]; omega)
  have hne : cols ≠ [] := by
    intro h
    rw [h] at h2
    exact hd (List.length_eq_zero_iff.1 h2.symm)
  obtain ⟨rows, hr, hrl⟩ := transpose_ok hne h3
  have hinv : Space.inverseTransform exact (dims.map Dim.normalized) (numRows M) = .ok rows := by
    unfold Space.inverseTransform
    rw [h1, ok_bind, if_neg, hr]
    cases M with
    | nil => exact absurd rfl hM
    | cons a b => simp [numRows]
  exact ⟨rows, hinv, unit_points_in_space exact_orderly hv hinv⟩

end Skopt

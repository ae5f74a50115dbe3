import Verif.Lemmas.Layout
import Verif.Lemmas.Pointwise

/-!
# The encoding of a single point, coordinate by coordinate
-/

namespace Skopt

variable {F : Type}

theorem Dim.transform_noStr_within [LinearOrder F] {A : Arith F} {d : Dim F} (hy : YieldsNoStr d)
    {col : List (Val F)} (hcol : ∀ v ∈ col, Within d v) {b : List (List (Val F))}
    (h : d.transform A col = .ok b) : ∀ r ∈ b, ∀ v ∈ r, v.isStr = false := by
  cases d with
  | real r => exact Dim.transform_noStr hy hcol h
  | cat c => exact Dim.transform_noStr hy hcol h
  | int r =>
    simp only [Dim.transform, bind_eq_ok] at h
    obtain ⟨t, ht, h⟩ := h
    simp only [Dim.transformer, Except.ok.injEq] at ht
    have hp : ∃ ss, r.transformer A = .pipeline ss ∧ ∀ s ∈ ss, ∀ f g, s ≠ .string f g := by
      unfold IntDim.transformer; simp only; split <;> exact ⟨_, rfl, by simp⟩
    obtain ⟨ss, hs, hss⟩ := hp
    rw [← ht, hs] at h
    refine pipeline_block_noStr h hss (Or.inl fun v hv => ?_)
    obtain ⟨x, rfl, _⟩ := hcol v hv
    rfl

/-- The encoding of a dimension works value by value also for fractional values of an `Integer`. -/
theorem Dim.transform_elementwise_within [LinearOrder F] (A : Arith F) (d : Dim F) (hd : ValidDim A d) :
    ∃ g, Elementwise (Within d) (d.transform A) g := by
  cases d with
  | real r => exact Dim.transform_elementwise A _ hd
  | cat c => exact Dim.transform_elementwise A _ hd
  | int r =>
    have hp : ∃ ss, r.transformer A = .pipeline ss ∧ ∀ s ∈ ss, ∀ e, s ≠ .label e := by
      unfold IntDim.transformer; simp only; split <;> exact ⟨_, rfl, by simp⟩
    obtain ⟨ss, hs, hl⟩ := hp
    obtain ⟨g, hg⟩ := pipelineTransform_elementwise A ss hl
    obtain ⟨g', hg'⟩ := pipeline_elementwise A hg
    refine ⟨g', ?_⟩
    have : Dim.transform A (.int r) = (Transformer.pipeline ss).transform A := by
      funext X; simp only [Dim.transform, Dim.transformer, ok_bind, hs]
    rw [this]; exact hg'.mono fun _ _ => trivial

theorem columns_single {n : Nat} {p : Point F} (hp : p.length = n) :
    Space.columns n [p] = .ok (p.map fun v => [v]) := by
  rw [columns_ok (X := [p]) (by simpa using hp)]
  congr 1
  refine List.ext_getElem (by simp [hp]) fun i h1 h2 => ?_
  simp only [List.length_map] at h2
  simp [List.getD_eq_getElem?_getD, List.getElem?_eq_getElem h2]

theorem glue_singletons {α : Type} (parts : List (List α)) :
    (parts.map fun t => [t]).foldr Space.glue (List.replicate 1 []) = [parts.flatten] := by
  induction parts with
  | nil => rfl
  | cons t ts ih => rw [List.map_cons, List.foldr_cons, ih]; simp [Space.glue]

/-- The encodings of the coordinates of `p`, one after the other. -/
def Parts [LinearOrder F] (A : Arith F) (dims : List (Dim F)) (p : Point F) (parts : List (List (Val F))) : Prop :=
  List.Forall₂ (fun (dv : Dim F × Val F) t => dv.1.transform A [dv.2] = .ok [t]) (dims.zip p) parts

theorem transform_one_iff [LinearOrder F] {A : Arith F} {dims : List (Dim F)} (hne : dims ≠ [])
    (hv : ∀ d ∈ dims, ValidDim A d) (hs : ∀ d ∈ dims, YieldsNoStr d) {p : Point F}
    (hp : List.Forall₂ Within dims p) (r : List (Val F)) :
    Space.transform A dims [p] = .ok [r] ↔ ∃ parts, Parts A dims p parts ∧ r = parts.flatten := by
  have hlen : p.length = dims.length := hp.length_eq.symm
  have hemp : (([p] : List (Point F)).isEmpty || dims.isEmpty) = false := by simp [hne]
  have hz : dims.zip (p.map fun v => [v]) = (dims.zip p).map fun dv => (dv.1, [dv.2]) := by
    rw [List.zip_map_right]; rfl
  have hshape : ∀ blocks, mapE (fun q : Dim F × List (Val F) => Dim.transform A q.1 q.2)
      (dims.zip (p.map fun v => [v])) = .ok blocks →
      ∃ parts, blocks = parts.map (fun t => [t]) ∧ Parts A dims p parts ∧
        ∀ b ∈ blocks, ∀ r ∈ b, ∀ v ∈ r, v.isStr = false := by
    intro blocks h
    rw [hz, mapE_map, mapE_eq_ok] at h
    clear hz hemp hne
    induction hp generalizing blocks with
    | nil =>
      cases h
      exact ⟨[], rfl, .nil, by simp⟩
    | @cons d v ds vs h1 h2 ih =>
      rw [List.zip_cons_cons] at h
      cases h with
      | @cons _ b _ bs h3 h4 =>
        obtain ⟨parts, rfl, e2, e3⟩ := ih (fun d hd => hv d (List.mem_cons_of_mem _ hd))
          (fun d hd => hs d (List.mem_cons_of_mem _ hd)) h2.length_eq.symm bs h4
        obtain ⟨s1, -⟩ := Dim.transform_shape (hv d List.mem_cons_self) h3
        obtain ⟨t, rfl⟩ := List.length_eq_one_iff.1 s1
        refine ⟨t :: parts, rfl, .cons h3 e2, ?_⟩
        intro b hb
        rcases List.mem_cons.1 hb with rfl | hb
        · exact Dim.transform_noStr_within (hs d List.mem_cons_self) (by simpa using h1) h3
        · exact e3 b hb
  simp only [Space.transform, columns_single hlen, ok_bind, bind_eq_ok, hemp, Bool.false_eq_true, if_false,
    Except.ok.injEq]
  constructor
  · rintro ⟨blocks, h1, h2⟩
    obtain ⟨parts, rfl, e2, e3⟩ := hshape blocks h1
    rw [hstack_homog (Or.inl e3)] at h2
    rw [List.length_singleton, glue_singletons] at h2
    exact ⟨parts, e2, (List.cons.inj h2).1.symm⟩
  · rintro ⟨parts, h1, rfl⟩
    have h2 : mapE (fun q : Dim F × List (Val F) => Dim.transform A q.1 q.2)
        (dims.zip (p.map fun v => [v])) = .ok (parts.map fun t => [t]) := by
      rw [hz, mapE_map, mapE_eq_ok, List.forall₂_map_right_iff]
      exact h1
    refine ⟨_, h2, ?_⟩
    obtain ⟨_, _, _, e3⟩ := hshape _ h2
    rw [hstack_homog (Or.inl e3), List.length_singleton, glue_singletons]

/-- Widths of the parts. -/
theorem Parts.width [LinearOrder F] {A : Arith F} {dims : List (Dim F)} (hv : ∀ d ∈ dims, ValidDim A d) {p : Point F}
    (hp : p.length = dims.length) {parts : List (List (Val F))} (h : Parts A dims p parts) :
    parts.map List.length = dims.map Dim.transformedSize := by
  unfold Parts at h
  induction dims generalizing p parts with
  | nil => cases h; rfl
  | cons d ds ih =>
    cases p with
    | nil => simp at hp
    | cons v vs =>
      rw [List.zip_cons_cons] at h
      cases h with
      | @cons _ t _ ts h1 h2 =>
        have := (Dim.transform_shape (hv d List.mem_cons_self) h1).2 t (by simp)
        rw [List.map_cons, List.map_cons, this,
          ih (fun d hd => hv d (List.mem_cons_of_mem _ hd)) (by simpa using hp) h2]

/-- Replacing one coordinate replaces its part. -/
theorem Parts.set [LinearOrder F] {A : Arith F} {dims : List (Dim F)} {p : Point F} {parts : List (List (Val F))}
    (h : Parts A dims p parts) {i : Nat} {d : Dim F} (hd : dims[i]? = some d) {v : Val F} {t : List (Val F)}
    (ht : d.transform A [v] = .ok [t]) : Parts A dims (p.set i v) (parts.set i t) := by
  unfold Parts at h ⊢
  rw [List.forall₂_iff_get] at h ⊢
  refine ⟨by simpa using h.1, fun k h1 h2 => ?_⟩
  simp only [List.get_eq_getElem, List.getElem_zip, List.getElem_set] at h ⊢
  by_cases hk : i = k
  · subst hk
    have hlt : i < dims.length := by simp at h1; omega
    rw [List.getElem?_eq_getElem hlt] at hd
    simp only [if_true]
    rw [Option.some.inj hd]
    exact ht
  · simp only [hk, if_false]
    exact h.2 k (by simpa using h1) (by simpa using h2)

end Skopt

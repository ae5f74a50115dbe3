import Verif.Lemmas.RoundTrip
import Mathlib.Data.List.GetD

/-!
# C17: label encoding of categories of several types
-/

namespace Skopt

variable {F : Type}

theorem npArray_object (A : Arith F) {xs : List (Val F)} (hseq : ∀ w ∈ xs, w.isSeq = false) (h : ∃ v ∈ xs, v.isObj = true) :
    npArray A xs = .ok xs := by
  have ho : xs.any Val.isObj = true := by
    rw [List.any_eq_true]; exact h
  unfold npArray
  rw [if_neg]
  · congr 1
    conv_rhs => rw [← List.map_id xs]
    exact List.map_congr_left fun v _ => by simp only [promote, ho, if_true, id]
  · simp only [List.any_eq_true, not_exists, not_and]
    intro w hw
    simp [hseq w hw]

/-- **C17 for categories of several types.** If one of the categories is neither a number nor a string (`None`, say), then
strings and numbers may be mixed: encoding a batch gives the positions of the values in the list of categories, and the
labels of any batch are decoded to it, provided that the batch contains a value that is neither a number nor a string.

Missing: batches without such a value, for which numpy converts the numbers to strings
(`C17_refuted_mixed_batch`). -/
theorem C17_mixed_labels_partial (cats : List (Val ℝ)) (hnd : cats.Nodup) (hseq : ∀ v ∈ cats, v.isSeq = false)
    (hobj : ∃ v ∈ cats, v.isObj = true) :
    ∃ e, LabelEnc.fit exact cats = .ok e ∧
      ∀ is : List Nat, (∀ i ∈ is, i < cats.length) → (∃ i ∈ is, ∃ v, cats[i]? = some v ∧ v.isObj = true) →
        e.transform exact (is.map fun i => cats.getD i (.obj 0)) = .ok (is.map fun i : Nat => .num (i : ℝ)) ∧
        e.inverseTransform exact (is.map fun i : Nat => (i : ℝ)) = .ok (is.map fun i => cats.getD i (.obj 0)) := by
  have ho : isObjectDtype cats = true := by
    unfold isObjectDtype
    rw [List.any_eq_true]; exact hobj
  refine ⟨{ mapping := cats.zipIdx, inverse := cats.zipIdx.map fun p => (p.2, p.1) }, ?_, ?_⟩
  · simp only [LabelEnc.fit, npArray_object exact hseq hobj, ok_bind, ho, if_true, dictOf_zipIdx hnd, dictOf_swap]
  intro is his hio
  constructor
  · have hb : npArray exact (is.map fun i => cats.getD i (.obj 0)) = .ok (is.map fun i => cats.getD i (.obj 0)) := by
      refine npArray_object exact ?_ ?_
      · intro w hw
        obtain ⟨i, hi, rfl⟩ := List.mem_map.1 hw
        rw [List.getD_eq_getElem _ _ (his i hi)]
        exact hseq _ (List.getElem_mem _)
      · obtain ⟨i, hi, v, hv, hvo⟩ := hio
        refine ⟨_, List.mem_map.2 ⟨i, hi, rfl⟩, ?_⟩
        rw [List.getD_eq_getElem?_getD, hv]
        exact hvo
    simp only [LabelEnc.transform, hb, ok_bind]
    rw [mapE_map]
    refine mapE_ok_of_forall fun i hi => ?_
    rw [List.getD_eq_getElem _ _ (his i hi), dictGet_zipIdx hnd (his i hi), ok_bind]
    rfl
  · unfold LabelEnc.inverseTransform
    rw [mapE_map]
    refine mapE_ok_of_forall fun i hi => ?_
    have hr : exact.round (i : ℝ) = (i : ℤ) := by exact_mod_cast roundHalfEven_intCast (K := ℝ) i
    rw [hr, if_neg (by omega), Int.toNat_natCast, dictGet_swap _ (his i hi), List.getD_eq_getElem _ _ (his i hi)]

/-- Encoding the batch `['a', 1]` with the categories `[None, 'a', 1]` raises `KeyError`: without `None` in the batch, numpy
makes the number 1 the string '1', which is not a category. -/
theorem C17_refuted_mixed_batch :
    ∃ e, LabelEnc.fit ratArith [.obj 0, .str "a", .num 1] = .ok e ∧
      e.transform ratArith [.obj 0, .str "a", .num 1] = .ok [.num 0, .num 1, .num 2] ∧
      e.transform ratArith [.str "a", .num 1] = .error .keyError ∧
      e.transform ratArith [.num 1] = .ok [.num 2] := by
  refine ⟨_, rfl, ?_⟩
  decide +kernel

example : ([.obj 0, .str "a", .num 1] : List (Val ℝ)).Nodup ∧
    (∀ v ∈ ([.obj 0, .str "a", .num 1] : List (Val ℝ)), v.isSeq = false) ∧
    ∃ v ∈ ([.obj 0, .str "a", .num 1] : List (Val ℝ)), v.isObj = true := by
  refine ⟨by simp, by simp [Val.isSeq], .obj 0, by simp, rfl⟩

end Skopt

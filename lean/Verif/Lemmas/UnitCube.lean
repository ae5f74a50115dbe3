import Verif.Lemmas.HaltonRun
import Verif.Lemmas.Pointwise
import Verif.Props.Pointwise

/-!
# Unit-cube points in a space of uniform `Real` dimensions
-/

namespace Skopt

/-- A uniform `Real` dimension of Python floats with proper bounds. -/
def PlainReal (d : RealDim ℝ) : Prop :=
  d.low < d.high ∧ d.prior = .uniform ∧ d.cast = id ∧ (d.transform = .identity ∨ d.transform = .normalize)

theorem PlainReal.valid {d : RealDim ℝ} (h : PlainReal d) : ValidDim exact (.real d) := by
  obtain ⟨h1, h2, h3, h4⟩ := h
  refine ⟨h1, h4, fun x a b => ?_⟩
  rw [h3]; exact ⟨a, b⟩

/-- The point of the space that belongs to a point of the unit cube. -/
def cubePoint (ds : List (RealDim ℝ)) (r : List ℝ) : List ℝ :=
  List.zipWith (fun d u => u * (d.high - d.low) + d.low) ds r

theorem PlainReal.inverse {d : RealDim ℝ} (h : PlainReal d) {u : ℝ} (hu : 0 ≤ u ∧ u ≤ 1) :
    (Dim.real d).normalized.inverse exact [[.num u]] = .ok [.num (u * (d.high - d.low) + d.low)] := by
  obtain ⟨h1, h2, h3, -⟩ := h
  have hn := normalize_inverse_of_unit (lo := d.low) (hi := d.high) false (us := [u]) (by simpa using hu)
  have hcol : mapE scalarRow [[(.num u : Val ℝ)]] = .ok [.num u] := scalar_rows_col [(.num u : Val ℝ)]
  have htn : mapE Val.toNum [(.num u : Val ℝ)] = .ok [u] := mapE_toNum_map [u]
  have htn2 : mapE Val.toNum [(.num (u * (d.high - d.low) + d.low) : Val ℝ)] =
    .ok [u * (d.high - d.low) + d.low] := mapE_toNum_map [_]
  have e1 : d.low ≤ u * (d.high - d.low) + d.low := by nlinarith
  have e2 : u * (d.high - d.low) + d.low ≤ d.high := by nlinarith
  simp only [Dim.normalized, Dim.inverse, RealDim.inverse, RealDim.transformer, h2, Transformer.inverse, hcol,
    ok_bind, pipelineInverse, List.reverse_cons, List.reverse_nil, List.nil_append, List.cons_append,
    pipelineInverseLoop, Stage.inverse, htn, hn]
  simp only [List.map_cons, List.map_nil, Bool.false_eq_true, if_false, htn2, ok_bind, h3, id]
  have : npClip d.low d.high (u * (d.high - d.low) + d.low) = u * (d.high - d.low) + d.low := by
    unfold npClip
    rw [max_eq_left e1, min_eq_left e2]
  rw [this]

theorem inverseCols_cube : ∀ (ds : List (RealDim ℝ)) (pre r : List ℝ), (∀ d ∈ ds, PlainReal d) →
    r.length = ds.length → (∀ x ∈ r, 0 ≤ x ∧ x ≤ 1) →
    Space.inverseCols exact ((ds.map Dim.real).map Dim.normalized) pre.length [(pre ++ r).map Val.num] =
      .ok ((cubePoint ds r).map fun x => [.num x])
  | [], _, r, _, hl, _ => by
      have : r = [] := List.length_eq_zero_iff.1 (by simpa using hl)
      subst this
      rfl
  | d :: ds, pre, r, hd, hl, hu => by
      cases r with
      | nil => simp at hl
      | cons u r =>
        have hb : Space.block (F := ℝ) pre.length 1 [(pre ++ u :: r).map Val.num] = .ok [[.num u]] := by
          have hg : pyGet ((pre ++ u :: r).map (Val.num : ℝ → Val ℝ)) pre.length = .ok (.num u) := by
            rw [pyGet_lt (by simp)]
            simp
          unfold Space.block
          rw [if_pos rfl]
          simp only [mapE, hg, ok_bind]
        have ih := inverseCols_cube ds (pre ++ [u]) r (fun x hx => hd x (by simp [hx])) (by simpa using hl)
          (fun x hx => hu x (by simp [hx]))
        have hpre : pre ++ [u] ++ r = pre ++ u :: r := by simp
        rw [hpre, List.length_append, List.length_singleton] at ih
        have e : Space.inverseCols exact (((d :: ds).map Dim.real).map Dim.normalized) pre.length
            [(pre ++ u :: r).map Val.num] = (do
              let b ← Space.block pre.length 1 [(pre ++ u :: r).map Val.num]
              let c ← (Dim.real d).normalized.inverse exact b
              let cs ← Space.inverseCols exact ((ds.map Dim.real).map Dim.normalized)
                (pre.length + 1) [(pre ++ u :: r).map Val.num]
              .ok (c :: cs)) := rfl
        rw [e, hb, ok_bind, (hd d (by simp)).inverse (hu u (by simp)), ok_bind, ih, ok_bind]
        rfl

/-- Unit-cube points become points of a space of uniform `Real` dimensions by an affine map. -/
theorem inverse_cube {ds : List (RealDim ℝ)} (hne : ds ≠ []) (hd : ∀ d ∈ ds, PlainReal d)
    {M : List (List ℝ)} (hM : M ≠ []) (hl : ∀ r ∈ M, r.length = ds.length)
    (hu : ∀ r ∈ M, ∀ x ∈ r, 0 ≤ x ∧ x ≤ 1) :
    Space.inverseTransform exact ((ds.map Dim.real).map Dim.normalized) (numRows M) =
      .ok (M.map fun r => (cubePoint ds r).map Val.num) := by
  have hval : ∀ d ∈ (ds.map Dim.real).map Dim.normalized, ValidDim exact d := by
    intro d h
    obtain ⟨d', h', rfl⟩ := List.mem_map.1 h
    obtain ⟨d'', h'', rfl⟩ := List.mem_map.1 h'
    exact (hd d'' h'').valid.normalized
  refine (C67_inverse_pointwise_partial exact _ (by simpa using hne) hval ?_ _ (by simpa [numRows] using hM) _).2 ?_
  · intro c hc
    obtain ⟨d', h', e⟩ := List.mem_map.1 hc
    obtain ⟨d'', h'', rfl⟩ := List.mem_map.1 h'
    cases e
  · unfold numRows
    rw [List.forall₂_map_left_iff, List.forall₂_map_right_iff, List.forall₂_same]
    intro r hr
    have h := inverseCols_cube ds [] r hd (hl r hr) (hu r hr)
    simp only [List.nil_append, List.length_nil] at h
    unfold Space.inverseTransform
    rw [h, ok_bind]
    simp only [List.isEmpty_cons, Bool.false_and, Bool.false_eq_true, if_false]
    have hcl : cubePoint ds r ≠ [] := by
      have := congrArg List.length (show cubePoint ds r = cubePoint ds r from rfl)
      intro h0
      have hlen : (cubePoint ds r).length = ds.length := by simp [cubePoint, hl r hr]
      rw [h0] at hlen
      exact hne (List.length_eq_zero_iff.1 hlen.symm)
    generalize cubePoint ds r = xs at hcl
    cases xs with
    | nil => exact absurd rfl hcl
    | cons x xs =>
      have hcols : ∀ xs : List ℝ, mapE (fun col => pyGet col 0) (xs.map fun x => [(.num x : Val ℝ)]) =
          .ok (xs.map Val.num) := fun xs => by
        rw [mapE_map]
        exact mapE_ok_of_forall fun x _ => rfl
      have e : transposeListArray ((x :: xs).map fun x => [(.num x : Val ℝ)]) =
          mapE (fun i => mapE (fun col => pyGet col i) ((x :: xs).map fun x => [(.num x : Val ℝ)])) [0] := rfl
      rw [e]
      exact mapE_ok_of_forall (g := fun _ => (x :: xs).map Val.num) fun i hi => by rw [List.mem_singleton.1 hi]; exact hcols _

end Skopt

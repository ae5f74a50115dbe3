import Verif.Lemmas.Pointwise
import Verif.Props.SpaceRoundTrip

/-!
# C67: encoding and decoding a batch is encoding and decoding its points one by one
-/

namespace Skopt

variable {F : Type}

theorem mapE_singleton {α β : Type} {f : α → Except PyErr β} {x : α} {y : β} :
    mapE f [x] = .ok [y] ↔ f x = .ok y := by
  rw [mapE_cons_ok]
  constructor
  · rintro ⟨z, zs, h1, _, h3⟩
    injection h3 with h3 _
    rw [h3]; exact h1
  · intro h
    exact ⟨y, [], h, rfl, rfl⟩

/-- **C67** for `Space.transform`, for every arithmetic.  Missing for the full property: spaces whose encoded
columns mix strings and numbers (`C67_refuted_mixed`).  Encoding a batch succeeds exactly if every point can
be encoded alone, and its rows are those of the points alone. -/
theorem C67_transform_pointwise_partial [LinearOrder F] (A : Arith F) (dims : List (Dim F)) (hne : dims ≠ [])
    (hv : ∀ d ∈ dims, ValidDim A d) (hmix : (∀ d ∈ dims, YieldsNoStr d) ∨ (∀ d ∈ dims, YieldsNoNum d))
    (X : List (Point F)) (hX : X ≠ []) (hin : ∀ p ∈ X, InSpace A dims p) (M : List (List (Val F))) :
    Space.transform A dims X = .ok M ↔
      List.Forall₂ (fun p r => Space.transform A dims [p] = .ok [r]) X M := by
  obtain ⟨f, hf⟩ := transform_rowwise A dims hne hv hmix
  rw [hf X M hX hin, mapE_eq_ok]
  have key : ∀ p ∈ X, ∀ r, f p = .ok r ↔ Space.transform A dims [p] = .ok [r] := fun p hp r => by
    rw [hf [p] [r] (by simp) (by simpa using hin p hp), mapE_singleton]
  rw [List.forall₂_iff_get, List.forall₂_iff_get]
  exact and_congr Iff.rfl (forall_congr' fun i => forall_congr' fun h1 => forall_congr' fun h2 =>
    key _ (List.get_mem _ _) _)

/-- **C67** for `Space.inverse_transform`, for every arithmetic.  Missing for the full property: categories
decoded by the `string` transform. -/
theorem C67_inverse_pointwise_partial [LinearOrder F] (A : Arith F) (dims : List (Dim F)) (hne : dims ≠ [])
    (hv : ∀ d ∈ dims, ValidDim A d) (hs : ∀ c, Dim.cat c ∈ dims → c.transform ≠ .string)
    (Xt : List (List (Val F))) (hX : Xt ≠ []) (X : List (Point F)) :
    Space.inverseTransform A dims Xt = .ok X ↔
      List.Forall₂ (fun r p => Space.inverseTransform A dims [r] = .ok [p]) Xt X := by
  obtain ⟨f, hf⟩ := inverseTransform_rowwise A dims hne hv hs
  rw [hf Xt X hX, mapE_eq_ok]
  have key : ∀ r p, f r = .ok p ↔ Space.inverseTransform A dims [r] = .ok [p] := fun r p => by
    rw [hf [r] [p] (by simp), mapE_singleton]
  simp only [key]

/-- Non-vacuity of C67: a space with a numeric, an integer, a one-hot and a label dimension, encoded and
decoded in a batch of two. -/
example : ∃ M, Space.transform exact exDimsR exPointsR = .ok M ∧
    List.Forall₂ (fun p r => Space.transform exact exDimsR [p] = .ok [r]) exPointsR M ∧
    List.Forall₂ (fun r p => Space.inverseTransform exact exDimsR [r] = .ok [p]) M exPointsR := by
  have hm : ∀ d ∈ exDimsR, YieldsNoStr d := by
    intro d hd
    simp only [exDimsR, List.mem_cons, List.not_mem_nil, or_false] at hd
    rcases hd with rfl | rfl | rfl | rfl | rfl | rfl <;> simp [YieldsNoStr]
  obtain ⟨M, h1, h2⟩ := C02_round_trip_partial exDimsR (by simp [exDimsR]) exDimsR_valid exDimsR_invertible
    (Or.inl hm) exPointsR (by simp [exPointsR]) exPointsR_in (by
      intro p hp
      simp only [exPointsR, List.mem_cons, List.not_mem_nil, or_false] at hp
      rcases hp with rfl | rfl <;>
        exact .cons rfl (.cons trivial (.cons trivial (.cons trivial (.cons trivial
          (.cons trivial .nil))))))
  refine ⟨M, h1, (C67_transform_pointwise_partial exact exDimsR (by simp [exDimsR]) exDimsR_valid (Or.inl hm)
    exPointsR (by simp [exPointsR]) exPointsR_in M).1 h1,
    (C67_inverse_pointwise_partial exact exDimsR (by simp [exDimsR]) exDimsR_valid ?_ M ?_ exPointsR).1 h2⟩
  · intro c hc
    simp only [exDimsR, List.mem_cons, List.not_mem_nil, or_false, reduceCtorEq, false_or, Dim.cat.injEq] at hc
    rcases hc with rfl | rfl | rfl <;> simp
  · rintro rfl
    have := C67_transform_pointwise_partial exact exDimsR (by simp [exDimsR]) exDimsR_valid (Or.inl hm)
      exPointsR (by simp [exPointsR]) exPointsR_in []
    rw [h1] at this
    have := (this.1 rfl).length_eq
    simp [exPointsR] at this

/-- **C67 is false for categories that mix numbers and strings**: the number 1 is encoded as a number alone,
but as a string when some other point of the batch has a string. -/
theorem C67_refuted_mixed :
    ∃ d : Dim ℚ, mkCat [.num 1, .str "a"] none (some .identity) none (fun _ => "") (fun s => .ok (.str s)) = .ok d ∧
      Space.transform ratArith [d] [[.num 1]] = .ok [[.num 1]] ∧
      Space.transform ratArith [d] [[.num 1], [.str "a"]] = .ok [[.str "1/1"], [.str "a"]] := by
  refine ⟨_, rfl, by decide +kernel, by decide +kernel⟩

end Skopt

import Verif.Props.Suggestion
import Verif.Props.SpaceOps
import Verif.Props.OptimizerAsk

/-!
# C62, C89: what is suggested lies within the transformed bounds, and these are those of the transforms in force
-/

namespace Skopt

variable {F M R G : Type}

section
variable [LinearOrder F]

theorem clipRow_inside {bounds : List (F × F)} {r row : List (Val F)} (hb : ∀ b ∈ bounds, b.1 ≤ b.2)
    (h : clipRow bounds r = .ok row) :
    List.Forall₂ (fun (b : F × F) v => ∃ x, v = .num x ∧ b.1 ≤ x ∧ x ≤ b.2) bounds row := by
  unfold clipRow at h
  split at h
  · cases h
  · next hlen =>
    obtain ⟨xs, hxs, h2⟩ := bind_eq_ok.1 h
    injection h2 with h2
    subst h2
    have hl : xs.length = bounds.length := by
      rw [mapE_length hxs]
      exact not_not.1 hlen
    clear hxs hlen h
    induction bounds generalizing xs with
    | nil => simp
    | cons b bs ih =>
      cases xs with
      | nil => simp at hl
      | cons x xs =>
        obtain ⟨h1, h2⟩ := npClip_mem (hb b List.mem_cons_self) x
        exact .cons ⟨_, rfl, h1, h2⟩ (ih (fun b' hb' => hb b' (List.mem_cons_of_mem _ hb')) xs (by simpa using hl))

/-- **C62.** In a space with at least one dimension that is not categorical the suggestion stored by a `tell` that fitted
a surrogate is decoded from a row within the transformed bounds – whatever the surrogate, the acquisition function and
the minimiser (which may return a row outside) do, and in any arithmetic. -/
theorem C62_suggestion_within_bounds (A : Arith F) (W : World F M R G) (dims : List (Dim F))
    (hc : ∃ d ∈ dims, d.isCat = false) (hb : ∀ b ∈ Space.transformedBounds A dims, b.1 ≤ b.2) (s : Opt F M R)
    (hest : s.cfg.hasEst = true) (x : XArg F) (y : YArg F) (res : Result F M)
    (h : (tell A W dims s x y true).2 = .ok res) (hn : (tell A W dims s x y true).1.nInit ≤ 0) :
    ∃ row p ps, List.Forall₂ (fun (b : F × F) v => ∃ x, v = .num x ∧ b.1 ≤ x ∧ x ≤ b.2)
        (Space.transformedBounds A dims) row ∧
      Space.inverseTransform A dims [row] = .ok (p :: ps) ∧ (tell A W dims s x y true).1.nextX = some p := by
  obtain ⟨est, s', h1, -, -, -⟩ := tell_suggests hest h hn
  obtain ⟨pts, X, yOpt, cand, r, r', row, ps, p, -, -, -, -, g5, g6, g7, g8⟩ := suggest_ok h1
  have hcat : Space.isCategorical dims = false := by
    obtain ⟨d, hd, hdc⟩ := hc
    unfold Space.isCategorical
    rw [Bool.eq_false_iff]
    intro hall
    rw [List.all_eq_true] at hall
    rw [hall d hd] at hdc
    cases hdc
  obtain ⟨q, hq⟩ := proposeOne_clipped hcat g5
  cases ps with
  | nil => simp [pyGet] at g7
  | cons p' ps =>
    simp only [pyGet, List.getElem?_cons_zero, Except.ok.injEq] at g7
    subst g7
    exact ⟨row, p', ps, clipRow_inside hb hq, g6, g8⟩

theorem setTransformer_bounds (A : Arith F) (o : DimObj F) (s : String) (h : (o.setTransformer s).2 = none) :
    (o.setTransformer s).1.transformedBounds A = (o.setTransformer s).1.dim.transformedBounds A := by
  obtain ⟨d, lab⟩ := o
  cases d with
  | real r =>
    simp only [DimObj.setTransformer, Dim.kindOfName] at h ⊢
    by_cases h1 : s = "normalize"
    · subst h1
      simp [DimObj.transformedBounds, Dim.install, Dim.transformedBounds]
    · by_cases h2 : s = "identity"
      · subst h2
        cases hp : r.prior <;> simp [DimObj.transformedBounds, Dim.install, Dim.transformedBounds, hp]
      · simp [h1, h2] at h
  | int r =>
    simp only [DimObj.setTransformer, Dim.kindOfName] at h ⊢
    by_cases h1 : s = "normalize"
    · subst h1
      simp [DimObj.transformedBounds, Dim.install, Dim.transformedBounds]
    · by_cases h2 : s = "identity"
      · subst h2
        simp [DimObj.transformedBounds, Dim.install, Dim.transformedBounds]
      · simp [h1, h2] at h
  | cat c =>
    simp only [DimObj.setTransformer, Dim.kindOfName] at h ⊢
    by_cases h1 : s = "identity"
    · subst h1
      simp [DimObj.transformedBounds, Dim.install, Dim.transformedBounds, Dim.transformedSize]
    · by_cases h2 : s = "onehot"
      · subst h2
        simp [DimObj.transformedBounds, Dim.install, Dim.transformedBounds, Dim.transformedSize]
      · by_cases h3 : s = "string"
        · subst h3
          simp [DimObj.transformedBounds, Dim.install, Dim.transformedBounds, Dim.transformedSize]
        · by_cases h4 : s = "normalize"
          · subst h4
            simp [DimObj.transformedBounds, Dim.install, Dim.transformedBounds, Dim.transformedSize]
          · by_cases h5 : s = "label"
            · subst h5
              simp [DimObj.transformedBounds, Dim.install, Dim.transformedBounds, Dim.transformedSize]
            · simp [h1, h2, h3, h4, h5] at h

/-- **C89.** After a call of `set_transformer` that returns, the bounds reported by `transformed_bounds` (which depend on
`transform_`) are those of the encodings that `transform` now computes (which depend on the installed transformers). -/
theorem C89_bounds_agree (A : Arith F) (os : List (DimObj F)) (arg : TransformArg)
    (h : (SpaceObj.setTransformer os arg).2 = none) :
    SpaceObj.transformedBounds A (SpaceObj.setTransformer os arg).1 =
      Space.transformedBounds A ((SpaceObj.setTransformer os arg).1.map DimObj.dim) := by
  have key : ∀ os' : List (DimObj F), (∀ o ∈ os', o.transformedBounds A = o.dim.transformedBounds A) →
      SpaceObj.transformedBounds A os' = Space.transformedBounds A (os'.map DimObj.dim) := by
    intro os' h
    unfold SpaceObj.transformedBounds Space.transformedBounds
    rw [List.flatMap_map]
    exact List.flatMap_congr h
  apply key
  cases arg with
  | one s =>
    simp only [SpaceObj.setTransformer] at h ⊢
    induction os with
    | nil => simp [SpaceObj.setWhere]
    | cons o os ih =>
      simp only [SpaceObj.setWhere, if_true] at h ⊢
      have hb := setTransformer_bounds A o s
      generalize o.setTransformer s = q at h hb ⊢
      obtain ⟨o', _ | e⟩ := q
      · intro o'' ho
        rcases List.mem_cons.1 ho with rfl | ho
        · exact hb rfl
        · exact ih h o'' ho
      · cases h
  | each ss =>
    simp only [SpaceObj.setTransformer] at h ⊢
    induction os generalizing ss with
    | nil => simp [SpaceObj.setEach]
    | cons o os ih =>
      cases ss with
      | nil => simp [SpaceObj.setEach] at h
      | cons s ss =>
        simp only [SpaceObj.setEach] at h ⊢
        have hb := setTransformer_bounds A o s
        generalize o.setTransformer s = q at h hb ⊢
        obtain ⟨o', _ | e⟩ := q
        · intro o'' ho
          rcases List.mem_cons.1 ho with rfl | ho
          · exact hb rfl
          · exact ih ss h o'' ho
        · cases h

end

/-- A minimiser that leaves the bounds. -/
def wildWorld : World ℚ Nat Nat Unit := { okWorld with lbfgs := fun r _ _ _ x => (r, .ok (x.map fun _ => .num 77, .fin 0)) }

/-- A numeric and a categorical dimension. -/
def clipDims : List (Dim ℚ) := [.real ⟨0, 10, .uniform, 10, .identity, none, id⟩,
  .cat ⟨[.str "a", .str "b", .str "c"], none, .onehot, none, fun _ => "", fun s => .ok (.str s)⟩]

/-- A fresh optimizer without initial points that minimises the acquisition function with L-BFGS. -/
def wildOpt : Opt ℚ Nat Nat :=
  Opt.fresh ratArith { toyCfg .EI with lbfgs := true, isGP := false, nInitial := 0 } 0 none

/-- Meets the hypotheses of `C62_suggestion_within_bounds`. -/
example : (∃ d ∈ clipDims, d.isCat = false) ∧ (∀ b ∈ Space.transformedBounds ratArith clipDims, b.1 ≤ b.2) ∧
    wildOpt.cfg.hasEst = true ∧
    (∃ res, (tell ratArith wildWorld clipDims wildOpt (.lst [.num 5, .str "b"]) (.num (.fin 1)) true).2 = .ok res) ∧
    (tell ratArith wildWorld clipDims wildOpt (.lst [.num 5, .str "b"]) (.num (.fin 1)) true).1.nInit ≤ 0 := by
  refine ⟨⟨_, List.mem_cons_self, rfl⟩, by decide +kernel, rfl, ?_, by decide +kernel⟩
  have h : (tell ratArith wildWorld clipDims wildOpt (.lst [.num 5, .str "b"]) (.num (.fin 1)) true).2.toBool = true := by
    decide +kernel
  cases hr : (tell ratArith wildWorld clipDims wildOpt (.lst [.num 5, .str "b"]) (.num (.fin 1)) true).2 with
  | error e => rw [hr] at h; cases h
  | ok res => exact ⟨res, rfl⟩

/-- Meets the hypotheses of `C89_bounds_agree`. -/
example : (SpaceObj.setTransformer [⟨.real ⟨(0 : ℚ), 10, .uniform, 10, .identity, none, id⟩, "identity"⟩]
    (.one "normalize")).2 = none := rfl

end Skopt

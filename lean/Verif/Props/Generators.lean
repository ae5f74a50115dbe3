import Verif.Lemmas.Generator
import Verif.Model.Grid
import Verif.Model.Lhs
import Verif.Model.Sobol
import Verif.Props.Halton

/-!
# C08: generators leave the transforms of the space as they found them
-/

namespace Skopt

variable {F : Type}

section
variable [LinearOrder F] (A : Arith F) (dims : List (Dim F))

/-- **C08 (Halton, Hammersly).** When `generate` returns, every dimension is what it was before the call,
its transform included, whatever mixture of transforms the dimensions had. -/
theorem C08_halton_restores (h : Halton) (hd : ∀ d ∈ dims, HasLegalTransform d) (n : Nat) (draw : ℤ)
    (pts : List (Point F)) :
    ((h.generate A dims n draw).2 = .ok pts → (h.generate A dims n draw).1 = dims) ∧
    ((Hammersly.generate A h dims n draw).2 = .ok pts →
      (Hammersly.generate A h dims n draw).1 = dims) :=
  ⟨fun hok => withNormalized_restores dims hd _ hok,
   fun hok => withNormalized_restores dims hd _ hok⟩

/-- **C08 (Lhs).** -/
theorem C08_lhs_restores (num : LhsNum F) (l : Lhs) (hd : ∀ d ∈ dims, HasLegalTransform d) (n : Nat)
    (first : LhsDraw F) (draws : List (LhsDraw F)) (pts : List (Point F))
    (hok : (l.generate A num dims n first draws).2 = .ok pts) :
    (l.generate A num dims n first draws).1 = dims :=
  withNormalized_restores dims hd _ hok

/-- **C08 (Grid).** -/
theorem C08_grid_restores (g : Grid) (hd : ∀ d ∈ dims, HasLegalTransform d) (n : Nat)
    (perm : Nat → List Nat) (pts : List (Point F)) (hok : (g.generate A dims n perm).2 = .ok pts) :
    (g.generate A dims n perm).1 = dims :=
  withNormalized_restores dims hd _ hok

/-- **C08 (Sobol).** -/
theorem C08_sobol_restores (mod1 : F → F) (s : Sobol) (hd : ∀ d ∈ dims, HasLegalTransform d) (n : Nat)
    (shift : List F) (pts : List (Point F)) (hok : (s.generate A mod1 dims n shift).2.2 = .ok pts) :
    (s.generate A mod1 dims n shift).2.1 = dims := by
  unfold Sobol.generate at hok ⊢
  split
  · rfl
  · next hc =>
    rw [if_neg hc] at hok
    have key := withNormalized_restores dims hd (fun dims' => do
      let M ← (s.rows A dims.length n s.skip).2
      Space.inverseTransform A dims' (numRows
        (if s.randomize then randomShift A mod1 shift M else M))) (pts := pts)
    revert hok
    dsimp only
    split
    · intro hok; exact key hok
    · intro hok; exact key hok

end

/-- Non-vacuity: a space with a normalized, an identity and a one-hot dimension; Grid returns points
and the mixture is restored. -/
def mixedDims : List (Dim ℚ) :=
  [.real ⟨0, 10, .uniform, 10, .normalize, none, id⟩,
   .int ⟨-5, 5, .uniform, 10, .identity, none, id⟩,
   .cat ⟨[.str "a", .str "b", .str "c"], none, .onehot, none, fun _ => "", fun s => .ok (.str s)⟩]

theorem mixedDims_legal : ∀ d ∈ mixedDims, HasLegalTransform d := by
  intro d hd
  simp only [mixedDims, List.mem_cons, List.not_mem_nil, or_false] at hd
  rcases hd with rfl | rfl | rfl
  · exact Or.inr rfl
  · exact Or.inl rfl
  · trivial

/-- Meets the hypotheses of `C08_grid_restores`. -/
example : Space.getTransformer mixedDims = [.normalize, .identity, .onehot] ∧
    (({} : Grid).generate ratArith mixedDims 3 List.range).2 =
      .ok [[.num 5, .num 0, .str "b"], [.num 0, .num (-5), .str "a"], [.num 0, .num (-5), .str "c"]] ∧
    Space.getTransformer (({} : Grid).generate ratArith mixedDims 3 List.range).1 =
      [.normalize, .identity, .onehot] := by
  refine ⟨rfl, by decide +kernel, by decide +kernel⟩

/-- The other generators return points, too, and restore the transforms (`C08_halton_restores`, `C08_lhs_restores`,
`C08_sobol_restores`). -/
example :
    (({} : Halton).generate ratArith mixedDims 3 0).2.toOption.isSome = true ∧
    Space.getTransformer (({} : Halton).generate ratArith mixedDims 3 0).1 = [.normalize, .identity, .onehot] ∧
    (Hammersly.generate ratArith {} mixedDims 3 0).2.toOption.isSome = true ∧
    (({ criterion := .none } : Lhs).generate ratArith ⟨fun _ _ => 0, id, 1/10^8⟩ mixedDims 2
      ⟨[[0, 1/2, 1/4], [1/3, 2/3, 0]], [[0, 1], [1, 0], [0, 1]]⟩ []).2.toOption.isSome = true ∧
    (({ skip := 0, randomize := false } : Sobol).generate ratArith id mixedDims 3 []).2.2.toOption.isSome = true ∧
    Space.getTransformer (({ skip := 0, randomize := false } : Sobol).generate ratArith id mixedDims 3 []).2.1 =
      [.normalize, .identity, .onehot] := by
  decide +kernel

/-- The restoring is not exception-safe: with an unknown `border` the generator raises and leaves every
dimension of the caller's space normalized (outside C08, which speaks of calls that return). -/
theorem C08_note_raising_call_leaves_normalized :
    Space.getTransformer mixedDims = [.normalize, .identity, .onehot] ∧
    (({ border := .other } : Grid).generate ratArith mixedDims 3 List.range).2 = .error .valueError ∧
    Space.getTransformer (({ border := .other } : Grid).generate ratArith mixedDims 3 List.range).1 =
      [.normalize, .normalize, .normalize] := by
  refine ⟨rfl, by decide +kernel, by decide +kernel⟩

end Skopt

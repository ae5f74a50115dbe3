import Verif.Lemmas.Basic
import Verif.Model.DiagonalLimits

/-!
# C78: the panels on the diagonal share their vertical axis
-/

namespace Skopt

variable {F : Type} [LinearOrder F]

theorem ylim_min_spec (x : F) (xs : List F) : xs.foldl min x ≤ x ∧ (∀ y ∈ xs, xs.foldl min x ≤ y) ∧
    (xs.foldl min x = x ∨ xs.foldl min x ∈ xs) := by
  induction xs generalizing x with
  | nil => simp
  | cons z zs ih =>
    obtain ⟨h1, h2, h3⟩ := ih (min x z)
    refine ⟨h1.trans (min_le_left _ _), ?_, ?_⟩
    · intro y hy
      rcases List.mem_cons.1 hy with rfl | hy
      · exact h1.trans (min_le_right _ _)
      · exact h2 y hy
    · rw [List.foldl_cons]
      rcases h3 with h3 | h3
      · rcases min_choice x z with h | h
        · exact .inl (h3.trans h)
        · exact .inr (by rw [h3, h]; exact List.mem_cons_self)
      · exact .inr (List.mem_cons_of_mem _ h3)

theorem ylim_max_spec (x : F) (xs : List F) : x ≤ xs.foldl max x ∧ (∀ y ∈ xs, y ≤ xs.foldl max x) ∧
    (xs.foldl max x = x ∨ xs.foldl max x ∈ xs) :=
  ylim_min_spec (F := Fᵒᵈ) x xs

/-- **C78 (diagonal).** The panels on the diagonal, of which there is at least one, are given the same vertical limits:
the smallest ones in which whatever was visible in any of them is still visible. -/
theorem C78_diagonal_limits (ylim : List (F × F)) (h : ylim ≠ []) :
    ∃ lo hi, diagonalLimits ylim = .ok (List.replicate ylim.length (lo, hi)) ∧
      (∀ l ∈ ylim, lo ≤ l.1 ∧ l.2 ≤ hi) ∧
      ∀ lo' hi', (∀ l ∈ ylim, lo' ≤ l.1 ∧ l.2 ≤ hi') → lo' ≤ lo ∧ hi ≤ hi' := by
  cases ylim with
  | nil => exact absurd rfl h
  | cons l ls =>
    obtain ⟨a1, a2, a3⟩ := ylim_min_spec l.1 (ls.map Prod.fst)
    obtain ⟨b1, b2, b3⟩ := ylim_max_spec l.2 (ls.map Prod.snd)
    refine ⟨(ls.map Prod.fst).foldl min l.1, (ls.map Prod.snd).foldl max l.2, ?_, ?_, ?_⟩
    · simp only [diagonalLimits, ylimDiagonal, ok_bind, List.map_cons, npMinOf, npMaxOf]
      rw [List.length_cons, List.replicate_succ, List.map_const']
    · intro k hk
      rcases List.mem_cons.1 hk with rfl | hk
      · exact ⟨a1, b1⟩
      · exact ⟨a2 _ (List.mem_map_of_mem hk), b2 _ (List.mem_map_of_mem hk)⟩
    · intro lo' hi' hl
      constructor
      · rcases a3 with e | e
        · rw [e]; exact (hl l List.mem_cons_self).1
        · obtain ⟨k, hk, e⟩ := List.mem_map.1 e
          rw [← e]; exact (hl k (List.mem_cons_of_mem _ hk)).1
      · rcases b3 with e | e
        · rw [e]; exact (hl l List.mem_cons_self).2
        · obtain ⟨k, hk, e⟩ := List.mem_map.1 e
          rw [← e]; exact (hl k (List.mem_cons_of_mem _ hk)).2

/-- Three panels with different ranges. -/
example : diagonalLimits [((0 : ℤ), 5), (-1, 2), (1, 9)] = .ok (List.replicate 3 (-1, 9)) := by decide +kernel

end Skopt

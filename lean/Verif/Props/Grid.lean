import Verif.Lemmas.Grid
import Verif.Props.Halton
import Mathlib.Tactic.FieldSimp
import Mathlib.Tactic.Positivity

/-!
# C27, C28: regular grids
-/

namespace Skopt

variable {F : Type}

/-- **C27.** However the arithmetic rounds, for every border setting and every shuffle: in two or more
dimensions, if `Grid.generate` returns, it returns exactly `n` points, all in the space.

Missing: one dimension, where the code returns too few points (see the refutation). -/
theorem C27_grid_count_partial [LinearOrder F] (A : Arith F) (hA : OrderlyRounding A) (g : Grid)
    (dims : List (Dim F)) (hv : ∀ d ∈ dims, ValidDim A d) (hd : 2 ≤ dims.length) (n : Nat)
    (perm : Nat → List Nat) (hp : ∀ k, (perm k).Perm (List.range k)) (pts : List (Point F))
    (h : (g.generate A dims n perm).2 = .ok pts) :
    pts.length = n ∧ ∀ p ∈ pts, InSpace A dims p := by
  unfold Grid.generate at h
  rw [withNormalized_snd dims fun d hd => (hv d hd).legalTransform, bind_eq_ok] at h
  obtain ⟨M, hM, h⟩ := h
  have hs := unit_points_in_space hA hv h
  refine ⟨?_, hs.2⟩
  rw [hs.1]
  obtain ⟨L, hL, ⟨h1, L', e, rfl⟩ | ⟨h1, E, hE, e⟩⟩ := Grid.unit_cases hp hM
  · rw [List.length_take, e.length_eq]; omega
  · rw [e.length_eq, List.length_append, List.length_take]
    have := Grid.extra_length hd hE
    omega

/-- Non-vacuity: seven points in two dimensions (a 2 × 2 grid plus three border points). -/
example : (({} : Grid).generate ratArith (exDims.take 2) 7 List.range).2 = .ok
    [[.num (10/3), .num (-2)], [.num (10/3), .num 2], [.num (20/3), .num (-2)],
     [.num (20/3), .num 2], [.num 0, .num (-5)], [.num 0, .num 5], [.num 10, .num (-5)]] := by
  decide +kernel

/-- **C27 is false in one dimension**: five points are asked for, four are returned; ten are asked for,
seven are returned. -/
theorem C27_refuted_one_dimension :
    (({} : Grid).generate ratArith (exDims.take 1) 5 List.range).2 =
      .ok [[.num (10/3)], [.num (20/3)], [.num 0], [.num 10]] ∧
    (∃ pts, (({} : Grid).generate ratArith (exDims.take 1) 10 List.range).2 = .ok pts ∧
      pts.length = 7) := by
  refine ⟨by decide +kernel, ?_⟩
  exact ⟨[[.num (5/2)], [.num 5], [.num (15/2)], [.num 0], [.num (10/3)], [.num (20/3)], [.num 10]],
    by decide +kernel, rfl⟩

/-- All entries of the grid's lines lie in the unit interval. -/
theorem line_range {m : Nat} : (∀ x ∈ lineExclude exact m, 0 < x ∧ x < 1) ∧
    (2 ≤ m → ∀ x ∈ lineInclude exact m, 0 ≤ x ∧ x ≤ 1) := by
  constructor
  · intro x hx
    obtain ⟨i, hi, rfl⟩ := List.mem_map.1 hx
    rw [List.mem_range] at hi
    have hi' : (i : ℝ) + 1 ≤ m := by exact_mod_cast hi
    have hpos : (0 : ℝ) < (m : ℝ) + 1 := by positivity
    simp only [exact]
    push_cast
    refine ⟨by positivity, ?_⟩
    rw [div_lt_one hpos]
    linarith
  · intro hm x hx
    obtain ⟨i, hi, rfl⟩ := List.mem_map.1 hx
    rw [List.mem_range] at hi
    have hi' : (i : ℝ) + 1 ≤ m := by exact_mod_cast hi
    have hm' : (2 : ℝ) ≤ m := by exact_mod_cast hm
    have hpos : (0 : ℝ) < (m : ℝ) - 1 := by linarith
    simp only [exact]
    push_cast
    refine ⟨by positivity, ?_⟩
    rw [div_le_one hpos]
    linarith

theorem grid_entries_unit {d m : Nat} {h : List (List ℝ)} :
    (gridExclude exact d m = .ok h → ∀ r ∈ h, ∀ x ∈ r, 0 < x ∧ x < 1) ∧
    (gridInclude exact d m = .ok h → ∀ r ∈ h, ∀ x ∈ r, 0 ≤ x ∧ x ≤ 1) ∧
    (gridOnly exact d m = .ok h → ∀ r ∈ h, ∀ x ∈ r, 0 ≤ x ∧ x ≤ 1) := by
  refine ⟨?_, ?_, ?_⟩
  · intro hh r hr x hx
    unfold gridExclude at hh
    split at hh
    · simp at hh
    · obtain ⟨a, ha, hxa⟩ := forall₂_mem_right
        (List.Forall₂.flip (((quadratureCombine_spec hh).1 r).1 hr)) hx
      rw [List.eq_of_mem_replicate ha] at hxa
      exact line_range.1 x hxa
  · intro hh r hr x hx
    have hm := (gridInclude_length hh).2.1
    unfold gridInclude at hh
    split at hh
    · simp at hh
    · obtain ⟨a, ha, hxa⟩ := forall₂_mem_right
        (List.Forall₂.flip (((quadratureCombine_spec hh).1 r).1 hr)) hx
      rw [List.eq_of_mem_replicate ha] at hxa
      exact line_range.2 hm x hxa
  · intro hh r hr x hx
    have hm := (gridOnly_length hh).2.1
    unfold gridOnly at hh
    split at hh
    · simp at hh
    · obtain ⟨a, ha, hxa⟩ := forall₂_mem_right
        (List.Forall₂.flip (((quadratureCombine_spec hh).1 r).1 hr)) hx
      rcases List.mem_append.1 ha with ha | ha
      · rw [List.eq_of_mem_replicate ha] at hxa
        simp only [List.mem_cons, List.not_mem_nil, or_false, exact] at hxa
        rcases hxa with rfl | rfl <;> norm_num
      · rw [List.mem_singleton] at ha
        subst ha
        exact line_range.2 hm x hxa

/-- **C27**, existence: in exact arithmetic and two or more dimensions, as long as the code's size
limit is respected by the layouts it builds, exactly `n ≥ 1` points are returned. -/
theorem C27_grid_succeeds (g : Grid) (dims : List (Dim ℝ)) (hv : ∀ d ∈ dims, ValidDim exact d)
    (hd : 2 ≤ dims.length) (n : Nat) (hn : 0 < n) (perm : Nat → List Nat)
    (hp : ∀ k, (perm k).Perm (List.range k)) (L : List (List ℝ))
    (hL : g.layout exact dims.length n = .ok L)
    (hE : L.length < n → ∃ E, g.extra exact dims.length (n - L.length) = .ok E) :
    ∃ pts, (g.generate exact dims n perm).2 = .ok pts ∧ pts.length = n ∧
      ∀ p ∈ pts, InSpace exact dims p := by
  have hM : ∃ M, g.unit exact dims.length n perm = .ok M := by
    unfold Grid.unit
    rw [hL, ok_bind]
    split
    · obtain ⟨L', e1, e2⟩ := shuffleRows_perm (hp L.length)
      rw [e1, ok_bind]
      exact ⟨_, rfl⟩
    · split
      · next hlt =>
        obtain ⟨E, hE⟩ := hE hlt
        rw [hE, ok_bind]
        obtain ⟨L', e1, e2⟩ := shuffleRows_perm (hp (L ++ E.take (n - L.length)).length)
        exact ⟨L', e1⟩
      · obtain ⟨L', e1, e2⟩ := shuffleRows_perm (hp L.length)
        exact ⟨L', e1⟩
  obtain ⟨M, hM⟩ := hM
  have hLr : ∀ r ∈ L, ∀ x ∈ r, 0 ≤ x ∧ x ≤ 1 := by
    unfold Grid.layout at hL
    split at hL
    · exact grid_entries_unit.2.1 hL
    · intro r hr x hx
      have := grid_entries_unit.1 hL r hr x hx
      exact ⟨this.1.le, this.2.le⟩
    · intro r hr x hx
      have := grid_entries_unit.1 hL r hr x hx
      exact ⟨this.1.le, this.2.le⟩
    · simp at hL
  have hEr : ∀ m E, g.extra exact dims.length m = .ok E → ∀ r ∈ E, ∀ x ∈ r, 0 ≤ x ∧ x ≤ 1 := by
    intro m E hE
    unfold Grid.extra at hE
    split at hE
    · exact grid_entries_unit.2.2 hE
    · exact grid_entries_unit.2.1 hE
    · intro r hr x hx
      have := grid_entries_unit.1 hE r hr x hx
      exact ⟨this.1.le, this.2.le⟩
    · simp at hE
  have hMl : M.length = n ∧ ∀ r ∈ M, r.length = dims.length ∧ ∀ x ∈ r, 0 ≤ x ∧ x ≤ 1 := by
    obtain ⟨L₂, hL₂, hcase⟩ := Grid.unit_cases hp hM
    rw [hL] at hL₂
    injection hL₂ with hL₂
    subst hL₂
    rcases hcase with ⟨h1, L', e, rfl⟩ | ⟨h1, E, hE, e⟩
    · refine ⟨by rw [List.length_take, e.length_eq]; omega, ?_⟩
      intro r hr
      have hr' := e.mem_iff.1 (List.mem_of_mem_take hr)
      exact ⟨Grid.layout_width hL r hr', hLr r hr'⟩
    · refine ⟨?_, ?_⟩
      · rw [e.length_eq, List.length_append, List.length_take]
        have := Grid.extra_length hd hE
        omega
      · intro r hr
        rcases List.mem_append.1 (e.mem_iff.1 hr) with hr' | hr'
        · exact ⟨Grid.layout_width hL r hr', hLr r hr'⟩
        · have := List.mem_of_mem_take hr'
          exact ⟨Grid.extra_width hE r this, hEr _ E hE r this⟩
  obtain ⟨pts, p1, p2, p3⟩ := unit_inverse_ok (dims := dims)
    (by rintro rfl; simp at hd) hv (M := M)
    (by rintro rfl; simp at hMl; omega) (fun r hr => (hMl.2 r hr).1) (fun r hr => (hMl.2 r hr).2)
  refine ⟨pts, ?_, by rw [p2, hMl.1], p3⟩
  unfold Grid.generate
  rw [withNormalized_snd dims fun d hd => (hv d hd).legalTransform, hM, ok_bind, p1]

example : genDims.length = 2 ∧ (∀ d ∈ genDims, ValidDim exact d) ∧
    (∃ L, ({} : Grid).layout exact 2 4 = .ok L) ∧
    (∀ k, (List.range k).Perm (List.range k)) := by
  have hq : Nat.sqrt 4 = 2 := by decide +kernel
  refine ⟨rfl, genDims_valid, ?_, fun _ => .refl _⟩
  have e : ({} : Grid).layout exact 2 4 =
      quadratureCombine (List.replicate 2 (lineExclude exact 2)) := by
    simp [Grid.layout, hq, gridExclude]
  rw [e]
  exact quadratureCombine_ok (by simp) (by simp [lineExclude])

/-! ## C28 -/

/-- **C28.** Combining one-dimensional lines gives their full cartesian product: exactly the rows with
one entry from each line, as many as the product of the lengths, without repetition. -/
theorem C28_full_product (args : List (List F)) (out : List (List F))
    (h : quadratureCombine args = .ok out) :
    (∀ row, row ∈ out ↔ List.Forall₂ (· ∈ ·) row args) ∧
      out.length = (args.map List.length).prod ∧ ((∀ a ∈ args, a.Nodup) → out.Nodup) :=
  quadratureCombine_spec h

example : quadratureCombine [[1, 2], [3, 4, 5]] =
    .ok [[1, 3], [1, 4], [1, 5], [2, 3], [2, 4], [2, 5]] := by decide

/-- **C28 (exclude).** The design has no coordinate at 0 or 1; it consists of all rows whose entries
are of the form `i/(m+1)` with `1 ≤ i ≤ m`, without repetition. -/
theorem C28_exclude_border (d m : Nat) (h : List (List ℝ)) (hh : gridExclude exact d m = .ok h) :
    h.Nodup ∧ (∀ r, r ∈ h ↔ r.length = d ∧
      ∀ x ∈ r, ∃ i : Nat, 1 ≤ i ∧ i ≤ m ∧ x = (i : ℝ) / ((m : ℝ) + 1)) ∧
    ∀ r ∈ h, ∀ x ∈ r, 0 < x ∧ x < 1 := by
  have hin := grid_entries_unit.1 hh
  unfold gridExclude at hh
  split at hh
  · simp at hh
  · next hc =>
    obtain ⟨s1, s2, s3⟩ := quadratureCombine_spec hh
    have hline : ∀ x, x ∈ lineExclude exact m ↔ ∃ i : Nat, 1 ≤ i ∧ i ≤ m ∧
        x = (i : ℝ) / ((m : ℝ) + 1) := by
      intro x
      unfold lineExclude
      simp only [List.mem_map, List.mem_range, exact]
      constructor
      · rintro ⟨i, hi, rfl⟩
        exact ⟨i + 1, by omega, by omega, by push_cast; rfl⟩
      · rintro ⟨i, h1, h2, rfl⟩
        refine ⟨i - 1, by omega, ?_⟩
        have : ((i - 1 : Nat) : ℤ) + 1 = i := by omega
        rw [this]
        push_cast
        rfl
    refine ⟨s3 ?_, ?_, hin⟩
    · intro a ha
      rw [List.eq_of_mem_replicate ha]
      refine List.nodup_range.map ?_
      intro i j hij
      have hpos : (m : ℝ) + 1 ≠ 0 := by positivity
      simp only [exact] at hij
      push_cast at hij
      rw [div_left_inj' hpos] at hij
      have : (i : ℝ) = j := by linarith
      exact_mod_cast this
    · intro r
      rw [s1, forall₂_replicate]
      simp only [hline]
  where
  forall₂_replicate {r : List ℝ} {d : Nat} {l : List ℝ} :
      List.Forall₂ (· ∈ ·) r (List.replicate d l) ↔ r.length = d ∧ ∀ x ∈ r, x ∈ l := by
    induction d generalizing r with
    | zero =>
      constructor
      · intro h; cases h; simp
      · rintro ⟨h, _⟩
        rw [List.length_eq_zero_iff] at h
        subst h
        exact .nil
    | succ d ih =>
      rw [List.replicate_succ]
      constructor
      · intro h
        cases h with
        | cons h1 h2 =>
          obtain ⟨i1, i2⟩ := ih.1 h2
          refine ⟨by simp [i1], ?_⟩
          intro x hx
          rcases List.mem_cons.1 hx with rfl | hx
          · exact h1
          · exact i2 x hx
      · rintro ⟨h1, h2⟩
        cases r with
        | nil => simp at h1
        | cons x xs =>
          exact .cons (h2 x (by simp)) (ih.2 ⟨by simpa using h1, fun y hy => h2 y (by simp [hy])⟩)

/-- **C28 (existence).** The layouts exist for every positive number of dimensions and enough points per dimension (one
without the border, two with it); otherwise the call ends in `AssertionError`.  (Layouts of more than `10^9` entries do
not fit into memory.) -/
theorem C28_layouts_exist (A : Arith F) (d m : Nat) :
    (1 ≤ d → 1 ≤ m → m ^ d * d ≤ 10 ^ 9 → ∃ h, gridExclude A d m = .ok h) ∧
    (1 ≤ d → 2 ≤ m → m ^ d * d ≤ 10 ^ 9 → (∃ h, gridInclude A d m = .ok h) ∧ ∃ h, gridOnly A d m = .ok h) ∧
    (d = 0 ∨ m = 0 → gridExclude A d m = .error .assertionError) ∧
    (d = 0 ∨ m ≤ 1 → gridInclude A d m = .error .assertionError ∧ gridOnly A d m = .error .assertionError) := by
  have qc : ∀ args : List (List F), args ≠ [] → (args.map List.length).prod * args.length ≤ 10 ^ 9 →
      ∃ h, quadratureCombine args = .ok h := by
    intro args hne hle
    unfold quadratureCombine
    rw [if_neg (by omega)]
    cases args with
    | nil => exact absurd rfl hne
    | cons a as => exact ⟨_, rfl⟩
  refine ⟨fun hd hm hs => ?_, fun hd hm hs => ⟨?_, ?_⟩, fun h => ?_, fun h => ⟨?_, ?_⟩⟩
  · unfold gridExclude
    rw [if_neg (by omega)]
    refine qc _ (by simp; omega) ?_
    simpa [lineExclude] using hs
  · unfold gridInclude
    rw [if_neg (by omega)]
    refine qc _ (by simp; omega) ?_
    simpa [lineInclude] using hs
  · unfold gridOnly
    rw [if_neg (by omega)]
    refine qc _ (by simp) (le_trans ?_ hs)
    obtain ⟨k, rfl⟩ : ∃ k, d = k + 1 := ⟨d - 1, by omega⟩
    have h2 : 2 ^ k ≤ m ^ k := Nat.pow_le_pow_left hm k
    simp only [Nat.add_sub_cancel, List.map_append, List.map_replicate, List.prod_append, List.prod_replicate,
      List.length_append, List.length_replicate, lineInclude, List.length_map, List.length_range, List.map_cons,
      List.map_nil, List.prod_cons, List.prod_nil, List.length_cons, List.length_nil, mul_one, pow_succ]
    gcongr
  · unfold gridExclude
    rw [if_pos (by omega)]
  · unfold gridInclude
    rw [if_pos (by omega)]
  · unfold gridOnly
    rw [if_pos (by omega)]

example : ((∃ h, gridInclude exact 3 4 = .ok h) ∧ ∃ h, gridOnly exact 3 4 = .ok h) :=
  (C28_layouts_exist exact 3 4).2.1 (by norm_num) (by norm_num) (by norm_num)

/-- Meets the hypotheses of `C28_exclude_border`. -/
example : gridExclude ratArith 2 2 =
    .ok [[1/3, 1/3], [1/3, 2/3], [2/3, 1/3], [2/3, 2/3]] := by decide +kernel

/-- **C28 (include).** The design consists of all rows whose entries are of the form `i/(m-1)` with
`i < m`, without repetition; in particular both borders are used: for every corner of the unit cube
the design contains it. -/
theorem C28_include_border (d m : Nat) (h : List (List ℝ)) (hh : gridInclude exact d m = .ok h) :
    h.Nodup ∧ (∀ r, r ∈ h ↔ r.length = d ∧
      ∀ x ∈ r, ∃ i : Nat, i < m ∧ x = (i : ℝ) / ((m : ℝ) - 1)) ∧
    ∀ r : List ℝ, r.length = d → (∀ x ∈ r, x = 0 ∨ x = 1) → r ∈ h := by
  have hm := (gridInclude_length hh).2.1
  have hm' : (2 : ℝ) ≤ m := by exact_mod_cast hm
  have hpos : (m : ℝ) - 1 ≠ 0 := by intro h0; linarith
  unfold gridInclude at hh
  split at hh
  · simp at hh
  · next hc =>
    obtain ⟨s1, s2, s3⟩ := quadratureCombine_spec hh
    have hline : ∀ x, x ∈ lineInclude exact m ↔ ∃ i : Nat, i < m ∧
        x = (i : ℝ) / ((m : ℝ) - 1) := by
      intro x
      unfold lineInclude
      simp only [List.mem_map, List.mem_range, exact]
      push_cast
      constructor
      · rintro ⟨i, hi, rfl⟩; exact ⟨i, hi, rfl⟩
      · rintro ⟨i, hi, rfl⟩; exact ⟨i, hi, rfl⟩
    have hmem : ∀ r, r ∈ h ↔ r.length = d ∧
        ∀ x ∈ r, ∃ i : Nat, i < m ∧ x = (i : ℝ) / ((m : ℝ) - 1) := by
      intro r
      rw [s1, C28_exclude_border.forall₂_replicate]
      simp only [hline]
    refine ⟨s3 ?_, hmem, ?_⟩
    · intro a ha
      rw [List.eq_of_mem_replicate ha]
      refine List.nodup_range.map ?_
      intro i j hij
      simp only [exact] at hij
      push_cast at hij
      rw [div_left_inj' hpos] at hij
      exact_mod_cast hij
    · intro r hr hc
      refine (hmem r).2 ⟨hr, ?_⟩
      intro x hx
      rcases hc x hx with rfl | rfl
      · exact ⟨0, by omega, by simp⟩
      · refine ⟨m - 1, by omega, ?_⟩
        rw [Nat.cast_sub (by omega), Nat.cast_one, div_self hpos]

example : gridInclude ratArith 2 2 = .ok [[0, 0], [0, 1], [1, 0], [1, 1]] := by decide +kernel

/-- **C28 (appended border points).** In two or more dimensions every point of the border layout has a
coordinate at 0 or 1.

Missing: one dimension, and the option `border='only'` itself (see the refutations). -/
theorem C28_only_border_partial (A : Arith F) (d m : Nat) (hd : 2 ≤ d) (h : List (List F))
    (hh : gridOnly A d m = .ok h) : ∀ r ∈ h, ∃ x ∈ r, x = A.ofInt 0 ∨ x = A.ofInt 1 := by
  intro r hr
  unfold gridOnly at hh
  split at hh
  · simp at hh
  · obtain ⟨s1, _, _⟩ := quadratureCombine_spec hh
    have h1 := (s1 r).1 hr
    obtain ⟨d', rfl⟩ : ∃ d', d = d' + 2 := ⟨d - 2, by omega⟩
    have e : d' + 2 - 1 = d' + 1 := by omega
    rw [e, List.replicate_succ] at h1
    cases h1 with
    | cons h1 _ =>
      refine ⟨_, List.mem_cons_self, ?_⟩
      simpa using h1

example : gridOnly ratArith 2 3 =
    .ok [[0, 0], [0, 1/2], [0, 1], [1, 0], [1, 1/2], [1, 1]] := by decide +kernel

/-- **C28 is false for `border='only'`**: the code builds the layout *without* border points; none of
the four points below has a coordinate at 0 or 1. -/
theorem C28_refuted_border_only :
    ({ border := .only } : Grid).unit ratArith 2 4 List.range =
      .ok [[1/3, 1/3], [1/3, 2/3], [2/3, 1/3], [2/3, 2/3]] := by
  decide +kernel

/-- **C28 is false in one dimension** for the appended border points: 1/2 is not on the border. -/
theorem C28_refuted_only_one_dimension :
    gridOnly ratArith 1 3 = .ok [[0], [1/2], [1]] := by
  decide +kernel

end Skopt

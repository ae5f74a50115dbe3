import Verif.Lemmas.Generator
import Verif.Model.Grid
import Mathlib.Data.List.Nodup
import Mathlib.Data.List.Perm.Basic
import Mathlib.Algebra.BigOperators.Group.List.Basic
import Mathlib.Tactic.Ring

/-!
# Lemmas about the grid generator
-/

namespace Skopt

variable {F : Type}

theorem combineStep_eq (out : List (List F)) (arg : List F) :
    combineStep out arg = out.flatMap fun r => arg.map fun x => r ++ [x] := by
  unfold combineStep
  induction out with
  | nil => rfl
  | cons r rs ih =>
    simp only [List.flatMap_cons, List.length_cons, List.replicate_succ, List.flatten_cons] at ih ⊢
    rw [List.zipWith_append (by simp), ih]
    congr 1
    clear ih
    induction arg with
    | nil => rfl
    | cons x xs ih => simp [List.replicate_succ, ih]

theorem combineStep_length (out : List (List F)) (arg : List F) :
    (combineStep out arg).length = out.length * arg.length := by
  rw [combineStep_eq]
  induction out with
  | nil => simp
  | cons r rs ih => simp only [List.flatMap_cons, List.length_append, ih, List.length_map,
      List.length_cons]; ring

theorem combineStep_mem {out : List (List F)} {arg : List F} {row : List F} :
    row ∈ combineStep out arg ↔ ∃ r ∈ out, ∃ x ∈ arg, row = r ++ [x] := by
  rw [combineStep_eq]
  simp only [List.mem_flatMap, List.mem_map]
  constructor
  · rintro ⟨r, hr, x, hx, rfl⟩; exact ⟨r, hr, x, hx, rfl⟩
  · rintro ⟨r, hr, x, hx, rfl⟩; exact ⟨r, hr, x, hx, rfl⟩

theorem combineStep_nodup {out : List (List F)} {arg : List F} (h1 : out.Nodup) (h2 : arg.Nodup) :
    (combineStep out arg).Nodup := by
  rw [combineStep_eq, List.nodup_flatMap]
  constructor
  · intro r _
    refine h2.map ?_
    intro x y h
    simpa using h
  · refine List.Pairwise.imp ?_ h1
    intro r r' hne
    rw [Function.onFun, List.disjoint_left]
    intro row hr hr'
    obtain ⟨x, _, rfl⟩ := List.mem_map.1 hr
    obtain ⟨x', _, h⟩ := List.mem_map.1 hr'
    exact hne (List.append_inj_left' h rfl).symm

theorem forall₂_snoc {R : F → List F → Prop} {row : List F} {done : List (List F)} {arg : List F} :
    List.Forall₂ R row (done ++ [arg]) ↔ ∃ r x, row = r ++ [x] ∧ List.Forall₂ R r done ∧ R x arg := by
  induction done generalizing row with
  | nil =>
    constructor
    · intro h
      cases h with
      | cons h1 h2 => cases h2; exact ⟨[], _, rfl, .nil, h1⟩
    · rintro ⟨r, x, rfl, h1, h2⟩
      cases h1
      exact .cons h2 .nil
  | cons d ds ih =>
    constructor
    · intro h
      cases h with
      | cons h1 h2 =>
        obtain ⟨r, x, rfl, h3, h4⟩ := ih.1 h2
        exact ⟨_ :: r, x, rfl, .cons h1 h3, h4⟩
    · rintro ⟨r, x, rfl, h1, h2⟩
      cases h1 with
      | cons h1 h3 => exact .cons h1 (ih.2 ⟨_, x, rfl, h3, h2⟩)

theorem foldl_combine_mem (as : List (List F)) : ∀ (out done : List (List F)),
    (∀ row, row ∈ out ↔ List.Forall₂ (· ∈ ·) row done) →
    ∀ row, row ∈ as.foldl combineStep out ↔ List.Forall₂ (· ∈ ·) row (done ++ as) := by
  induction as with
  | nil => intro out done h row; simpa using h row
  | cons a as ih =>
    intro out done h row
    rw [List.foldl_cons, ih (combineStep out a) (done ++ [a])]
    · simp
    · intro row
      rw [combineStep_mem, forall₂_snoc]
      constructor
      · rintro ⟨r, hr, x, hx, rfl⟩; exact ⟨r, x, rfl, (h r).1 hr, hx⟩
      · rintro ⟨r, x, rfl, hr, hx⟩; exact ⟨r, (h r).2 hr, x, hx, rfl⟩

theorem foldl_combine_length (as : List (List F)) : ∀ (out : List (List F)),
    (as.foldl combineStep out).length = out.length * (as.map List.length).prod := by
  induction as with
  | nil => intro out; simp
  | cons a as ih => intro out; rw [List.foldl_cons, ih, combineStep_length]; simp [mul_assoc]

theorem foldl_combine_nodup (as : List (List F)) : ∀ (out : List (List F)), out.Nodup →
    (∀ a ∈ as, a.Nodup) → (as.foldl combineStep out).Nodup := by
  induction as with
  | nil => intro out h _; simpa using h
  | cons a as ih =>
    intro out h1 h2
    rw [List.foldl_cons]
    exact ih _ (combineStep_nodup h1 (h2 a (by simp))) fun b hb => h2 b (by simp [hb])

/-- The combination of the arguments is their cartesian product. -/
theorem quadratureCombine_spec {args : List (List F)} {out : List (List F)}
    (h : quadratureCombine args = .ok out) :
    (∀ row, row ∈ out ↔ List.Forall₂ (· ∈ ·) row args) ∧
      out.length = (args.map List.length).prod ∧ ((∀ a ∈ args, a.Nodup) → out.Nodup) := by
  unfold quadratureCombine at h
  split at h
  · simp at h
  · split at h
    · simp at h
    · next a as _ =>
      injection h with h
      subst h
      refine ⟨?_, ?_, ?_⟩
      · have := foldl_combine_mem as (a.map fun x => [x]) [a] (by
          intro row
          constructor
          · intro h
            obtain ⟨x, hx, rfl⟩ := List.mem_map.1 h
            exact .cons hx .nil
          · intro h
            cases h with
            | cons h1 h2 => cases h2; exact List.mem_map.2 ⟨_, h1, rfl⟩)
        simpa using this
      · rw [foldl_combine_length]; simp
      · intro hnd
        refine foldl_combine_nodup as _ ?_ fun b hb => hnd b (by simp [hb])
        refine (hnd a (by simp)).map ?_
        intro x y h
        simpa using h

theorem quadratureCombine_ok {args : List (List F)} (hne : args ≠ [])
    (hs : (args.map List.length).prod * args.length ≤ 10 ^ 9) :
    ∃ out, quadratureCombine args = .ok out := by
  unfold quadratureCombine
  rw [if_neg (by omega)]
  cases args with
  | nil => exact absurd rfl hne
  | cons a as => exact ⟨_, rfl⟩

theorem prod_replicate_length (d : Nat) (l : List F) :
    ((List.replicate d l).map List.length).prod = l.length ^ d := by
  simp

theorem gridExclude_length {A : Arith F} {d m : Nat} {h : List (List F)}
    (hh : gridExclude A d m = .ok h) : h.length = m ^ d ∧ 1 ≤ m ∧ ∀ r ∈ h, r.length = d := by
  unfold gridExclude at hh
  split at hh
  · simp at hh
  · next hc =>
    have := quadratureCombine_spec hh
    refine ⟨?_, by omega, ?_⟩
    · rw [this.2.1, prod_replicate_length]; simp [lineExclude]
    · intro r hr
      have := ((this.1 r).1 hr).length_eq
      simpa using this

theorem gridInclude_length {A : Arith F} {d m : Nat} {h : List (List F)}
    (hh : gridInclude A d m = .ok h) : h.length = m ^ d ∧ 2 ≤ m ∧ ∀ r ∈ h, r.length = d := by
  unfold gridInclude at hh
  split at hh
  · simp at hh
  · next hc =>
    have := quadratureCombine_spec hh
    refine ⟨?_, by omega, ?_⟩
    · rw [this.2.1, prod_replicate_length]; simp [lineInclude]
    · intro r hr
      have := ((this.1 r).1 hr).length_eq
      simpa using this

theorem gridOnly_length {A : Arith F} {d m : Nat} {h : List (List F)}
    (hh : gridOnly A d m = .ok h) : h.length = 2 ^ (d - 1) * m ∧ 2 ≤ m ∧ ∀ r ∈ h, r.length = d := by
  unfold gridOnly at hh
  split at hh
  · simp at hh
  · next hc =>
    have := quadratureCombine_spec hh
    refine ⟨?_, by omega, ?_⟩
    · rw [this.2.1, List.map_append, List.prod_append, prod_replicate_length]; simp [lineInclude]
    · intro r hr
      have := ((this.1 r).1 hr).length_eq
      simp only [List.length_append, List.length_replicate, List.length_singleton] at this
      omega

theorem le_ceilSqrt_sq (n : Nat) : n ≤ ceilSqrt n * ceilSqrt n := by
  unfold ceilSqrt
  split
  · next h => exact h.ge
  · exact (Nat.lt_succ_sqrt n).le

theorem le_pow_of_sq {n m d : Nat} (hd : 2 ≤ d) (h1 : 1 ≤ m) (h : n ≤ m * m) : n ≤ m ^ d := by
  calc n ≤ m ^ 2 := by rw [pow_two]; exact h
    _ ≤ m ^ d := Nat.pow_le_pow_right h1 hd

/-- In two or more dimensions enough points are appended. -/
theorem Grid.extra_length {A : Arith F} {g : Grid} {d m : Nat} (hd : 2 ≤ d) {h : List (List F)}
    (hh : g.extra A d m = .ok h) : m ≤ h.length := by
  unfold Grid.extra at hh
  split at hh
  · obtain ⟨h1, _, _⟩ := gridOnly_length hh
    rw [h1]
    have h2 : 2 ^ 1 ≤ 2 ^ (d - 1) := Nat.pow_le_pow_right (by norm_num) (by omega)
    calc m ≤ 2 * ((m + 1) / 2) := by omega
      _ ≤ 2 ^ (d - 1) * max 2 ((m + 1) / 2) := Nat.mul_le_mul h2 (le_max_right _ _)
  · obtain ⟨h1, h2, _⟩ := gridInclude_length hh
    rw [h1]
    refine le_pow_of_sq hd (by omega) (le_trans (le_ceilSqrt_sq m) ?_)
    exact Nat.mul_le_mul (le_max_right _ _) (le_max_right _ _)
  · obtain ⟨h1, h2, _⟩ := gridExclude_length hh
    rw [h1]
    refine le_pow_of_sq hd (by omega) (le_trans (le_ceilSqrt_sq m) ?_)
    exact Nat.mul_le_mul (le_max_right _ _) (le_max_right _ _)
  · simp at hh

theorem shuffleRows_perm {α : Type} {perm : List Nat} {h : List α}
    (hp : perm.Perm (List.range h.length)) :
    ∃ h', shuffleRows perm h = .ok h' ∧ h'.Perm h := by
  by_cases hne : h = []
  · subst hne
    have : perm = [] := by simpa using hp
    subst this
    exact ⟨[], rfl, .nil⟩
  · obtain ⟨a, ha⟩ := List.exists_mem_of_ne_nil h hne
    refine ⟨perm.map fun i => h.getD i a, ?_, ?_⟩
    · refine mapE_ok_of_forall fun i hi => ?_
      have : i < h.length := by simpa using hp.mem_iff.1 hi
      rw [pyGet_lt this, getD_lt this]
    · refine (hp.map _).trans ?_
      have : (List.range h.length).map (fun i => h.getD i a) = h := by
        refine List.ext_getElem (by simp) ?_
        intro i h1 h2
        simp only [List.getElem_map, List.getElem_range]
        rw [getD_lt h2]
      rw [this]

theorem Grid.layout_width {A : Arith F} {g : Grid} {d n : Nat} {h : List (List F)}
    (hh : g.layout A d n = .ok h) : ∀ r ∈ h, r.length = d := by
  unfold Grid.layout at hh
  split at hh
  · exact (gridInclude_length hh).2.2
  · exact (gridExclude_length hh).2.2
  · exact (gridExclude_length hh).2.2
  · simp at hh

theorem Grid.extra_width {A : Arith F} {g : Grid} {d n : Nat} {h : List (List F)}
    (hh : g.extra A d n = .ok h) : ∀ r ∈ h, r.length = d := by
  unfold Grid.extra at hh
  split at hh
  · exact (gridOnly_length hh).2.2
  · exact (gridInclude_length hh).2.2
  · exact (gridExclude_length hh).2.2
  · simp at hh

/-- What a returned unit-cube design consists of. -/
theorem Grid.unit_cases {A : Arith F} {g : Grid} {d n : Nat} {perm : Nat → List Nat}
    (hp : ∀ k, (perm k).Perm (List.range k)) {M : List (List F)}
    (h : g.unit A d n perm = .ok M) :
    ∃ L, g.layout A d n = .ok L ∧
      ((n ≤ L.length ∧ ∃ L' : List (List F), L'.Perm L ∧ M = L'.take n) ∨
       (L.length < n ∧ ∃ E, g.extra A d (n - L.length) = .ok E ∧
          M.Perm (L ++ E.take (n - L.length)))) := by
  unfold Grid.unit at h
  rw [bind_eq_ok] at h
  obtain ⟨L, hL, h⟩ := h
  refine ⟨L, hL, ?_⟩
  split at h
  · next hgt =>
    obtain ⟨L', e1, e2⟩ := shuffleRows_perm (hp L.length)
    rw [e1, ok_bind] at h
    injection h with h
    exact Or.inl ⟨by omega, L', e2, h.symm⟩
  · split at h
    · next hlt =>
      rw [bind_eq_ok] at h
      obtain ⟨E, hE, h⟩ := h
      simp only at h
      obtain ⟨L', e1, e2⟩ := shuffleRows_perm (hp (L ++ E.take (n - L.length)).length)
      rw [e1] at h
      injection h with h
      exact Or.inr ⟨hlt, E, hE, h ▸ e2⟩
    · next h1 h2 =>
      obtain ⟨L', e1, e2⟩ := shuffleRows_perm (hp L.length)
      rw [e1] at h
      injection h with h
      subst h
      refine Or.inl ⟨by omega, L', e2, ?_⟩
      rw [List.take_of_length_le]
      rw [e2.length_eq]; omega

end Skopt

import Verif.Lemmas.Basic
import Verif.Model.Utils
import Verif.Spec.Space
import Verif.Model.Exact

/-! Helper lemmas on membership tests and distances. -/

namespace Skopt

variable {F : Type}

theorem Dim.contains_true [LinearOrder F] {d : Dim F} {v : Val F} :
    d.contains v = .ok true ↔ Within d v := by
  cases d with
  | real r =>
    cases v <;> simp [Dim.contains, Within, Val.toNum]
  | int r =>
    cases v <;> simp [Dim.contains, Within, Val.toNum]
  | cat c => simp [Dim.contains, Within]

theorem Dim.contains_ok_false [LinearOrder F] {d : Dim F} {v : Val F} (h : ¬ Within d v) :
    d.contains v = .ok false ∨ d.contains v = .error .typeError := by
  rw [← Dim.contains_true] at h
  cases d with
  | real r => cases v <;> simp_all [Dim.contains, Val.toNum]
  | int r => cases v <;> simp_all [Dim.contains, Val.toNum]
  | cat c => simp_all [Dim.contains]

theorem Space.contains_true_iff [LinearOrder F] {dims : List (Dim F)} {p : Point F} :
    (Space.contains dims p = .ok true ∧ p.length = dims.length) ↔
      List.Forall₂ Within dims p := by
  induction dims generalizing p with
  | nil =>
    cases p <;> simp [Space.contains]
  | cons d ds ih =>
    cases p with
    | nil => simp
    | cons v vs =>
      rw [List.forall₂_cons, ← ih, ← Dim.contains_true]
      have e : Space.contains (d :: ds) (v :: vs) = (d.contains v >>= fun b =>
        if b then Space.contains ds vs else .ok false) := rfl
      rw [e]
      constructor
      · rintro ⟨h1, h2⟩
        rw [bind_eq_ok] at h1
        obtain ⟨b, hb, h1⟩ := h1
        cases b
        · simp at h1
        · exact ⟨hb, by simpa using h1, by simpa using h2⟩
      · rintro ⟨h1, h2, h3⟩
        rw [h1]
        simpa [h2] using h3

end Skopt

import Verif.Model.GbrtFit
import Verif.Lemmas.Basic

/-!
# C85: fitting the quantile regression surrogate
-/

namespace Skopt

variable {G O D R : Type}

/-- The base estimator is one the documentation allows: none given, or a gradient boosting regressor with quantile
loss. -/
def BaseAllowed : Option (BaseReg G O) → Prop
  | none => True
  | some b => b.isGbr = true ∧ b.loss = "quantile"

/-- The parameters, apart from seed and quantile, that the user asks for: those of the base estimator, or
scikit-learn's. -/
def requested (o : O) : Option (BaseReg G O) → O
  | none => o
  | some b => b.other

theorem checkBase_ok {o : O} {base : Option (BaseReg G O)} {b : BaseReg G O} (h : checkBase o base = .ok b) :
    BaseAllowed base ∧ b.isGbr = true ∧ b.loss = "quantile" ∧ b.other = requested o base := by
  cases base with
  | none => cases h; exact ⟨trivial, rfl, rfl, rfl⟩
  | some c =>
    simp only [checkBase] at h
    split at h
    · cases h
    · next h1 =>
      split at h
      · cases h
      · next h2 =>
        obtain rfl := Except.ok.inj h
        have h1 : c.isGbr = true := by simpa using h1
        have h2 : c.loss = "quantile" := by simpa using h2
        exact ⟨⟨h1, h2⟩, h1, h2, rfl⟩

/-- **C85 (one regressor per quantile).** After `fit`, there is one regressor for each quantile, in the order of the
list: the one scikit-learn fits to the same data with quantile loss at that quantile, the parameters requested, and one
and the same generator state for all.  In particular the regressor of a quantile does not depend on the other
quantiles or on its position. -/
theorem C85_one_regressor_per_quantile (global : G) (seeded : Nat → G) (o : O)
    (skFit : BaseReg G O → D → Except PyErr R) (a : GbrtArgs G O) (data : D) (rs : List R) (base : Option (BaseReg G O))
    (h : gbrtFitObject global seeded o skFit a data = .ok (rs, base)) :
    ∃ g, (match a.seed with | .none => g = global | .int n => g = seeded n | .state g' => g = g') ∧
      List.Forall₂ (fun q r => skFit ⟨true, "quantile", q, .state g, requested o a.base⟩ data = .ok r) a.quantiles rs := by
  refine ⟨a.seed.generator global seeded, by cases a.seed <;> rfl, ?_⟩
  unfold gbrtFitObject at h
  simp only [bind_eq_ok, Except.ok.injEq, Prod.mk.injEq] at h
  obtain ⟨b, hb, fs, hf, rfl, -⟩ := h
  obtain ⟨-, h1, h2, h3⟩ := checkBase_ok hb
  have hf := mapE_eq_ok.1 hf
  rw [List.forall₂_map_left_iff] at hf
  refine hf.imp fun q r hr => ?_
  have : ({ b with seed := .state (a.seed.generator global seeded), alpha := q } : BaseReg G O) =
      ⟨true, "quantile", q, .state (a.seed.generator global seeded), requested o a.base⟩ := by
    cases b
    simp only at h1 h2 h3
    simp only [h1, h2, h3]
  rw [← this]
  exact hr

/-- **C85 (refusal).** A base estimator of another type or with another loss is refused with ValueError; every other
call succeeds unless scikit-learn's `fit` fails. -/
theorem C85_refusal (global : G) (seeded : Nat → G) (o : O) (skFit : BaseReg G O → D → Except PyErr R) (a : GbrtArgs G O)
    (data : D) :
    (¬ BaseAllowed a.base → gbrtFitObject global seeded o skFit a data = .error .valueError) ∧
    (BaseAllowed a.base → (∀ b, ∃ r, skFit b data = .ok r) →
      ∃ rs base, gbrtFitObject global seeded o skFit a data = .ok (rs, base) ∧ rs.length = a.quantiles.length) := by
  constructor
  · intro h
    have : checkBase o a.base = .error .valueError := by
      cases hb : a.base with
      | none => rw [hb] at h; exact (h trivial).elim
      | some b =>
        rw [hb] at h
        simp only [checkBase]
        split
        · rfl
        · next h1 =>
          split
          · rfl
          · next h2 => exact (h ⟨by simpa using h1, by simpa using h2⟩).elim
    simp [gbrtFitObject, this, bind, Except.bind]
  · intro h hf
    have : ∃ b, checkBase o a.base = .ok b := by
      cases hb : a.base with
      | none => exact ⟨_, rfl⟩
      | some b =>
        rw [hb] at h
        exact ⟨b, by simp [checkBase, h.1, h.2]⟩
    obtain ⟨b, hb⟩ := this
    obtain ⟨rs, hrs⟩ : ∃ rs, mapE (fun r => skFit r data) (a.quantiles.map fun q =>
        ({ ({ b with seed := .state (a.seed.generator global seeded) } : BaseReg G O) with alpha := q } : BaseReg G O)) = .ok rs := by
      generalize (a.quantiles.map fun q =>
        ({ ({ b with seed := .state (a.seed.generator global seeded) } : BaseReg G O) with alpha := q } : BaseReg G O)) = l
      induction l with
      | nil => exact ⟨[], rfl⟩
      | cons c l ih =>
        obtain ⟨rs, ih⟩ := ih
        obtain ⟨r, hr⟩ := hf c
        exact ⟨r :: rs, by simp only [mapE, hr, ih, ok_bind]⟩
    refine ⟨rs, _, by simp only [gbrtFitObject, hb, ok_bind, hrs]; rfl, ?_⟩
    simpa using mapE_length hrs

/-- **C85 (reproducible).** With an integer seed two fits give the same regressors, whatever the state of the global
generator, whatever seed the base estimator carries, and although the first fit has changed that seed.

Missing: reproducibility through the seed of the base estimator, which is ignored (`C85_refuted_base_seed_ignored`), and
a base estimator left as it was (`C85_refuted_base_changed`). -/
theorem C85_reproducible_partial (global global' : G) (seeded : Nat → G) (o : O) (skFit : BaseReg G O → D → Except PyErr R)
    (qs : List ℚ) (base : Option (BaseReg G O)) (n : Nat) (data : D) (rs : List R) (base' : Option (BaseReg G O))
    (h : gbrtFitObject global seeded o skFit ⟨qs, base, .int n⟩ data = .ok (rs, base')) :
    ∃ base'', gbrtFitObject global' seeded o skFit ⟨qs, base', .int n⟩ data = .ok (rs, base'') := by
  unfold gbrtFitObject at h ⊢
  simp only [bind_eq_ok, Except.ok.injEq, Prod.mk.injEq, SeedArg.generator] at h ⊢
  obtain ⟨b, hb, fs, hf, rfl, rfl⟩ := h
  cases base with
  | none => exact ⟨_, b, hb, fs, hf, rfl, rfl⟩
  | some c =>
    obtain ⟨-, h1, h2, -⟩ := checkBase_ok hb
    exact ⟨_, { b with seed := .state (seeded n) }, by simp [checkBase, h1, h2], fs, hf, rfl, rfl⟩

/-- A toy `fit` that records its parameters. -/
def recordFit (b : BaseReg Nat Unit) (_ : Unit) : Except PyErr (ℚ × SeedArg Nat) := .ok (b.alpha, b.seed)

/-- Three quantiles with seed 7 and a base estimator with seed 3.
Meets the hypotheses of `C85_one_regressor_per_quantile`, `C85_reproducible_partial`. -/
example : gbrtFitObject 0 (· + 100) () recordFit ⟨[1 / 2, 1 / 5], some ⟨true, "quantile", 9 / 10, .int 3, ()⟩, .int 7⟩ () =
    .ok ([(1 / 2, .state 107), (1 / 5, .state 107)], some ⟨true, "quantile", 9 / 10, .state 107, ()⟩) := rfl

/-- Meets the hypotheses of `C85_refusal`. -/
example : ¬ BaseAllowed (some (⟨true, "ls", 9 / 10, .none, ()⟩ : BaseReg Nat Unit)) := by
  rintro ⟨-, h⟩
  exact absurd h (by decide +kernel)

/-- **C85 refuted.** `fit` changes the object passed as `base_estimator`: its `random_state` is overwritten by a
generator. -/
theorem C85_refuted_base_changed (global : G) (seeded : Nat → G) (o : O) (skFit : BaseReg G O → D → Except PyErr R)
    (qs : List ℚ) (alpha : ℚ) (n : Nat) (s : SeedArg G) (data : D) (rs : List R) (base : Option (BaseReg G O))
    (h : gbrtFitObject global seeded o skFit ⟨qs, some ⟨true, "quantile", alpha, .int n, o⟩, s⟩ data = .ok (rs, base)) :
    base ≠ some ⟨true, "quantile", alpha, .int n, o⟩ := by
  unfold gbrtFitObject at h
  simp only [bind_eq_ok, Except.ok.injEq, Prod.mk.injEq] at h
  obtain ⟨b, hb, fs, hf, rfl, rfl⟩ := h
  intro e
  have := congrArg BaseReg.seed (Option.some.inj e)
  cases this

/-- **C85 refuted.** The seed of the base estimator does not make the fit reproducible: without a seed of its own the
regressor uses the global generator, so that the outcome depends on the state of the latter. -/
theorem C85_refuted_base_seed_ignored : ∃ (global global' : Nat) (base : BaseReg Nat Unit), base.seed = .int 3 ∧
    (gbrtFitObject global (· + 100) () recordFit ⟨[1 / 2], some base, .none⟩ ()).map Prod.fst ≠
    (gbrtFitObject global' (· + 100) () recordFit ⟨[1 / 2], some base, .none⟩ ()).map Prod.fst := by
  refine ⟨0, 1, ⟨true, "quantile", 9 / 10, .int 3, ()⟩, rfl, ?_⟩
  intro h
  have h : (Except.ok [((1 / 2 : ℚ), SeedArg.state 0)] : Except PyErr (List (ℚ × SeedArg Nat))) =
    .ok [((1 / 2 : ℚ), SeedArg.state 1)] := h
  injection h with h
  injection h with h _
  have := congrArg Prod.snd h
  cases this

end Skopt

import Verif.Model.Acquisition
import Verif.Lemmas.Basic

/-!
# C53: which models an acquisition function works with
-/

namespace Skopt

/-- **C53, the model has to fit the acquisition function**: `EI`, `PI` and `LCB` want a single regressor and raise
`TypeError` for the pair fitted to values and times; `EIps` and `PIps` want exactly two regressors, and raise
`AttributeError` for a single one and `ValueError` for any other number; `gp_hedge` is not an acquisition function by
itself.  With or without gradient makes no difference. -/
theorem C53_model_fits (p : Pred) (ps : List Pred) (g : PredGrad) (gs : List PredGrad) (y xi : ℝ) (k : Kappa)
    (acq : AcqFunc) :
    (acq = .EI ∨ acq = .PI ∨ acq = .LCB →
      gaussianAcquisition (.multi ps) y acq xi k = .error .typeError ∧
      gaussianAcquisitionGrad (.multi gs) y acq xi k = .error .typeError) ∧
    (acq = .EIps ∨ acq = .PIps →
      gaussianAcquisition (.one p) y acq xi k = .error .attributeError ∧
      gaussianAcquisitionGrad (.one g) y acq xi k = .error .attributeError ∧
      (ps.length ≠ 2 → gaussianAcquisition (.multi ps) y acq xi k = .error .valueError) ∧
      (gs.length ≠ 2 → gaussianAcquisitionGrad (.multi gs) y acq xi k = .error .valueError)) ∧
    (acq = .gpHedge → ∀ m m', gaussianAcquisition m y acq xi k = .error .valueError ∧
      gaussianAcquisitionGrad m' y acq xi k = .error .valueError) := by
  refine ⟨?_, ?_, ?_⟩
  · rintro (rfl | rfl | rfl) <;> exact ⟨rfl, rfl⟩
  · intro h
    have hp : ∀ {P : Type} (l : List P), l.length ≠ 2 → (Surrogate.multi l).pair = .error .valueError := by
      intro P l hl
      match l with
      | [] => rfl
      | [_] => rfl
      | [_, _] => exact absurd rfl hl
      | _ :: _ :: _ :: _ => rfl
    rcases h with rfl | rfl <;>
      exact ⟨rfl, rfl, fun h => by simp only [gaussianAcquisition, hp ps h]; rfl,
        fun h => by simp only [gaussianAcquisitionGrad, hp gs h]; rfl⟩
  · rintro rfl m m'
    exact ⟨rfl, rfl⟩

/-- Three regressors are too many for `EIps`, a pair is too many for `LCB`. -/
example : gaussianAcquisition (.multi [⟨[1], [1], 1, 1⟩, ⟨[1], [1], 1, 1⟩, ⟨[2], [1], 1, 1⟩]) 0 .EIps 0.01 (.num 1.96) =
      .error .valueError ∧
    gaussianAcquisition (.multi [⟨[1], [1], 1, 1⟩, ⟨[1], [1], 1, 1⟩]) 0 .LCB 0.01 (.num 1.96) = .error .typeError :=
  ⟨((C53_model_fits ⟨[], [], 1, 1⟩ _ ⟨0, 0, [], []⟩ [] 0 0.01 _ .EIps).2.1 (.inl rfl)).2.2.1 (by decide),
    ((C53_model_fits ⟨[], [], 1, 1⟩ _ ⟨0, 0, [], []⟩ [] 0 0.01 _ .LCB).1 (.inr (.inr rfl))).1⟩

end Skopt

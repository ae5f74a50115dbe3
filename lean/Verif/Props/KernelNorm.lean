import Verif.Lemmas.KernelNorm
import Verif.Props.OneStep

/-!
# C125: if the kernel bounds the objective, the predictions are never far off and a search with LCB has no regret
-/

namespace Skopt

open Matrix Filter Topology

variable {n d m : Nat}

/-! ## Specification -/

/-- A search: the points evaluated in order, the surrogate after each number of evaluations with the covariance of the
observed values, and the candidates from which the next point is chosen. -/
structure Session (d : Nat) where
  x : ℕ → Fin d → ℝ
  model : ∀ t, Gp t d
  cov : ∀ t, Matrix (Fin t) (Fin t) ℝ
  size : ℕ → ℕ
  cand : ∀ t, Fin (size t) → Fin d → ℝ

/-- The step after `t` evaluations: the surrogate with the kernel `k` has been fitted to the values of the objective at
the points evaluated so far, with noise of the variance `nu` allowed for, it predicts at the candidates, LCB is evaluated
and the first candidate with the smallest value is evaluated next. -/
def Session.ByLcb (s : Session d) (f : (Fin d → ℝ) → ℝ) (k : Kernel d) (nu kappa : ℝ) (t : ℕ) : Prop :=
  (s.model t).kernel = k ∧ (∀ i, (s.model t).X i = s.x i) ∧ Factored (s.model t) (s.cov t) ∧
  NoisyCov (s.model t) (s.cov t) (fun _ => nu) ∧
  ∃ (best xi : ℝ) (j : Fin (s.size t)) (p : Prediction d) (sd vals : List ℝ),
    ((s.model t).fittedTo (s.cov t) fun i => f (s.x i)).predict { std := true } (List.ofFn (s.cand t)) = .ok p ∧
    p.std = some sd ∧ gaussianAcquisition (.one { mu := p.mean, std := sd }) best .LCB xi (.num kappa) = .ok vals ∧
    npArgmin (vals.map Flt.fin) = .ok j.val ∧ s.x t = s.cand t j

/-- The normalisation of the observed values after `t` evaluations leaves an objective that the kernel bounds by `B`,
and divides by at most `D`. -/
def Session.Tame (s : Session d) (f : (Fin d → ℝ) → ℝ) (k : Kernel d) (B D : ℝ) (t : ℕ) : Prop :=
  0 < (s.model t).yStd ∧ (s.model t).yStd ≤ D ∧
  KernelBounded k B fun z => (f z - (s.model t).yMean) / (s.model t).yStd

/-- By how much the value found after `t` evaluations is worse than the value at `q`. -/
noncomputable def shortfall (s : Session d) (f : (Fin d → ℝ) → ℝ) (q : ℕ → Fin d → ℝ) (t : ℕ) : ℝ :=
  max 0 (f (s.x t) - f (q t))

/-! ## Lemmas -/

theorem lcb_least {s : Session d} {f : (Fin d → ℝ) → ℝ} {k : Kernel d} {nu kappa : ℝ} {t : ℕ}
    (h : s.ByLcb f k nu kappa t) (j : Fin (s.size t)) :
    ((s.model t).fittedTo (s.cov t) fun i => f (s.x i)).mean (s.x t) - kappa * (s.model t).std (s.x t) ≤
      ((s.model t).fittedTo (s.cov t) fun i => f (s.x i)).mean (s.cand t j) - kappa * (s.model t).std (s.cand t j) := by
  obtain ⟨-, -, -, -, best, xi, j₀, p, sd, vals, h1, h2, h3, h4, h5⟩ := h
  have e : ((s.model t).fittedTo (s.cov t) fun i => f (s.x i)).predict { std := true } (List.ofFn (s.cand t)) =
      .ok { mean := (List.ofFn (s.cand t)).map ((s.model t).fittedTo (s.cov t) fun i => f (s.x i)).mean,
            std := some ((List.ofFn (s.cand t)).map ((s.model t).fittedTo (s.cov t) fun i => f (s.x i)).std) } := by
    simp [Gp.predict, predictChecks, Bind.bind, Except.bind]
  rw [e] at h1
  injection h1 with h1
  subst h1
  injection h2 with h2
  subst h2
  have h6 := gp_lcb_values (g := s.model t) (K := s.cov t) (s.cand t) (fun i => f (s.x i)) best xi kappa
  simp only [List.map_ofFn] at h3
  have h8 := h3.symm.trans h6
  injection h8 with h8
  subst h8
  rw [npArgmin_fin] at h4
  obtain ⟨hlt, h9, -⟩ := npArgmin_spec h4
  have := h9 _ (List.mem_ofFn.2 ⟨j, rfl⟩)
  simp only [List.getElem_ofFn] at this
  rw [h5]
  exact this

theorem lcb_shortfall {s : Session d} {f : (Fin d → ℝ) → ℝ} {k : Kernel d} {nu kappa D : ℝ} {t : ℕ} (hnu : 0 ≤ nu)
    (hkap : 0 ≤ kappa) (hk : Noiseless k) (h : s.ByLcb f k nu kappa t) (hf : s.Tame f k kappa D t)
    (j : Fin (s.size t)) : f (s.x t) ≤ f (s.cand t j) + 2 * kappa * (s.model t).std (s.x t) := by
  have h1 := lcb_least h j
  obtain ⟨hker, hX, hK, hN, -⟩ := h
  obtain ⟨hs, -, hb⟩ := hf
  subst hker
  have e : (fun i : Fin t => f (s.x i)) = fun i : Fin t => f ((s.model t).X i) := by
    funext i; rw [hX]
  rw [e] at h1
  have h2 := abs_le.1 (band_of_bounded hK hN (fun _ => hnu) hs.ne' hk hkap hb (s.x t))
  have h3 := abs_le.1 (band_of_bounded hK hN (fun _ => hnu) hs.ne' hk hkap hb (s.cand t j))
  linarith [h2.2, h3.1]

theorem sum_inv_le (T : ℕ) : ∑ j ∈ Finset.range T, (if j = 0 then (0 : ℝ) else 1 / (j : ℝ)) ≤ 1 + Real.log T := by
  have h1 : ∑ j ∈ Finset.range T, (if j = 0 then (0 : ℝ) else 1 / (j : ℝ)) ≤
      ∑ j ∈ Finset.range (T + 1), (if j = 0 then (0 : ℝ) else 1 / (j : ℝ)) := by
    rw [Finset.sum_range_succ]
    have : (0 : ℝ) ≤ if T = 0 then (0 : ℝ) else 1 / (T : ℝ) := by split <;> positivity
    linarith
  refine h1.trans (le_trans (le_of_eq ?_) (harmonic_le_one_add_log T))
  rw [Finset.sum_range_succ']
  simp [harmonic]

/-! ## The property -/

/-- **C125 (band).** If the normalised objective is bounded by `B` in the kernel of the surrogate and has been observed
without error, then the predicted mean is within `B` predicted standard deviations of the objective, at every point. -/
theorem C125_band (g : Gp n d) (K : Matrix (Fin n) (Fin n) ℝ) (nz : Fin n → ℝ) (f : (Fin d → ℝ) → ℝ) (B : ℝ)
    (hK : Factored g K) (hN : NoisyCov g K nz) (hnz : ∀ i, 0 ≤ nz i) (hs : g.yStd ≠ 0) (hk : Noiseless g.kernel)
    (hB : 0 ≤ B) (hf : KernelBounded g.kernel B fun x => (f x - g.yMean) / g.yStd) (x : Fin d → ℝ) :
    ∃ p mu s, (g.fittedTo K fun i => f (g.X i)).predict { std := true } [x] = .ok p ∧ p.mean = [mu] ∧ p.std = some [s] ∧
      |f x - mu| ≤ B * s :=
  ⟨_, _, _, rfl, rfl, rfl, band_of_bounded hK hN hnz hs hk hB hf x⟩

/-- **C125 (which objectives).** Every weighted sum of finitely many kernel functions is bounded by the kernel. -/
theorem C125_sums (k : Kernel d) (hv : k.Valid) (hp : d ≤ 1 ∨ ¬ k.Periodic) (hk : Noiseless k) (z : Fin m → Fin d → ℝ)
    (c : Fin m → ℝ) :
    KernelBounded k (Real.sqrt (∑ i, ∑ j, c i * c j * k.value (z i) (z j))) fun x => ∑ j, c j * k.value x (z j) := by
  have hpos := noiseless_positive k hv hp hk
  intro n x w
  rw [Real.sq_sqrt (hpos.2 _ _ _), mul_comm]
  refine le_trans (le_of_eq ?_) (hpos.cauchy x z w c)
  congr 1
  refine Finset.sum_congr rfl fun i _ => ?_
  rw [Finset.mul_sum]
  exact Finset.sum_congr rfl fun j _ => by ring

/-- **C125 (one step).** The value at the suggestion of LCB exceeds the value at any candidate by at most `2 * kappa`
predicted standard deviations, if `kappa` is at least the bound of the objective. -/
theorem C125_one_step (s : Session d) (f : (Fin d → ℝ) → ℝ) (k : Kernel d) (nu kappa D : ℝ) (t : ℕ) (hnu : 0 ≤ nu)
    (hkap : 0 ≤ kappa) (hk : Noiseless k) (h : s.ByLcb f k nu kappa t) (hf : s.Tame f k kappa D t) :
    ∃ p sd, (s.model t).predict { std := true } [s.x t] = .ok p ∧ p.std = some [sd] ∧
      ∀ j, f (s.x t) ≤ f (s.cand t j) + 2 * kappa * sd :=
  ⟨_, _, rfl, rfl, lcb_shortfall hnu hkap hk h hf⟩

section
variable (f : (Fin d → ℝ) → ℝ) (k : Kernel d) (nu kappa D : ℝ) (n₀ : ℕ) (hnu : 0 ≤ nu) (hkap : 0 ≤ kappa)
  (hv : k.Valid) (hper : d ≤ 1 ∨ ¬ k.Periodic) (hk : Noiseless k)
include hnu hkap hv hper hk

/-- **C125 (regret).** The squared shortfalls of the suggestions of LCB behind any candidates add up to at most
`4 * kappa² * D²` times `T * δ + N * (V + nu * (1 + log T))` after `T` evaluations, if the points evaluated fall into `N`
groups within which the kernel distance is at most `δ`, and the prior variance is at most `V`. -/
theorem C125_regret (s : Session d) (h : ∀ t ≥ n₀, s.ByLcb f k nu kappa t) (hf : ∀ t ≥ n₀, s.Tame f k kappa D t)
    (q : ℕ → Fin d → ℝ) (hq : ∀ t ≥ n₀, ∃ j, q t = s.cand t j) (N : ℕ) (U : Fin N → Set (Fin d → ℝ)) (δ V : ℝ)
    (hδ : 0 ≤ δ) (hcov : ∀ t, s.x t ∈ ⋃ i, U i) (hU : ∀ i, ∀ x ∈ U i, ∀ y ∈ U i, kernelGap k x y ≤ δ)
    (hV : ∀ t, k.diag (s.x t) ≤ V) (T : ℕ) :
    ∑ t ∈ Finset.Ico n₀ T, shortfall s f q t ^ 2 ≤
      4 * kappa ^ 2 * D ^ 2 * (T * δ + N * (V + nu * (1 + Real.log T))) := by
  have hpos := noiseless_positive k hv hper hk
  choose c hc using fun t => Set.mem_iUnion.1 (hcov t)
  have hV0 : 0 ≤ V := by
    have := hV 0
    rw [(C57_prior_variance k hk _).1] at this
    exact (hpos.diag_nonneg _).trans this
  set φ : ℕ → ℝ := fun j => (if j = 0 then V else 0) + nu * (if j = 0 then 0 else 1 / (j : ℝ)) with hφ
  have hφ0 : ∀ j, 0 ≤ φ j := by
    intro j
    simp only [hφ]
    split <;> positivity
  have step : ∀ t ∈ Finset.Ico n₀ T, shortfall s f q t ^ 2 ≤ 4 * kappa ^ 2 * D ^ 2 *
      (δ + φ ((Finset.range t).filter fun i => c i = c t).card) := by
    intro t ht
    have ht := (Finset.mem_Ico.1 ht).1
    obtain ⟨j, hj⟩ := hq t ht
    have h1 := lcb_shortfall hnu hkap hk (h t ht) (hf t ht) j
    obtain ⟨hker, hX, hK, hN, -⟩ := h t ht
    obtain ⟨hs, hsD, -⟩ := hf t ht
    have h2 : (s.model t).rawVar (s.x t) ≤ δ + φ ((Finset.range t).filter fun i => c i = c t).card := by
      set J : Finset (Fin t) := Finset.univ.filter fun i : Fin t => c i = c t with hJ
      have hcard : ((Finset.range t).filter fun i => c i = c t).card = J.card := by
        have : (Finset.range t).filter (fun i => c i = c t) = J.map Fin.valEmbedding := by
          ext i
          simp only [hJ, Finset.mem_filter, Finset.mem_range, Finset.mem_map, Finset.mem_univ, true_and,
            Fin.valEmbedding_apply]
          exact ⟨fun hi => ⟨⟨i, hi.1⟩, hi.2, rfl⟩, by rintro ⟨a, ha, rfl⟩; exact ⟨a.2, ha⟩⟩
        rw [this, Finset.card_map]
      rw [hcard]
      rcases Nat.eq_zero_or_pos J.card with h0 | h0
      · have h3 := (C99_best_predictor (s.model t) (s.cov t) hK (s.x t)).2 ⟨0, rfl⟩
        have h4 : (s.model t).kernel.diag (s.x t) ≤ V := by rw [hker]; exact hV t
        simp only [predictorError, zero_dotProduct] at h3
        simp only [hφ, h0, if_true]
        linarith
      · have h3 := rawVar_group hK hN (by rw [hker]; exact hk) (by rw [hker]; exact hpos) (s.x t) J h0 (δ := δ) (by
          intro i hi
          rw [hX, hker]
          have := (Finset.mem_filter.1 hi).2
          exact hU (c t) _ (hc t) _ (this ▸ hc i))
        simp only [hφ, if_neg h0.ne']
        refine h3.trans (le_of_eq ?_)
        ring
    have h3 : (s.model t).std (s.x t) ^ 2 ≤ D ^ 2 * (δ + φ ((Finset.range t).filter fun i => c i = c t).card) := by
      rw [gp_std_sq, mul_comm]
      have := hφ0 ((Finset.range t).filter fun i => c i = c t).card
      refine mul_le_mul ?_ (max_le (by linarith) h2) (le_max_left _ _) (sq_nonneg _)
      exact pow_le_pow_left₀ hs.le hsD 2
    have h4 : shortfall s f q t ≤ 2 * kappa * (s.model t).std (s.x t) := by
      refine max_le ?_ ?_
      · have : 0 ≤ (s.model t).std (s.x t) := Real.sqrt_nonneg _
        positivity
      · rw [hj]; linarith
    calc shortfall s f q t ^ 2 ≤ (2 * kappa * (s.model t).std (s.x t)) ^ 2 := pow_le_pow_left₀ (le_max_left _ _) h4 2
      _ = 4 * kappa ^ 2 * (s.model t).std (s.x t) ^ 2 := by ring
      _ ≤ 4 * kappa ^ 2 * (D ^ 2 * (δ + φ ((Finset.range t).filter fun i => c i = c t).card)) :=
        mul_le_mul_of_nonneg_left h3 (by positivity)
      _ = _ := by ring
  refine (Finset.sum_le_sum step).trans ?_
  rw [← Finset.mul_sum, Finset.sum_add_distrib]
  refine mul_le_mul_of_nonneg_left (add_le_add ?_ ?_) (by positivity)
  · rw [Finset.sum_const, nsmul_eq_mul, Nat.card_Ico]
    exact mul_le_mul_of_nonneg_right (by exact_mod_cast Nat.sub_le _ _) hδ
  · refine (sum_visits_le c φ hφ0 n₀ T).trans (mul_le_mul_of_nonneg_left ?_ (by positivity))
    simp only [hφ, Finset.sum_add_distrib, ← Finset.mul_sum]
    refine add_le_add ?_ (mul_le_mul_of_nonneg_left (sum_inv_le T) hnu)
    rw [Finset.sum_ite_eq']
    split
    · exact le_rfl
    · exact hV0

end

/-- The bound of `C125_regret` per evaluation tends to zero. -/
theorem average_small (A N V nu : ℝ) {ε : ℝ} (hε : 0 < ε) :
    ∃ T₀ : ℕ, ∀ T ≥ T₀, A * (N * (V + nu * (1 + Real.log T))) ≤ ε * T := by
  have h1 : (fun T : ℕ => A * (N * (V + nu * (1 + Real.log T)))) =o[atTop] fun T : ℕ => (T : ℝ) := by
    have hlog : (fun T : ℕ => Real.log T) =o[atTop] fun T : ℕ => (T : ℝ) :=
      Real.isLittleO_log_id_atTop.comp_tendsto tendsto_natCast_atTop_atTop
    have hconst : ∀ b : ℝ, (fun _ : ℕ => b) =o[atTop] fun T : ℕ => (T : ℝ) := fun b =>
      Asymptotics.isLittleO_const_left.2 (.inr (tendsto_norm_atTop_atTop.comp tendsto_natCast_atTop_atTop))
    exact ((((hconst V).add (((hconst 1).add hlog).const_mul_left nu)).const_mul_left N).const_mul_left A)
  obtain ⟨T₀, hT⟩ := eventually_atTop.1 (h1.bound hε)
  refine ⟨T₀, fun T hT' => (le_abs_self _).trans ?_⟩
  have := hT T hT'
  simpa using this

/-- **C125 (no regret).** The mean squared shortfall of the suggestions of LCB behind any candidates tends to zero, at a
rate that depends on the kernel and the set in which the search takes place but neither on the objective nor on the
candidates, if the kernel bounds the normalised objective by `kappa`.  The points come from a set that is covered by
finitely many groups of small kernel distance. -/
theorem C125_no_regret (k : Kernel d) (nu kappa D : ℝ) (n₀ : ℕ) (hnu : 0 ≤ nu) (hkap : 0 ≤ kappa) (hv : k.Valid)
    (hper : d ≤ 1 ∨ ¬ k.Periodic) (hk : Noiseless k) (S : Set (Fin d → ℝ)) (hS : Coverable k S) (V : ℝ)
    (hV : ∀ x ∈ S, k.diag x ≤ V) {ε : ℝ} (hε : 0 < ε) :
    ∃ T₀ : ℕ, ∀ (s : Session d) (f : (Fin d → ℝ) → ℝ) (q : ℕ → Fin d → ℝ), (∀ t, s.x t ∈ S) →
      (∀ t ≥ n₀, s.ByLcb f k nu kappa t) → (∀ t ≥ n₀, s.Tame f k kappa D t) → (∀ t ≥ n₀, ∃ j, q t = s.cand t j) →
      ∀ T ≥ T₀, (∑ t ∈ Finset.Ico n₀ T, shortfall s f q t ^ 2) / T ≤ ε := by
  set A := 4 * kappa ^ 2 * D ^ 2
  have hA0 : 0 ≤ A := by positivity
  obtain ⟨N, U, h1, h2⟩ := hS (ε / 2 / (A + 1)) (by positivity)
  obtain ⟨T₀, hT₀⟩ := average_small A N V nu (half_pos hε)
  refine ⟨T₀ + 1, fun s f q hx h hf hq T hT => ?_⟩
  have hT0 : (0 : ℝ) < T := by exact_mod_cast (by omega : 0 < T)
  have h3 := C125_regret f k nu kappa D n₀ hnu hkap hv hper hk s h hf q hq N U _ V (by positivity)
    (fun t => h1 (hx t)) h2 (fun t => hV _ (hx t)) T
  have h4 := hT₀ T (by omega)
  rw [div_le_iff₀ hT0]
  refine h3.trans ?_
  have h5 : A * (T * (ε / 2 / (A + 1))) ≤ ε / 2 * T := by
    have : A * (T * (ε / 2 / (A + 1))) = ε / 2 * T * (A / (A + 1)) := by ring
    rw [this]
    refine mul_le_of_le_one_right (by positivity) ?_
    rw [div_le_one (by positivity)]
    linarith
  rw [mul_add]
  linarith

/-- **C125 (numeric spaces).** For every kernel of the code without Hamming kernel, the mean squared shortfall tends to
zero for a search in the unit cube, uniformly in the objective. -/
theorem C125_no_regret_cube (k : Kernel d) (nu kappa D : ℝ) (n₀ : ℕ) (hnu : 0 ≤ nu) (hkap : 0 ≤ kappa) (hv : k.Valid)
    (hper : d ≤ 1 ∨ ¬ k.Periodic) (hk : Noiseless k) (hh : ¬ k.HasHamming) {ε : ℝ} (hε : 0 < ε) :
    ∃ T₀ : ℕ, ∀ (s : Session d) (f : (Fin d → ℝ) → ℝ) (q : ℕ → Fin d → ℝ), (∀ t i, 0 ≤ s.x t i ∧ s.x t i ≤ 1) →
      (∀ t ≥ n₀, s.ByLcb f k nu kappa t) → (∀ t ≥ n₀, s.Tame f k kappa D t) → (∀ t ≥ n₀, ∃ j, q t = s.cand t j) →
      ∀ T ≥ T₀, (∑ t ∈ Finset.Ico n₀ T, shortfall s f q t ^ 2) / T ≤ ε := by
  have hc := kernel_continuous k hv hh
  have hS : IsCompact (Set.Icc (0 : Fin d → ℝ) 1) := isCompact_Icc
  obtain ⟨V, hV⟩ := (hS.image (f := fun x => k.value x x)
    (hc.comp (f := fun x : Fin d → ℝ => (x, x)) (by fun_prop))).bddAbove
  obtain ⟨T₀, h⟩ := C125_no_regret k nu kappa D n₀ hnu hkap hv hper hk _ (coverable_compact k hc hS) V
    (fun x hx => by
      rw [(C57_prior_variance k hk x).1]
      exact hV ⟨x, hx, rfl⟩) hε
  exact ⟨T₀, fun s f q hx => h s f q fun t => ⟨fun i => (hx t i).1, fun i => (hx t i).2⟩⟩

/-- **C125 (finite spaces).** For every kernel of the code and finitely many points, for instance the points of a
categorical space, the mean squared shortfall tends to zero. -/
theorem C125_no_regret_finite (k : Kernel d) (nu kappa D : ℝ) (n₀ : ℕ) (hnu : 0 ≤ nu) (hkap : 0 ≤ kappa) (hv : k.Valid)
    (hper : d ≤ 1 ∨ ¬ k.Periodic) (hk : Noiseless k) (S : Set (Fin d → ℝ)) (hS : S.Finite) {ε : ℝ} (hε : 0 < ε) :
    ∃ T₀ : ℕ, ∀ (s : Session d) (f : (Fin d → ℝ) → ℝ) (q : ℕ → Fin d → ℝ), (∀ t, s.x t ∈ S) →
      (∀ t ≥ n₀, s.ByLcb f k nu kappa t) → (∀ t ≥ n₀, s.Tame f k kappa D t) → (∀ t ≥ n₀, ∃ j, q t = s.cand t j) →
      ∀ T ≥ T₀, (∑ t ∈ Finset.Ico n₀ T, shortfall s f q t ^ 2) / T ≤ ε := by
  obtain ⟨V, hV⟩ := (hS.image fun x => k.diag x).bddAbove
  exact C125_no_regret k nu kappa D n₀ hnu hkap hv hper hk S (coverable_finite k hS) V
    (fun x hx => hV ⟨x, hx, rfl⟩) hε

/-- **C125 (best point found).** If a point `q` of the unit cube is among the candidates at every step, the best value
found is within `ε` of its value after finitely many evaluations, uniformly in the objective. -/
theorem C125_best_found (k : Kernel d) (nu kappa D : ℝ) (n₀ : ℕ) (hnu : 0 ≤ nu) (hkap : 0 ≤ kappa) (hv : k.Valid)
    (hper : d ≤ 1 ∨ ¬ k.Periodic) (hk : Noiseless k) (hh : ¬ k.HasHamming) {ε : ℝ} (hε : 0 < ε) :
    ∃ T₀ : ℕ, ∀ (s : Session d) (f : (Fin d → ℝ) → ℝ) (q : Fin d → ℝ), (∀ t i, 0 ≤ s.x t i ∧ s.x t i ≤ 1) →
      (∀ t ≥ n₀, s.ByLcb f k nu kappa t) → (∀ t ≥ n₀, s.Tame f k kappa D t) → (∀ t ≥ n₀, ∃ j, q = s.cand t j) →
      ∃ t < T₀, f (s.x t) ≤ f q + ε := by
  obtain ⟨T₀, h⟩ := C125_no_regret_cube k nu kappa D n₀ hnu hkap hv hper hk hh (ε := ε ^ 2 / 2) (by positivity)
  refine ⟨T₀ + 2 * n₀ + 1, fun s f q hx hl hf hq => ?_⟩
  by_contra hcon
  push Not at hcon
  have h1 := h s f (fun _ => q) hx hl hf hq (T₀ + 2 * n₀ + 1) (by omega)
  have hT : (0 : ℝ) < ((T₀ + 2 * n₀ + 1 : ℕ) : ℝ) := by positivity
  rw [div_le_iff₀ hT] at h1
  have h2 : ∀ t ∈ Finset.Ico n₀ (T₀ + 2 * n₀ + 1), ε ^ 2 ≤ shortfall s f (fun _ => q) t ^ 2 := by
    intro t ht
    have := hcon t (Finset.mem_Ico.1 ht).2
    exact pow_le_pow_left₀ hε.le (le_max_of_le_right (by linarith)) 2
  have h3 := Finset.sum_le_sum h2
  rw [Finset.sum_const, nsmul_eq_mul, Nat.card_Ico] at h3
  have h4 : ((T₀ + 2 * n₀ + 1 : ℕ) : ℝ) < 2 * ((T₀ + 2 * n₀ + 1 - n₀ : ℕ) : ℝ) := by
    exact_mod_cast (by omega : T₀ + 2 * n₀ + 1 < 2 * (T₀ + 2 * n₀ + 1 - n₀))
  nlinarith [sq_pos_of_pos hε]

/-! ## Examples -/

/-- The sequence in which each member is determined by the earlier ones. -/
def unroll {P : Type} (step : ∀ t : ℕ, (Fin t → P) → P) (t : ℕ) : P := step t fun i => unroll step i.1
termination_by t
decreasing_by exact i.2

/-- A surrogate with a kernel of the code for given points, without normalisation. -/
theorem gp_exists (k : Kernel d) (nu : ℝ) (hnu : 0 < nu) (hv : k.Valid) (hper : d ≤ 1 ∨ ¬ k.Periodic) (hk : Noiseless k)
    (t : ℕ) (X : Fin t → Fin d → ℝ) : ∃ (g : Gp t d) (K : Matrix (Fin t) (Fin t) ℝ), g.kernel = k ∧ g.X = X ∧
      g.yMean = 0 ∧ g.yStd = 1 ∧ Factored g K ∧ NoisyCov g K fun _ => nu := by
  have hpd : (Matrix.of (k.gram X) + diagonal fun _ : Fin t => nu).PosDef :=
    PosDef.posSemidef_add (gram_psd k hv hper X) (PosDef.diagonal fun _ => hnu)
  obtain ⟨L, -, hL, hLL⟩ := cholesky_exists _ hpd
  refine ⟨{ kernel := k, X := X, L := L, alpha := 0, yMean := 0, yStd := 1 }, _, rfl, rfl, rfl, rfl, ⟨hLL, hL⟩, ?_⟩
  intro i j
  simp only [Matrix.add_apply, Matrix.of_apply, Kernel.gram, diagonal_apply]
  split
  · next e => subst e; rw [(C57_prior_variance k hk _).1]
  · rfl

/-- There is a search with LCB for every kernel of the code, objective and non-empty list of candidates. -/
theorem session_exists (f : (Fin d → ℝ) → ℝ) (k : Kernel d) (nu kappa : ℝ) (hnu : 0 < nu) (hv : k.Valid)
    (hper : d ≤ 1 ∨ ¬ k.Periodic) (hk : Noiseless k) (xs : Fin (m + 1) → Fin d → ℝ) :
    ∃ s : Session d, (∀ t, s.ByLcb f k nu kappa t) ∧ (∀ t, (s.model t).yMean = 0 ∧ (s.model t).yStd = 1) ∧
      (∀ t j, ∃ i, xs j = s.cand t i) ∧ ∀ t, ∃ j, s.x t = xs j := by
  have hfit := gp_exists k nu hnu hv hper hk
  choose g K h1 h2 h3 h4 h5 h6 using hfit
  have hpick : ∀ t (X : Fin t → Fin d → ℝ), ∃ pick, Picks (g t X) (K t X) xs .LCB (fun _ => 0) 0 (.num kappa) pick :=
    fun t X => picks_exists _ _ _ _ _ _ _ _ fun y => gp_lcb_values _ _ _ _ _
  choose pick hp using hpick
  let x : ℕ → Fin d → ℝ := unroll fun t X => xs (pick t X fun i => f (X i))
  have hx : ∀ t, x t = xs (pick t (fun i => x i) fun i => f (x i)) := by
    intro t
    show unroll _ t = _
    rw [unroll]
  refine ⟨⟨x, fun t => g t fun i => x i, fun t => K t fun i => x i, fun _ => m + 1, fun _ => xs⟩, fun t => ?_,
    fun t => ⟨h3 _ _, h4 _ _⟩, fun t j => ⟨j, rfl⟩, fun t => ⟨_, hx t⟩⟩
  refine ⟨h1 _ _, fun i => by rw [h2], h5 _ _, h6 _ _, ?_⟩
  obtain ⟨p, sd, vals, a1, a2, a3, a4⟩ := hp t (fun i => x i) fun i => f (x i)
  exact ⟨_, _, _, p, sd, vals, a1, a2, a3, a4, hx t⟩

/-- A search on the unit square with the kernel of `gp_minimize` and two candidates, for an objective that is a
combination of kernel functions.
Meets the hypotheses of `C125_band`, `C125_sums`, `C125_one_step`, `C125_regret`, `C125_no_regret`, `C125_no_regret_cube`,
`C125_no_regret_finite`, `C125_best_found`. -/
example : ∃ (s : Session 2) (f : (Fin 2 → ℝ) → ℝ),
    let k : Kernel 2 := .prod (.const 1) (.matern ![1, 2] .fiveHalves)
    k.Valid ∧ ¬ k.Periodic ∧ Noiseless k ∧ ¬ k.HasHamming ∧ (∀ x, k.diag x ≤ 1) ∧
    Coverable k (Set.Icc 0 1) ∧ (∀ t i, 0 ≤ s.x t i ∧ s.x t i ≤ 1) ∧
    (∀ t, s.ByLcb f k 1e-10 1 t) ∧ (∀ t, s.Tame f k 1 1 t) ∧ (∀ t, ∃ j, ![1, 0] = s.cand t j) ∧
    f ![1, 0] < f ![0, 0] := by
  let k : Kernel 2 := .prod (.const 1) (.matern ![1, 2] .fiveHalves)
  have hv : k.Valid := by
    refine ⟨zero_le_one, fun i => ?_, .inr (.inr rfl)⟩
    fin_cases i <;> simp
  have hper : ¬ k.Periodic := by simp [k, Kernel.Periodic]
  have hk : Noiseless k := ⟨trivial, trivial⟩
  have hh : ¬ k.HasHamming := by simp [k, Kernel.HasHamming]
  obtain ⟨s, h1, h2, h3, h4⟩ := session_exists (fun x => ∑ j : Fin 1, (-1) * k.value x ((fun _ => ![1, 0]) j)) k 1e-10 1
    (by norm_num) hv (.inr hper) hk ![![0, 0], ![1, 0]]
  refine ⟨s, _, hv, hper, hk, hh, fun x => ?_, coverable_compact k (kernel_continuous k hv hh) isCompact_Icc, fun t i => ?_,
    h1, fun t => ?_, fun t => h3 t 1, ?_⟩
  · simp [Kernel.diag]
  · obtain ⟨j, hj⟩ := h4 t
    rw [hj]
    fin_cases j <;> fin_cases i <;> simp
  · obtain ⟨e1, e2⟩ := h2 t
    refine ⟨by rw [e2]; exact one_pos, by rw [e2], ?_⟩
    have := C125_sums k hv (.inr hper) hk (fun _ : Fin 1 => ![1, 0]) fun _ => -1
    have e3 : Real.sqrt (∑ i : Fin 1, ∑ j : Fin 1, (-1) * (-1) * k.value ((fun _ : Fin 1 => ![1, 0]) i) ((fun _ : Fin 1 => ![1, 0]) j)) = 1 := by
      have : k.value ![1, 0] ![1, 0] = 1 := by
        have := (C57_prior_variance k hk ![1, 0]).1
        rw [← this]
        simp [k, Kernel.diag]
      simp [this]
    rw [e3] at this
    simpa only [e1, e2, sub_zero, div_one] using this
  · have e1 : k.value ![1, 0] ![1, 0] = 1 := by
      rw [← (C57_prior_variance k hk ![1, 0]).1]
      simp [k, Kernel.diag]
    have e2 : k.value ![0, 0] ![1, 0] < 1 := by
      have : kdist ![1, 2] ![0, 0] ![1, 0] = 1 := by simp [kdist, kdistSq, kdiff]
      simp only [k, Kernel.value, Nu.value, this, one_mul, mul_one, one_pow]
      have h5 : Real.sqrt 5 ^ 2 = 5 := Real.sq_sqrt (by norm_num)
      have h6 : 0 < Real.sqrt 5 := Real.sqrt_pos.2 (by norm_num)
      rw [Real.exp_neg, ← div_eq_mul_inv, div_lt_one (Real.exp_pos _)]
      have := Real.sum_le_exp_of_nonneg h6.le 4
      simp [Finset.sum_range_succ, Nat.factorial] at this
      nlinarith
    simp only [Fin.sum_univ_one, e1]
    show -1 * 1 < -1 * k.value ![0, 0] ![1, 0]
    linarith

/-- **C125 needs `kappa` to be at least the bound.** Two candidates about which the kernel says nothing to each other, the
default `kappa=1.96` and the values -3 and -10, which the kernel bounds by 11: the search evaluates the first candidate
again and again and never tries the second. -/
theorem C125_needs_kappa :
    let k : Kernel 2 := .dot 0
    let f : (Fin 2 → ℝ) → ℝ := fun x => -3 * x 0 - 10 * x 1
    ∃ s : Session 2, KernelBounded k 11 f ∧ (∀ t, s.ByLcb f k (1 / 2) 1.96 t) ∧ (∀ t, s.Tame f k 11 1 t) ∧
      (∀ t, ∃ j, ![0, 1] = s.cand t j) ∧ ∀ t, shortfall s f (fun _ => ![0, 1]) t = 7 := by
  intro k f
  have hb : KernelBounded k 11 f := by
    intro n x w
    have e1 : ∑ i, w i * f (x i) = -3 * (∑ i, w i * x i 0) - 10 * ∑ i, w i * x i 1 := by
      rw [Finset.mul_sum, Finset.mul_sum, ← Finset.sum_sub_distrib]
      exact Finset.sum_congr rfl fun i _ => by simp only [f]; ring
    have e2 : ∑ i, ∑ j, w i * w j * k.value (x i) (x j) = (∑ i, w i * x i 0) ^ 2 + (∑ i, w i * x i 1) ^ 2 := by
      rw [sq, sq, Finset.sum_mul_sum, Finset.sum_mul_sum, ← Finset.sum_add_distrib]
      refine Finset.sum_congr rfl fun i _ => ?_
      rw [← Finset.sum_add_distrib]
      refine Finset.sum_congr rfl fun j _ => ?_
      simp only [k, Kernel.value, Fin.sum_univ_two]
      ring
    rw [e1, e2]
    nlinarith [sq_nonneg (10 * (∑ i, w i * x i 0) - 3 * ∑ i, w i * x i 1), sq_nonneg (∑ i, w i * x i 0),
      sq_nonneg (∑ i, w i * x i 1)]
  have hk : Noiseless k := trivial
  have hex := fun t => gp_exists k (1 / 2) (by norm_num) trivial (.inr (by simp [k, Kernel.Periodic])) hk t
    fun _ => ![1, 0]
  choose g K h1 h2 h3 h4 h5 h6 using hex
  refine ⟨⟨fun _ => ![1, 0], g, K, fun _ => 2, fun _ => ![![1, 0], ![0, 1]]⟩, hb, fun t => ⟨h1 t, fun i => by rw [h2], h5 t,
    h6 t, 0, 0, 0, ?_⟩, fun t => ⟨?_, ?_, ?_⟩, fun t => ⟨1, rfl⟩, fun t => ?_⟩
  · have hs : (g t).yStd ≠ 0 := by rw [h4]; exact one_ne_zero
    have hkt : ∀ x : Fin 2 → ℝ, (g t).kTrans x = fun _ => x 0 := by
      intro x
      funext i
      simp [Gp.kTrans, h1, h2, k, Kernel.value, Fin.sum_univ_two]
    have hb0 : ((g t).fittedTo (K t) fun _ => f ![1, 0]).mean ![0, 1] = 0 := by
      rw [fittedTo_mean (h5 t) hs, h3]
      simp [gpWeights, hkt, Pi.zero_def.symm, mulVec_zero]
    have hb1 : (g t).std ![0, 1] = 1 := by
      have : (g t).rawVar ![0, 1] = 1 := by
        rw [Gp.rawVar, h1]
        simp [hkt, k, Kernel.diag, Fin.sum_univ_two]
      rw [Gp.std, this, h4]
      simp
    have ha0 : ((g t).fittedTo (K t) fun _ => f ![1, 0]).mean ![1, 0] = -3 * (t / (t + 1 / 2)) := by
      have hw : ∀ j : Fin t, ∑ i, gpWeights (g t) (K t) ![1, 0] i + 1 / 2 * gpWeights (g t) (K t) ![1, 0] j = 1 := by
        intro j
        have := gpWeights_solve (h5 t) ![1, 0] j
        rw [hkt] at this
        have e : ∀ i, gpWeights (g t) (K t) ![1, 0] i * K t j i =
            gpWeights (g t) (K t) ![1, 0] i + if j = i then 1 / 2 * gpWeights (g t) (K t) ![1, 0] i else 0 := by
          intro i
          rw [h6 t j i, h1, h2]
          simp only [k, Kernel.value, Fin.sum_univ_two]
          split <;> simp <;> ring
        rw [Finset.sum_congr rfl fun i _ => e i, Finset.sum_add_distrib, Finset.sum_ite_eq, if_pos (Finset.mem_univ _)] at this
        simpa using this
      have hsum := Finset.sum_congr rfl fun j (_ : j ∈ Finset.univ) => hw j
      rw [Finset.sum_add_distrib, ← Finset.mul_sum] at hsum
      simp only [Finset.sum_const, Finset.card_univ, Fintype.card_fin, nsmul_eq_mul, mul_one] at hsum
      have hS : ∑ i, gpWeights (g t) (K t) ![1, 0] i = t / (t + 1 / 2) := by
        rw [eq_div_iff (by positivity)]
        linarith
      rw [fittedTo_mean (h5 t) hs, h3, ← Finset.sum_mul, hS]
      simp [f]
      ring
    have hval := gp_lcb_values (g := g t) (K := K t) ![![1, 0], ![0, 1]] (fun _ => f ![1, 0]) 0 0 1.96
    refine ⟨{ mean := (List.ofFn ![![1, 0], ![0, 1]]).map ((g t).fittedTo (K t) fun _ => f ![1, 0]).mean,
              std := some ((List.ofFn ![![1, 0], ![0, 1]]).map ((g t).fittedTo (K t) fun _ => f ![1, 0]).std) }, _, _,
      ?_, rfl, Eq.trans ?_ hval, ?_, rfl⟩
    · simp [Gp.predict, predictChecks, Bind.bind, Except.bind]
    · simp only [List.map_ofFn]
      rfl
    · rw [npArgmin_fin]
      have hle : ((g t).fittedTo (K t) fun _ => f ![1, 0]).mean ![1, 0] - 1.96 * (g t).std ![1, 0] ≤
          ((g t).fittedTo (K t) fun _ => f ![1, 0]).mean ![0, 1] - 1.96 * (g t).std ![0, 1] := by
        rw [ha0, hb0, hb1]
        rcases Nat.eq_zero_or_pos t with h0 | h0
        · subst h0
          have : (g 0).std ![1, 0] = 1 := by
            have : (g 0).rawVar ![1, 0] = 1 := by
              rw [Gp.rawVar, h1]
              simp [k, Kernel.diag, Fin.sum_univ_two]
            rw [Gp.std, this, h4]
            simp
          rw [this]
          simp
        · have h7 : (1 : ℝ) ≤ t := by exact_mod_cast h0
          have h8 : (2 : ℝ) / 3 ≤ t / (t + 1 / 2) := by
            rw [div_le_div_iff₀ (by norm_num) (by linarith)]
            linarith
          have h9 : 0 ≤ (g t).std ![1, 0] := Real.sqrt_nonneg _
          linarith
      simp only [List.ofFn_succ, List.ofFn_zero, Fin.succ_zero_eq_one, cons_val_zero, cons_val_one]
      simp [npArgmin, argBest, argBest.go]
      linarith
  · show 0 < (g t).yStd
    rw [h4]; exact one_pos
  · show (g t).yStd ≤ 1
    rw [h4]
  · show KernelBounded k 11 fun z => (f z - (g t).yMean) / (g t).yStd
    simpa only [h3, h4, sub_zero, div_one] using hb
  · simp only [shortfall, f]
    norm_num

end Skopt

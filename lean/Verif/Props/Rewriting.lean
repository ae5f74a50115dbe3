import Verif.Lemmas.Rewriting

/-!
# C138: order and direction of the parameters do not matter for the Gaussian process
-/

namespace Skopt

open Matrix

variable {n d : Nat}

/-- **C138, covariances.** The covariances of any points are the same numbers if the points are written in another
order, unit, zero and direction and the length scales follow (`Suits`: kernels with a single length scale follow
everything but units, the linear kernel everything but units and zeros).  So every likelihood is the same too. -/
theorem C138_covariances_partial (ρ : Rewriting d) (k : Kernel d) (h : ρ.Suits k) (X : Fin n → Fin d → ℝ) :
    (ρ.kernel k).gram (fun i => ρ.point (X i)) = k.gram X := rew_gram ρ k h X

/-- **C138, fitting.** If the search for hyperparameters finds the corresponding ones, `fit` leaves the corresponding
kernels behind and the same `noise_`: with every kernel given and every setting of `noise`, also when it raises. -/
theorem C138_fit (ρ : Rewriting d) (skFit skFit' : Kernel d → Kernel d)
    (hfit : ∀ k, skFit' (ρ.kernel k) = ρ.kernel (skFit k)) (k : Kernel d) (noise : Noise) :
    gpFit skFit' (some (ρ.kernel k)) noise =
      (gpFit skFit (some k) noise).map fun r => (ρ.kernel r.1, r.2.1, ρ.kernel r.2.2) := by
  have white : ∀ v, Kernel.sum (ρ.kernel k) (.white v) = ρ.kernel (.sum k (.white v)) := fun _ => rfl
  unfold gpFit fitKernel
  simp only [Option.getD_some]
  cases noise with
  | none => simp only [ok_bind, Except.map_ok', hfit, rew_removeNoise]
  | gaussian => simp only [ok_bind, Except.map_ok', white, hfit, rew_removeNoise]
  | otherString => rfl
  | level v =>
    simp only
    split
    · simp only [ok_bind, Except.map_ok', hfit, rew_removeNoise]
    · simp only [ok_bind, Except.map_ok', white, hfit, rew_removeNoise]

/-- **C138, predictions.** Fitted to the same observations, the points being written in another order, unit, zero and
direction, with the corresponding kernel, the Gaussian process gives the same answer to every call of `predict` at
the corresponding points: the same means, standard deviations, covariances and exceptions, and the gradients of the
chain rule.

Partial: kernels that can follow the change (`C138_refuted_linear`), and gradients of the exponential kernel only if
directions are kept (`C138_refuted_direction`). -/
theorem C138_predictions_partial (g g' : Gp n d) (k : Kernel d) (norm : Bool) (X : Fin n → Fin d → ℝ)
    (y alpha : Fin n → ℝ) (ρ : Rewriting d) (hs : ρ.Suits k) (hs' : ρ.Suits g.kernel)
    (hk : g'.kernel = ρ.kernel g.kernel) (h : FitsData g k norm X y alpha)
    (h' : FitsData g' (ρ.kernel k) norm (fun i => ρ.point (X i)) y alpha) (fl : PredictFlags)
    (hd : fl.meanGrad = true → ρ.Directed g.kernel) (xs : List (Fin d → ℝ)) :
    g'.predict fl (xs.map ρ.point) = (g.predict fl xs).map ρ.prediction := by
  obtain ⟨e1, e2⟩ := h.scale.perm (Equiv.refl _) h'.scale
  have hK : Matrix.of ((ρ.kernel k).gram fun i => ρ.point (X i)) + diagonal alpha =
      Matrix.of (k.gram X) + diagonal alpha := by rw [rew_gram ρ k hs]
  have hL := h'.fitted.1
  rw [hK, ← h.fitted.1] at hL
  have hinv : (g'.L * g'.Lᵀ)⁻¹ = (g.L * g.Lᵀ)⁻¹ := by rw [hL]
  have hKinv : g'.Kinv = g.Kinv := by rw [Kinv_eq, Kinv_eq, hinv]
  have halpha : g'.alpha = g.alpha := by rw [h'.fitted.2, h.fitted.2, hK, e1, e2]
  have hX : g'.X = fun i => ρ.point (g.X i) := by rw [h'.inputs, h.inputs]
  have hkt : ∀ x, g'.kTrans (ρ.point x) = g.kTrans x := by
    intro x
    funext i
    simp only [Gp.kTrans, hk, hX, rew_value ρ _ hs']
  have hmean : ∀ x, g'.mean (ρ.point x) = g.mean x := by
    intro x
    unfold Gp.mean
    rw [e1, e2, hkt, halpha]
  have hstd : ∀ x, g'.std (ρ.point x) = g.std x := by
    intro x
    unfold Gp.std Gp.rawVar
    rw [hkt, hKinv, e2, hk, rew_diag ρ _ hs']
  have hcov : ∀ i j x z, g'.covEntry i j (ρ.point x) (ρ.point z) = g.covEntry i j x z := by
    intro i j x z
    unfold Gp.covEntry
    rw [hk, e2, hinv, hkt, hkt, rew_diag ρ _ hs', rew_value ρ _ hs']
  have hgm : ∀ G : Fin n → Fin d → ℝ, g'.gradMean (fun i => ρ.slope (G i)) = ρ.slope (g.gradMean G) := by
    intro G
    funext j
    simp only [Gp.gradMean, Rewriting.slope, e2, halpha]
    rw [mul_div_right_comm, Finset.sum_div]
    congr 1
    exact Finset.sum_congr rfl fun i _ => by ring
  have hgs : ∀ x (G : Fin n → Fin d → ℝ),
      g'.gradStd (ρ.point x) (fun i => ρ.slope (G i)) = ρ.slope (g.gradStd x G) := by
    intro x G
    unfold Gp.gradStd
    rw [hstd, e2, hkt, hKinv]
    split
    · funext j; simp [Rewriting.slope]
    · funext j
      simp only [Rewriting.slope]
      have : ∑ a, g.kTrans x a * ∑ b, g.Kinv a b * (G b (ρ.perm j) / ρ.scale j) =
          (∑ a, g.kTrans x a * ∑ b, g.Kinv a b * G b (ρ.perm j)) / ρ.scale j := by
        rw [Finset.sum_div]
        refine Finset.sum_congr rfl fun a _ => ?_
        rw [mul_div_assoc, Finset.sum_div]
        congr 1
        exact Finset.sum_congr rfl fun b _ => by ring
      rw [this]
      ring
  have hch : predictChecks fl (xs.map ρ.point) = predictChecks fl xs := by simp [predictChecks]
  unfold Gp.predict
  have m1 : (xs.map ρ.point).map g'.mean = xs.map g.mean := by
    rw [List.map_map]; exact List.map_congr_left fun x _ => hmean x
  have m2 : (xs.map ρ.point).map g'.std = xs.map g.std := by
    rw [List.map_map]; exact List.map_congr_left fun x _ => hstd x
  have m3 : g'.cov (xs.map ρ.point) = g.cov xs := by
    unfold Gp.cov
    rw [List.zipIdx_map, List.map_map]
    simp only [List.map_map, Function.comp_def, Prod.map, hcov, id]
  rw [m1, m2, m3, hch]
  cases predictChecks fl xs with
  | error e => rfl
  | ok u =>
    simp only [ok_bind]
    split
    · rfl
    · split
      case isTrue hm =>
        cases xs with
        | nil => rfl
        | cons x xs =>
          simp only [List.map_cons, rew_gradient ρ hk hs' (hd hm) hX x]
          cases g.gradient x with
          | error e => rfl
          | ok G =>
            simp only [Except.map_ok', ok_bind, hgm, hgs]
            split <;> rfl
      case isFalse => rfl

/-- **C138, encoding.** Two descriptions of the same normalized space, in another order and with some parameters counted
downwards (`-x` for `x`, `1/x` for a log-uniform `x`): the rows of the one are the rows of the other in that order, with
`1 - u` for `u` where the direction has changed. -/
theorem C138_encoding {n : Nat} (hn : 0 < n) (D D' : Fin n → Dim ℝ) (σ : Equiv.Perm (Fin n)) (turned : Fin n → Bool)
    (f : Fin n → Val ℝ → Val ℝ) (h : ∀ i, Described (turned i) (D (σ i)) (D' i) (f i)) :
    ∃ enc : (Fin n → Val ℝ) → Fin n → ℝ, ∀ X : List (Fin n → Val ℝ), X ≠ [] →
      (∀ p ∈ X, InSpace exact (List.ofFn D) (List.ofFn p)) →
      (∀ p ∈ X, InSpace exact (List.ofFn D') (List.ofFn fun i => f i (p (σ i)))) ∧
      Space.transform exact (List.ofFn D) (X.map List.ofFn) = .ok (X.map fun p => List.ofFn fun i => .num (enc p i)) ∧
      Space.transform exact (List.ofFn D') (X.map fun p => List.ofFn fun i => f i (p (σ i))) =
        .ok (X.map fun p => List.ofFn fun i => .num (if turned i then 1 - enc p (σ i) else enc p (σ i))) := by
  have hf := fun i => (h i).facts
  have hch : ∀ (p : Fin n → Val ℝ) (i : Fin n), ∃ u : ℝ, Legal exact (D (σ i)) (p (σ i)) →
      (D (σ i)).transform exact [p (σ i)] = .ok [[.num u]] ∧
      (D' i).transform exact [f i (p (σ i))] = .ok [[.num (if turned i then 1 - u else u)]] := by
    intro p i
    by_cases hl : Legal exact (D (σ i)) (p (σ i))
    · obtain ⟨u, hu⟩ := (hf i).code _ hl
      exact ⟨u, fun _ => hu⟩
    · exact ⟨0, fun h => absurd h hl⟩
  choose U hU using hch
  refine ⟨fun p j => U p (σ.symm j), fun X hX hin => ?_⟩
  have hl : ∀ p ∈ X, ∀ i, Legal exact (D i) (p i) := by
    intro p hp i
    have := (List.forall₂_iff_get.1 (hin p hp)).2 i.val (by simp) (by simp)
    simpa using this
  have hl' : ∀ p ∈ X, ∀ i, Legal exact (D' i) (f i (p (σ i))) := fun p hp i => (hf i).legal _ (hl p hp _)
  refine ⟨fun p hp => ofFn_forall₂ (hl' p hp), ?_, ?_⟩
  · refine transform_ofFn hn (fun i => ?_) (fun i => ?_) X hX (fun p => p) _ hl fun p hp i => ?_
    · simpa using (hf (σ.symm i)).valid.1
    · simpa using (hf (σ.symm i)).noStr.1
    · have := (hU p (σ.symm i) (hl p hp _)).1
      simpa using this
  · have := transform_ofFn hn (D := D') (fun i => (hf i).valid.2) (fun i => (hf i).noStr.2) X hX
      (fun p i => f i (p (σ i))) (fun p i => if turned i then 1 - U p i else U p i) hl'
      fun p hp i => (hU p i (hl p hp _)).2
    simpa using this

/-- **C138.** The order in which the parameters of a search space are listed, and whether some of them are counted
upwards or downwards, does not matter for the Gaussian process: both descriptions of the space encode all points, and
when the process is fitted to the same observations, in either description, it predicts the same at every point.

Partial: as `C138_predictions_partial`; no linear kernel. -/
theorem C138_same_surrogate_partial (hn : 0 < n) (D D' : Fin n → Dim ℝ) (σ : Equiv.Perm (Fin n)) (turned : Fin n → Bool)
    (f : Fin n → Val ℝ → Val ℝ) (h : ∀ i, Described (turned i) (D (σ i)) (D' i) (f i)) :
    ∃ enc enc' : (Fin n → Val ℝ) → Fin n → ℝ,
      (∀ X : List (Fin n → Val ℝ), X ≠ [] → (∀ p ∈ X, InSpace exact (List.ofFn D) (List.ofFn p)) →
        Space.transform exact (List.ofFn D) (X.map List.ofFn) = .ok (X.map fun p => List.ofFn fun i => .num (enc p i)) ∧
        Space.transform exact (List.ofFn D') (X.map fun p => List.ofFn fun i => f i (p (σ i))) =
          .ok (X.map fun p => List.ofFn fun i => .num (enc' p i))) ∧
      ∀ {m : Nat} (g g' : Gp m n) (k : Kernel n) (norm : Bool) (X : Fin m → Fin n → Val ℝ) (y alpha : Fin m → ℝ),
        EvenVariance k → EvenVariance g.kernel →
        g'.kernel = (Rewriting.turning σ turned).kernel g.kernel →
        FitsData g k norm (fun i => enc (X i)) y alpha →
        FitsData g' ((Rewriting.turning σ turned).kernel k) norm (fun i => enc' (X i)) y alpha →
        ∀ fl : PredictFlags, (fl.meanGrad = true → (Rewriting.turning σ turned).Directed g.kernel) →
        ∀ xs : List (Fin n → Val ℝ), g'.predict fl (xs.map enc') =
          (g.predict fl (xs.map enc)).map (Rewriting.turning σ turned).prediction := by
  obtain ⟨enc, he⟩ := C138_encoding hn D D' σ turned f h
  have e : ∀ p, (fun i => if turned i then 1 - enc p (σ i) else enc p (σ i)) =
      (Rewriting.turning σ turned).point (enc p) := by
    intro p
    funext i
    simp only [Rewriting.point, Rewriting.turning]
    split <;> ring
  refine ⟨enc, fun p => (Rewriting.turning σ turned).point (enc p), fun X hX hin => ?_, ?_⟩
  · obtain ⟨-, h1, h2⟩ := he X hX hin
    refine ⟨h1, h2.trans ?_⟩
    congr 1
    refine List.map_congr_left fun p _ => ?_
    change _ = List.ofFn fun i => Val.num ((Rewriting.turning σ turned).point (enc p) i)
    rw [← e p]
  · intro m g g' k norm X y alpha hk hk' hkk hf hf' fl hd xs
    have := C138_predictions_partial g g' k norm _ y alpha _ (turning_suits σ turned k hk)
      (turning_suits σ turned _ hk') hkk hf hf' fl hd (xs.map enc)
    rw [List.map_map] at this
    exact this

/-! ### Examples -/

/-- A rate and a number of layers: `Real(0.01, 10, "log-uniform")`, `Integer(1, 5)`, normalized.
(skopt/space/space.py:252-282, 449-473) -/
noncomputable def rateLayers : Fin 2 → Dim ℝ :=
  ![.real ⟨1 / 100, 10, .logUniform, 10, .normalize, none, id⟩, .int ⟨((1 : ℤ) : ℝ), ((5 : ℤ) : ℝ), .uniform, 10, .normalize, none, id⟩]

/-- The number of layers counted downwards, and the time constant instead of the rate.
(skopt/space/space.py:252-282, 449-473) -/
noncomputable def layersTime : Fin 2 → Dim ℝ :=
  ![.int ⟨((-5 : ℤ) : ℝ), ((-1 : ℤ) : ℝ), .uniform, 10, .normalize, none, id⟩, .real ⟨10⁻¹, (1 / 100)⁻¹, .logUniform, 10, .normalize, none, id⟩]

theorem rateLayers_described : ∀ i, Described ((![true, true] : Fin 2 → Bool) i) (rateLayers (Equiv.swap 0 1 i)) (layersTime i)
    ((![onNum fun x => -x, onNum fun x => x⁻¹] : Fin 2 → Val ℝ → Val ℝ) i) := by
  intro i
  fin_cases i
  · simpa [rateLayers, layersTime] using Described.int (l := 1) (h := 5) 10 none (by norm_num)
  · simpa [rateLayers, layersTime] using
      Described.log (lo := 1 / 100) (hi := 10) (b := 10) none (by norm_num) (by norm_num) (by norm_num)

/-- Meets the hypotheses of `C138_encoding` and `C138_same_surrogate_partial`. -/
example : ∃ enc : (Fin 2 → Val ℝ) → Fin 2 → ℝ, ∀ X : List (Fin 2 → Val ℝ), X ≠ [] →
      (∀ p ∈ X, InSpace exact (List.ofFn rateLayers) (List.ofFn p)) →
      Space.transform exact (List.ofFn rateLayers) (X.map List.ofFn) =
        .ok (X.map fun p => List.ofFn fun i => .num (enc p i)) := by
  obtain ⟨enc, enc', h, _⟩ := C138_same_surrogate_partial (by norm_num) rateLayers layersTime (Equiv.swap 0 1) ![true, true]
    ![onNum fun x => -x, onNum fun x => x⁻¹] rateLayers_described
  exact ⟨enc, fun X h1 h2 => (h X h1 h2).1⟩

/-- A `Categorical` kept as it is. -/
example : Described false (.cat ⟨[.str "adam", .str "sgd"], none, .normalize, none, fun _ => "", fun _ => .error .valueError⟩)
    (.cat ⟨[.str "adam", .str "sgd"], none, .normalize, none, fun _ => "", fun _ => .error .valueError⟩) id := by
  refine .same rfl ⟨by simp, ?_, ?_, ?_, ?_⟩
  · simp [ValidDim, Homogeneous, Val.isSeq, Val.isStr, Val.isNum]
  · simp [Invertible]
  · simp [GoodBounds]
  · simp [Representable]

/-- One observation, the value 1, at the point `x`, with a kernel whose prior variance is one there. -/
noncomputable def oneObs (k : Kernel d) (x : Fin d → ℝ) : Gp 1 d where
  kernel := k
  X := fun _ => x
  L := 1
  alpha := fun _ => 1
  yMean := 0
  yStd := 1

theorem oneObs_fits (k : Kernel d) (x : Fin d → ℝ) (hk : k.diag x = 1) :
    FitsData (oneObs k x) k false (fun _ => x) (fun _ => 1) (fun _ => 0) := by
  have e : Matrix.of (k.gram fun _ : Fin 1 => x) + diagonal (fun _ => (0 : ℝ)) = 1 := by
    ext i j
    fin_cases i; fin_cases j
    simp [Kernel.gram, hk]
  refine ⟨rfl, ⟨rfl, rfl⟩, ?_⟩
  unfold Fitted
  rw [e]
  refine ⟨by simp [oneObs], ?_⟩
  funext i
  simp [oneObs]

/-- Meets the hypotheses of `C138_predictions_partial` (and of the theorem above): a product of a constant and a
Matérn kernel with one length scale per coordinate, the two coordinates swapped and the first counted downwards. -/
example (fl : PredictFlags) (xs : List (Fin 2 → ℝ)) :
    (oneObs (.prod (.const 1) (.matern ![3, 2] .fiveHalves)) ![1 - 1 / 4, 1 / 2]).predict fl
        (xs.map fun x => ![1 - x 1, x 0]) =
      ((oneObs (.prod (.const 1) (.matern ![2, 3] .fiveHalves)) ![1 / 2, 1 / 4]).predict fl xs).map
        (Rewriting.turning (Equiv.swap 0 1) ![true, false]).prediction := by
  have hk : ∀ a b : ℝ, (Kernel.prod (.const 1) (.matern ![a, b] .fiveHalves) : Kernel 2).diag = fun _ => 1 := by
    intro a b
    funext x
    simp [Kernel.diag]
  have he : EvenVariance (.prod (.const 1) (.matern ![2, 3] .fiveHalves) : Kernel 2) := ⟨trivial, trivial⟩
  have hker : (Rewriting.turning (Equiv.swap 0 1) ![true, false]).kernel
      (.prod (.const 1) (.matern ![2, 3] .fiveHalves) : Kernel 2) = .prod (.const 1) (.matern ![3, 2] .fiveHalves) := by
    simp only [Rewriting.kernel, Kernel.prod.injEq, Kernel.matern.injEq, true_and, and_true]
    funext i
    fin_cases i <;> simp [Rewriting.lengths, Rewriting.turning]
  have hpt : ∀ x : Fin 2 → ℝ, (Rewriting.turning (Equiv.swap 0 1) ![true, false]).point x = ![1 - x 1, x 0] := by
    intro x
    funext i
    fin_cases i
    · simp [Rewriting.point, Rewriting.turning]; ring
    · simp [Rewriting.point, Rewriting.turning]
  have h1 := oneObs_fits (.prod (.const 1) (.matern ![2, 3] .fiveHalves)) ![1 / 2, 1 / 4] (by rw [hk])
  have h2 := oneObs_fits (.prod (.const 1) (.matern ![3, 2] .fiveHalves)) ![1 - 1 / 4, 1 / 2] (by rw [hk])
  have := C138_predictions_partial (oneObs _ ![1 / 2, 1 / 4]) (oneObs (.prod (.const 1) (.matern ![3, 2] .fiveHalves)) ![1 - 1 / 4, 1 / 2]) _
    false _ _ _ (Rewriting.turning (Equiv.swap 0 1) ![true, false]) (turning_suits _ _ _ he) (turning_suits _ _ _ he) hker.symm h1 (by rw [hker]; simpa [hpt] using h2) fl
    (fun _ => ⟨trivial, trivial⟩) xs
  rw [show (Rewriting.turning (Equiv.swap 0 1) ![true, false]).point = fun x => ![1 - x 1, x 0] from funext hpt] at this
  exact this

/-- Meets the hypothesis of `C138_covariances_partial`: metres instead of feet, for one length scale per coordinate. -/
example : (Rewriting.mk (Equiv.refl (Fin 1)) (fun _ => 0.3048) (fun _ => 0) (by intro; norm_num)).Suits (.rbf ![5]) := trivial

/-- Meets the hypothesis of `C138_fit`: hyperparameters that are not optimized. -/
example (ρ : Rewriting d) (k : Kernel d) : gpFit id (some (ρ.kernel k)) .gaussian =
    .ok (ρ.kernel (.sum k (.white 1)), removeNoise .gaussian (ρ.kernel (.sum k (.white 1)))) := by
  rw [C138_fit ρ id id (fun _ => rfl)]
  simp [gpFit, fitKernel, rew_removeNoise, Except.map_ok', ok_bind]

/-! ### What does depend on the description -/

/-- The value 1 observed at the point `c` with the linear kernel; factor and dual coefficient given. -/
noncomputable def linearObs (c l a : ℝ) : Gp 1 1 where
  kernel := .dot 0
  X := fun _ => ![c]
  L := Matrix.of fun _ _ => l
  alpha := fun _ => a
  yMean := 0
  yStd := 1

theorem linearObs_fits (c l v : ℝ) (hl : l * l = c * c + v) (h0 : l ≠ 0) :
    FitsData (linearObs c l (l * l)⁻¹) (.dot 0) false (fun _ => ![c]) (fun _ => 1) (fun _ => v) := by
  have e : Matrix.of ((Kernel.dot 0 : Kernel 1).gram fun _ : Fin 1 => ![c]) + diagonal (fun _ => v) =
      Matrix.of fun _ _ => l * l := by
    ext i j
    fin_cases i; fin_cases j
    simp [Kernel.gram, Kernel.diag, hl]
  refine ⟨rfl, ⟨rfl, rfl⟩, ?_⟩
  unfold Fitted
  rw [e]
  constructor
  · ext i j
    simp [linearObs, Matrix.mul_apply]
  · rw [show (Matrix.of fun _ _ : Fin 1 => l * l)⁻¹ = Matrix.of fun _ _ => (l * l)⁻¹ from
      Matrix.inv_eq_right_inv (by
        ext i j
        fin_cases i; fin_cases j
        simp [Matrix.mul_apply]
        field_simp)]
    funext i
    simp [linearObs, Matrix.mulVec, dotProduct]

/-- **C138 is false for the linear kernel**: with `DotProduct`, a parameter counted downwards in the unit interval gives other
predictions.  The value 1, observed with noise variance 9/16 at the encoded point 1, is predicted to be 16/25 there; counted
downwards, the point is 0 and the prediction is 0. -/
theorem C138_refuted_linear :
    FitsData (linearObs 1 (5 / 4) (5 / 4 * (5 / 4))⁻¹) (.dot 0) false (fun _ => ![1]) (fun _ => 1) (fun _ => 9 / 16) ∧
    FitsData (linearObs 0 (3 / 4) (3 / 4 * (3 / 4))⁻¹) (.dot 0) false (fun _ => ![0]) (fun _ => 1) (fun _ => 9 / 16) ∧
    (linearObs 1 (5 / 4) (5 / 4 * (5 / 4))⁻¹).mean ![1] = 16 / 25 ∧
    (linearObs 0 (3 / 4) (3 / 4 * (3 / 4))⁻¹).mean ![0] = 0 := by
  refine ⟨linearObs_fits _ _ _ (by norm_num) (by norm_num), linearObs_fits _ _ _ (by norm_num) (by norm_num), ?_, ?_⟩
  · simp [Gp.mean, Gp.kTrans, linearObs, Kernel.value]
    norm_num
  · simp [Gp.mean, Gp.kTrans, linearObs, Kernel.value]

/-- **C138 is false for gradients of the exponential kernel**: at an observed point `gradient_x` returns -1 (kernels.py:110-129),
whatever the direction of the coordinate.  Counted upwards the mean is said to fall to the right of the observation, counted
downwards it is said to fall to the left. -/
theorem C138_refuted_direction :
    FitsData (oneObs (.matern ![1] .half) ![0]) (.matern ![1] .half : Kernel 1) false (fun _ => ![0]) (fun _ => 1) (fun _ => 0) ∧
    FitsData (oneObs (.matern ![1] .half) ![1]) (.matern ![1] .half : Kernel 1) false (fun _ => ![1]) (fun _ => 1) (fun _ => 0) ∧
    ∃ p p', (oneObs (.matern ![1] .half : Kernel 1) ![0]).predict { meanGrad := true } [![0]] = .ok p ∧
      (oneObs (.matern ![1] .half : Kernel 1) ![1]).predict { meanGrad := true } [![1]] = .ok p' ∧
      p.meanGrad = some ![-1] ∧ p'.meanGrad = some ![-1] := by
  refine ⟨oneObs_fits _ _ (by simp [Kernel.diag]), oneObs_fits _ _ (by simp [Kernel.diag]), ?_⟩
  have key : ∀ c : ℝ, ∃ p, (oneObs (.matern ![1] .half : Kernel 1) ![c]).predict { meanGrad := true } [![c]] = .ok p ∧
      p.meanGrad = some ![-1] := by
    intro c
    refine ⟨_, rfl, ?_⟩
    refine congrArg some ?_
    funext j
    fin_cases j
    simp [Gp.gradMean, oneObs, maternHalfGrad, kdist, kdistSq, kdiff]
  obtain ⟨p, h1, h2⟩ := key 0
  obtain ⟨p', h1', h2'⟩ := key 1
  exact ⟨p, p', h1, h1', h2, h2'⟩

end Skopt

import Verif.Lemmas.Lucky
import Mathlib.Analysis.Complex.ExponentialBounds

/-!
# C139: how good a suggestion found among random candidates is
-/

namespace Skopt

open MeasureTheory

variable {M R G : Type}

/-! ## Lemmas -/

/-- With `acq_optimizer="sampling"` the suggestion is the candidate rated best. -/
theorem Candidates.choice {W : World ℝ M R G} {dims : List (Dim ℝ)} (hd : Workable dims) {s : Opt ℝ M R}
    (hsamp : s.cfg.lbfgs = false) (hest : s.cfg.hasEst = true) {x : XArg ℝ} {y : YArg ℝ} {m : M} {best : Flt ℝ} {r : R}
    {ω : Fin s.cfg.nPoints → Fin dims.length → ℝ} (h : Candidates W dims s x y m best r ω) {c : AcqFunc}
    (hc : s.cfg.acq.candidates = [c]) {a : List (Val ℝ) → ℝ} (ha : Rates W m best c a) :
    ∃ (P : List (Point ℝ)) (X : List (List (Val ℝ))) (p : Point ℝ) (row : List (Val ℝ)),
      Space.rvs exact dims (columnDraws ω) = .ok P ∧
      List.Forall₂ (fun p r => Space.transform exact dims [p] = .ok [r]) P X ∧ InSpace exact dims p ∧
      (tell exact W dims { s with rng := r } x y true).1.nextX = some p ∧ Space.transform exact dims [p] = .ok [row] ∧
      row ∈ X ∧ ∀ row' ∈ X, a row ≤ a row' := by
  obtain ⟨P, X, r₁, r₂, row, ps, p, g1, c2, hP, g2, g2', g5, g6, g7, g8⟩ := h.search hd hest hc
  obtain ⟨values, i, enc, k1, k2, k3, k4⟩ := proposeOne_sampling hsamp g5
  rw [ha X] at k1
  injection k1 with k1
  subst k1
  have hrow : row = enc := by
    rcases k4 with k4 | k4
    · exact k4
    · rw [C62_clip_changes_nothing_partial exact exact_mono dims hd.valid (by simpa [exact] using hd.invertible)
        hd.bounds P c2 X g2' enc (pyGet_mem k3)] at k4
      injection k4 with k4
      exact k4.symm
  subst hrow
  obtain ⟨M', m1, m2⟩ := C02_round_trip_partial dims hd.nonempty hd.valid hd.invertible
    (Or.inl fun d h => (hd.bounds d h).yieldsNoStr) P hP c2 fun p hp => hd.representable (c2 p hp)
  rw [g2'] at m1
  injection m1 with m1
  subst m1
  have hXne : X ≠ [] := by
    rintro rfl
    simp [pyGet] at k3
  have hinv := (C67_inverse_pointwise_partial exact dims hd.nonempty hd.valid (fun c hc => by
    rcases hd.bounds _ hc with h | h <;> simp [h]) X hXne P).1 m2
  rw [List.forall₂_iff_get] at hinv
  have hget := pyGet_eq_ok.1 k3
  obtain ⟨hiX, hrowX⟩ := List.getElem?_eq_some_iff.1 hget
  have hip : i < P.length := by rw [← hinv.1]; exact hiX
  have hp := hinv.2 i hiX hip
  simp only [List.get_eq_getElem, hrowX] at hp
  rw [g6] at hp
  injection hp with hp
  subst hp
  simp only [pyGet, List.getElem?_cons_zero, Except.ok.injEq] at g7
  subst g7
  obtain ⟨hiv, hmin, _⟩ := npArgmin_spec k2
  have henc := (List.forall₂_iff_get.1 g2).2 i hip hiX
  simp only [List.get_eq_getElem, hrowX] at henc
  refine ⟨P, X, P[i], row, g1, g2, c2 _ (List.getElem_mem hip), g8, henc, hrowX ▸ List.getElem_mem hiX, ?_⟩
  intro row' hm
  have := hmin (.fin (a row')) (List.mem_map.2 ⟨row', hm, rfl⟩)
  simp only [List.getElem_map, hrowX] at this
  exact Flt.fin_le_fin.1 this

/-- With `acq_optimizer="sampling"` the suggestion is rated at most `v` if and only if one of the candidates is. -/
theorem Candidates.sampled {W : World ℝ M R G} {dims : List (Dim ℝ)} (hd : Workable dims) {s : Opt ℝ M R}
    (hsamp : s.cfg.lbfgs = false) (hest : s.cfg.hasEst = true) {x : XArg ℝ} {y : YArg ℝ} {m : M} {best : Flt ℝ} {r : R}
    {ω : Fin s.cfg.nPoints → Fin dims.length → ℝ} (h : Candidates W dims s x y m best r ω) {c : AcqFunc}
    (hc : s.cfg.acq.candidates = [c]) {a : List (Val ℝ) → ℝ} (ha : Rates W m best c a) (v : ℝ) :
    (∃ p, (tell exact W dims { s with rng := r } x y true).1.nextX = some p ∧ p ∈ atMost dims a v) ↔
      ∃ j, ∃ p, Space.rvs exact dims (List.ofFn fun i => rawOf (ω j i)) = .ok [p] ∧ p ∈ atMost dims a v := by
  obtain ⟨P, X, p, row, g1, g2, -, g8, henc, hrow, hmin⟩ := h.choice hd hsamp hest hc ha
  rw [candidate_hits hd g1 g2 a v, g8]
  constructor
  · rintro ⟨q, hq, row', e1, e2⟩
    injection hq with hq
    subst hq
    rw [henc] at e1
    simp only [Except.ok.injEq, List.cons.injEq, and_true] at e1
    subst e1
    exact ⟨row, hrow, e2⟩
  · rintro ⟨row', hm, hv⟩
    exact ⟨_, rfl, row, henc, (hmin row' hm).trans hv⟩

/-- With `acq_optimizer="lbfgs"` the suggestion decodes a point of the box that is rated no worse than every candidate. -/
theorem Candidates.refined {W : World ℝ M R G} {dims : List (Dim ℝ)} (hd : Workable dims) {s : Opt ℝ M R}
    (hl : s.cfg.lbfgs = true) (hres : s.cfg.nRestarts ≠ 0) (hest : s.cfg.hasEst = true) {x : XArg ℝ} {y : YArg ℝ} {m : M}
    {best : Flt ℝ} {r : R} {ω : Fin s.cfg.nPoints → Fin dims.length → ℝ} (h : Candidates W dims s x y m best r ω)
    {c : AcqFunc} (hc : s.cfg.acq.candidates = [c]) {a : List (Val ℝ) → ℝ} (ha : Rates W m best c a)
    (hsort : Argsorts W.argsort) (himp : Improves W dims m best c a) {v : ℝ}
    (hit : ∃ j, ∃ p, Space.rvs exact dims (List.ofFn fun i => rawOf (ω j i)) = .ok [p] ∧ p ∈ atMost dims a v) :
    ∃ z p, a z ≤ v ∧ Space.inverseTransform exact dims [z] = .ok [p] ∧
      (tell exact W dims { s with rng := r } x y true).1.nextX = some p := by
  obtain ⟨P, X, r₁, r₂, row, ps, p, g1, c2, hP, g2, g2', g5, g6, g7, g8⟩ := h.search hd hest hc
  rw [candidate_hits hd g1 g2 a v] at hit
  obtain ⟨e, he, hev⟩ := hit
  obtain ⟨values, runs, k, z, w, k1, k2, k3, k4, k5⟩ := proposeOne_lbfgs hl g5
  rw [ha X] at k1
  injection k1 with k1
  obtain ⟨j, hj, rfl⟩ := List.getElem_of_mem he
  have hlen : values.length = X.length := by rw [← k1, List.length_map]
  have hval : ∀ i (hi : i < X.length), values[i]? = some (.fin (a X[i])) := by
    intro i hi
    rw [← k1, List.getElem?_map, List.getElem?_eq_getElem hi]
    rfl
  obtain ⟨hperm, hpw⟩ := hsort values (by rw [← k1]; simp)
  have hX : ∀ r ∈ X, InBox (Space.transformedBounds exact dims) r :=
    C04_transformed_bounds_partial exact exact_mono dims hd.valid (by simpa [exact] using hd.invertible) hd.bounds P c2 X g2'
  have hbox : ∀ run ∈ runs, ∃ e ∈ X, InBox (Space.transformedBounds exact dims) run.1 ∧ a run.1 ≤ a e ∧
      run.2 = .fin (a run.1) := by
    intro run hrun
    obtain ⟨n, hn, rfl⟩ := List.getElem_of_mem hrun
    have hn' : n < ((W.argsort values).take s.cfg.nRestarts).length := by rw [k2.length_eq]; exact hn
    obtain ⟨x0, g, q1, q2⟩ := (List.forall₂_iff_get.1 k2).2 n hn' hn
    exact ⟨x0, List.mem_of_getElem? q1, himp g x0 _ _ (hX x0 (List.mem_of_getElem? q1)) q2⟩
  obtain ⟨-, -, b1, -, b3⟩ := hbox (z, w) (List.mem_of_getElem? k3)
  have hfirst : ∃ run ∈ runs, a run.1 ≤ v ∧ run.2 = .fin (a run.1) := by
    cases hs : W.argsort values with
    | nil =>
      rw [hs] at hperm
      have := hperm.length_eq
      simp only [List.length_nil, List.length_range] at this
      omega
    | cons i rest =>
      rw [hs] at hperm hpw k2
      obtain ⟨n, hnr⟩ := Nat.exists_eq_succ_of_ne_zero hres
      rw [hnr, List.take_succ_cons] at k2
      cases k2 with
      | @cons _ run0 _ runs' q1 q2 =>
        obtain ⟨x0, g, e1, e2⟩ := q1
        obtain ⟨hi, rfl⟩ := List.getElem?_eq_some_iff.1 e1
        have hle : a X[i] ≤ a X[j] := by
          have hjm : j ∈ i :: rest := hperm.symm.subset (List.mem_range.2 (by omega))
          rcases List.mem_cons.1 hjm with rfl | hjm
          · exact le_refl _
          · exact Flt.fin_le_fin.1 ((List.pairwise_cons.1 hpw).1 j hjm _ _ (hval i hi) (hval j hj))
        obtain ⟨-, i2, i3⟩ := himp g _ _ _ (hX _ (List.getElem_mem hi)) e2
        exact ⟨run0, List.mem_cons_self, (i2.trans hle).trans hev, i3⟩
  obtain ⟨run, hrun, v1, v2⟩ := hfirst
  have hwv : a z ≤ v := by
    have := k4 run hrun
    rw [v2, show w = .fin (a z) from b3] at this
    exact (Flt.fin_le_fin.1 this).trans v1
  have hrow : row = z := by
    rcases k5 with k5 | k5
    · exact k5
    · rw [clipRow_noop b1] at k5
      exact (Except.ok.inj k5).symm
  subst hrow
  refine ⟨row, p, hwv, ?_, g8⟩
  have hinv := (C67_inverse_pointwise_partial exact dims hd.nonempty hd.valid (fun c hc => by
    rcases hd.bounds _ hc with h | h <;> simp [h]) [row] (by simp) ps).1 g6
  cases hinv with
  | cons q1 q2 =>
    cases q2
    simp only [pyGet, List.getElem?_cons_zero, Except.ok.injEq] at g7
    rw [← g7]
    exact q1

/-- The numbers for which no candidate is rated at most `v`. -/
theorem all_miss (dims : List (Dim ℝ)) (n : Nat) (T : Set (Point ℝ)) :
    drawsLaw dims n {ω | ¬ ∃ j, ∃ p, Space.rvs exact dims (List.ofFn fun i => rawOf (ω j i)) = .ok [p] ∧ p ∈ T} =
      missChance dims T ^ n := by
  unfold missChance
  rw [← drawsLaw_pi]
  congr 1
  ext ω
  simp only [Set.mem_ofPred_eq, Set.mem_pi, Set.mem_univ, true_implies, not_exists]

/-- `"EI"` rates every point by the expectation of the improvement, negated, or 0 without uncertainty. -/
theorem ei_rates {W : World ℝ M R G} {predict : M → List (List (Val ℝ)) → Pred} {xi : ℝ} {kappa : Kappa}
    (hp : GaussianValues W predict .EI xi kappa) {est : M} {m sd : List (Val ℝ) → ℝ} (h : PredictsAt (predict est) m sd)
    (best : ℝ) : Rates W est (.fin best) .EI fun row =>
      -(if 0 < sd row then expectedImprovement (best - xi) (m row) (sd row) else 0) := by
  intro X
  obtain ⟨ei, e1, e2, e3⟩ := C53_expected_improvement_partial (predict est X) (hp.muDim est X) (hp.stdDim est X)
    (by rw [hp.mu, hp.std]) best xi
  have e : ei = X.map fun row => if 0 < sd row then expectedImprovement (best - xi) (m row) (sd row) else 0 := by
    rw [h X] at e2 e3
    refine List.ext_getElem (by simpa using e2) fun i h1 h2 => ?_
    rw [List.length_map] at h2
    rw [List.getElem_map]
    have := e3 i (m X[i]) (sd X[i]) ei[i] (by simp [h2]) (by simp [h2]) (List.getElem?_eq_getElem h1)
    split_ifs with hs
    · exact this.1 hs
    · exact this.2 (not_lt.1 hs)
  rw [hp.values]
  simp only [gaussianAcquisition, Surrogate.single, ok_bind, e1, Except.map, e, List.map_map, Function.comp_def]

/-- `"LCB"` rates every point by the lower end of the band. -/
theorem lcb_rates {W : World ℝ M R G} {predict : M → List (List (Val ℝ)) → Pred} {xi kappa : ℝ}
    (hp : GaussianValues W predict .LCB xi (.num kappa)) {est : M} {m sd : List (Val ℝ) → ℝ}
    (h : PredictsAt (predict est) m sd) (best : ℝ) : Rates W est (.fin best) .LCB fun row => m row - kappa * sd row := by
  intro X
  rw [hp.values, h X]
  simp only [gaussianAcquisition, Surrogate.single, ok_bind, gaussianLcb, Except.map, Except.ok.injEq]
  induction X with
  | nil => rfl
  | cons row X ih => simp

/-! ## C139 -/

/-- **C139 (exact).** With `acq_optimizer="sampling"` and a single acquisition function: when the candidates of a `tell`
are sampled independently, the probability that the suggestion is not among the points rated at most `v` is the `n`-th
power of the probability that a single sample of the space is not, where `n` is the number of candidates (`n_points`). -/
theorem C139_exact (W : World ℝ M R G) (dims : List (Dim ℝ)) (hd : Workable dims) (s : Opt ℝ M R)
    (hsamp : s.cfg.lbfgs = false) (hest : s.cfg.hasEst = true) (c : AcqFunc) (hc : s.cfg.acq.candidates = [c])
    (x : XArg ℝ) (y : YArg ℝ) (m : M) (best : Flt ℝ) (a : List (Val ℝ) → ℝ) (ha : Rates W m best c a)
    (rng : (Fin s.cfg.nPoints → Fin dims.length → ℝ) → R)
    (h : ∀ᵐ ω ∂drawsLaw dims s.cfg.nPoints, Candidates W dims s x y m best (rng ω) ω) (v : ℝ) :
    drawsLaw dims s.cfg.nPoints
        {ω | ¬ ∃ p, (tell exact W dims { s with rng := rng ω } x y true).1.nextX = some p ∧ p ∈ atMost dims a v} =
      missChance dims (atMost dims a v) ^ s.cfg.nPoints := by
  rw [← all_miss]
  refine measure_congr ?_
  filter_upwards [h] with ω hω
  exact propext (not_congr (hω.sampled hd hsamp hest hc ha v))

/-- **C139 (L-BFGS).** With `acq_optimizer="lbfgs"` the suggestion is, except with the probability of the `n`-th power,
decoded from a place that is rated at most `v`, provided that the minimiser stays within the bounds and does not go up. -/
theorem C139_lbfgs (W : World ℝ M R G) (dims : List (Dim ℝ)) (hd : Workable dims) (s : Opt ℝ M R)
    (hl : s.cfg.lbfgs = true) (hres : s.cfg.nRestarts ≠ 0) (hest : s.cfg.hasEst = true) (c : AcqFunc)
    (hc : s.cfg.acq.candidates = [c]) (x : XArg ℝ) (y : YArg ℝ) (m : M) (best : Flt ℝ) (a : List (Val ℝ) → ℝ)
    (ha : Rates W m best c a) (hsort : Argsorts W.argsort) (himp : Improves W dims m best c a)
    (rng : (Fin s.cfg.nPoints → Fin dims.length → ℝ) → R)
    (h : ∀ᵐ ω ∂drawsLaw dims s.cfg.nPoints, Candidates W dims s x y m best (rng ω) ω) (v : ℝ) :
    drawsLaw dims s.cfg.nPoints
        {ω | ¬ ∃ z p, a z ≤ v ∧ Space.inverseTransform exact dims [z] = .ok [p] ∧
          (tell exact W dims { s with rng := rng ω } x y true).1.nextX = some p} ≤
      missChance dims (atMost dims a v) ^ s.cfg.nPoints := by
  rw [← all_miss]
  refine measure_mono_ae ?_
  filter_upwards [h] with ω hω
  exact fun hno hit => hno (hω.refined hd hl hres hest hc ha hsort himp hit)

/-- **C139 (exponential).** If a sample of the space is rated at most `v` with probability at least `q`, the probability
that none of `n` candidates is, is at most `exp (-q n)`. -/
theorem C139_exponential (dims : List (Dim ℝ)) (T : Set (Point ℝ)) (q : ℝ) (hq : q ≤ 1)
    (h : missChance dims T ≤ ENNReal.ofReal (1 - q)) (n : Nat) :
    missChance dims T ^ n ≤ ENNReal.ofReal (Real.exp (-(q * n))) := by
  calc missChance dims T ^ n ≤ ENNReal.ofReal (1 - q) ^ n := pow_le_pow_left' h n
    _ = ENNReal.ofReal ((1 - q) ^ n) := (ENNReal.ofReal_pow (by linarith) n).symm
    _ ≤ ENNReal.ofReal (Real.exp (-(q * n))) := by
      refine ENNReal.ofReal_le_ofReal ?_
      have h1 : 1 - q ≤ Real.exp (-q) := by linarith [Real.add_one_le_exp (-q)]
      calc (1 - q) ^ n ≤ Real.exp (-q) ^ n := pow_le_pow_left₀ (by linarith) h1 n
        _ = Real.exp (-(q * n)) := by rw [← Real.exp_nat_mul]; ring_nf

/-- **C139 (expected improvement).** With `acq_func="EI"`, `acq_optimizer="sampling"` and the 10000 candidates of the
default: if the points whose expected improvement over the best value observed is at least `e` make up a thousandth of
the space or more, the suggestion is one of them, except with probability below 1/20000. -/
theorem C139_expected_improvement (W : World ℝ M R G) (dims : List (Dim ℝ)) (hd : Workable dims) (s : Opt ℝ M R)
    (hsamp : s.cfg.lbfgs = false) (hest : s.cfg.hasEst = true) (hacq : s.cfg.acq = .EI) (hn : s.cfg.nPoints = 10000)
    (x : XArg ℝ) (y : YArg ℝ) (est : M) (best : ℝ) (predict : M → List (List (Val ℝ)) → Pred) (xi : ℝ) (kappa : Kappa)
    (hp : GaussianValues W predict .EI xi kappa) (m sd : List (Val ℝ) → ℝ) (hm : PredictsAt (predict est) m sd)
    (rng : (Fin s.cfg.nPoints → Fin dims.length → ℝ) → R)
    (h : ∀ᵐ ω ∂drawsLaw dims s.cfg.nPoints, Candidates W dims s x y est (.fin best) (rng ω) ω) (e : ℝ) (he : 0 < e)
    (hq : missChance dims (Promising dims m sd (best - xi) e) ≤ ENNReal.ofReal (1 - 1 / 1000)) :
    drawsLaw dims s.cfg.nPoints
        {ω | ¬ ∃ p, (tell exact W dims { s with rng := rng ω } x y true).1.nextX = some p ∧
          p ∈ Promising dims m sd (best - xi) e} < ENNReal.ofReal (1 / 20000) := by
  have key := C139_exact W dims hd s hsamp hest .EI (by rw [hacq]; rfl) x y est (.fin best) _
    (ei_rates hp hm best) rng h (-e)
  have hset : atMost dims (fun row => -(if 0 < sd row then expectedImprovement (best - xi) (m row) (sd row) else 0)) (-e) =
      Promising dims m sd (best - xi) e := by
    unfold atMost Promising
    ext p
    simp only [Set.mem_ofPred_eq, neg_le_neg_iff]
    refine exists_congr fun row => and_congr_right fun _ => ?_
    split_ifs with hs
    · simp [hs]
    · simp [hs, he]
  rw [hset] at key
  rw [key]
  refine (C139_exponential dims _ _ (by norm_num) hq _).trans_lt ?_
  rw [ENNReal.ofReal_lt_ofReal_iff (by norm_num), hn, show -((1 / 1000 : ℝ) * ((10000 : ℕ) : ℝ)) = -10 by norm_num,
    Real.exp_neg, inv_eq_one_div]
  refine one_div_lt_one_div_of_lt (by norm_num) ?_
  have h1 : (2.7 : ℝ) < Real.exp 1 := by linarith [Real.exp_one_gt_d9]
  calc (20000 : ℝ) < 2.7 ^ 10 := by norm_num
    _ < Real.exp 1 ^ 10 := pow_lt_pow_left₀ h1 (by norm_num) (by norm_num)
    _ = Real.exp 10 := by rw [← Real.exp_nat_mul]; norm_num

/-- **C139 (LCB).** With `acq_func="LCB"` and `acq_optimizer="sampling"`: if the objective stays within `kappa` predicted
standard deviations of the predicted mean, the objective at the suggestion exceeds `v` by at most `2 * kappa` predicted
standard deviations, except with the probability that `n` independent samples of the space all have objective values
above `v`. -/
theorem C139_lcb (W : World ℝ M R G) (dims : List (Dim ℝ)) (hd : Workable dims) (s : Opt ℝ M R)
    (hsamp : s.cfg.lbfgs = false) (hest : s.cfg.hasEst = true) (hacq : s.cfg.acq = .LCB) (x : XArg ℝ) (y : YArg ℝ) (est : M)
    (best : ℝ) (predict : M → List (List (Val ℝ)) → Pred) (xi kappa : ℝ)
    (hp : GaussianValues W predict .LCB xi (.num kappa)) (m sd : List (Val ℝ) → ℝ) (hm : PredictsAt (predict est) m sd)
    (f : Point ℝ → ℝ) (hf : ∀ p row, InSpace exact dims p → Space.transform exact dims [p] = .ok [row] →
      |f p - m row| ≤ kappa * sd row)
    (rng : (Fin s.cfg.nPoints → Fin dims.length → ℝ) → R)
    (h : ∀ᵐ ω ∂drawsLaw dims s.cfg.nPoints, Candidates W dims s x y est (.fin best) (rng ω) ω) (v : ℝ) :
    drawsLaw dims s.cfg.nPoints
        {ω | ¬ ∃ p row, (tell exact W dims { s with rng := rng ω } x y true).1.nextX = some p ∧
          Space.transform exact dims [p] = .ok [row] ∧ f p ≤ v + 2 * (kappa * sd row)} ≤
      missChance dims {p | InSpace exact dims p ∧ f p ≤ v} ^ s.cfg.nPoints := by
  have hr := lcb_rates hp hm best
  have key := C139_exact W dims hd s hsamp hest .LCB (by rw [hacq]; rfl) x y est (.fin best) _ hr rng h v
  refine (le_of_le_of_eq (measure_mono_ae ?_) key).trans (pow_le_pow_left' (measure_mono ?_) _)
  · filter_upwards [h] with ω hω hno hit
    obtain ⟨p, hp1, row, h1, h2⟩ := hit
    obtain ⟨P, X, q, row', -, -, c3, c4, c5, -, -⟩ := hω.choice hd hsamp hest (by rw [hacq]; rfl) hr
    rw [c4] at hp1
    injection hp1 with hp1
    subst hp1
    refine hno ⟨q, row, c4, h1, ?_⟩
    have := (abs_le.1 (hf q row c3 h1)).2
    linarith
  · rintro u hu ⟨p, h1, h2, h3⟩
    refine hu ⟨p, h1, ?_⟩
    obtain ⟨Xt, e1, e2, -⟩ := hd.transform_ok (X := [p]) (by simp) (by simpa using h2)
    obtain ⟨row, rfl⟩ := List.length_eq_one_iff.1 e2
    refine ⟨row, e1, ?_⟩
    have := (abs_le.1 (hf p row h2 e1)).1
    linarith

/-! ## An example -/

/-- Mean 0 up to 5 and mean 10 beyond. -/
noncomputable def stepMean (row : List (Val ℝ)) : ℝ := match row with
  | .num x :: _ => if x ≤ 5 then 0 else 10
  | _ => 10

/-- A surrogate that predicts `stepMean` with standard deviation 1. -/
noncomputable def stepPredict (_ : Unit) (X : List (List (Val ℝ))) : Pred := ⟨X.map stepMean, X.map fun _ => 1, 1, 1⟩

/-- Acquisition values for `stepPredict` with `xi=0`. -/
noncomputable def stepValues (X : List (List (Val ℝ))) (y : Flt ℝ) (c : AcqFunc) : List (Flt ℝ) :=
  match y with
  | .fin y => match gaussianAcquisition (.one (stepPredict () X)) y c 0 (.num 1.96) with
    | .ok v => v.map .fin
    | .error _ => X.map fun _ => .nan
  | .nan => X.map fun _ => .nan

/-- A world whose generator state is the table of the numbers behind `n` candidates, and whose surrogate predicts
`stepPredict`; the minimiser returns the point it is started from. -/
noncomputable def luckyWorld (n : Nat) : World ℝ Unit (Fin n → Fin 1 → ℝ) Unit where
  fit r _ _ := (r, .ok ())
  predict _ X := .ok (X.map fun _ => 0)
  draws r dims k := (r, if k = n ∧ dims.length = 1 then columnDraws r
    else dims.map fun _ => ⟨List.replicate k 2, List.replicate k 0⟩)
  acquisition _ X y c := .ok (stepValues X y c)
  argsort v := (List.range v.length).insertionSort fun i j => v.getD i .nan ≤ v.getD j .nan
  lbfgs r _ y c x := (r, .ok (x, (stepValues [x] y c).getD 0 .nan))
  multinomial r p := (r, (List.range p.length).map fun i => if i = 1 then 1 else 0)
  exp x := x
  log t := .ok t
  logMax := 700
  eta := 1
  seed r := (r, r)
  generate g dims _ _ := (g, (dims, .ok []))

theorem stepPredict_at : PredictsAt (stepPredict ()) stepMean fun _ => 1 := fun _ => rfl

theorem luckyWorld_values (n : Nat) : GaussianValues (luckyWorld n) stepPredict .EI 0 (.num 1.96) where
  values est X y := by
    simp only [luckyWorld, stepValues, gaussianAcquisition, Surrogate.single, ok_bind,
      gaussianEi_eq (stepPredict () X) rfl rfl (by simp [stepPredict]), Except.map]
  muDim _ _ := rfl
  stdDim _ _ := rfl
  mu _ _ := by simp [stepPredict]
  std _ _ := by simp [stepPredict]

theorem stepValues_length (X : List (List (Val ℝ))) (y : Flt ℝ) (c : AcqFunc) : (stepValues X y c).length = X.length := by
  have hl : (stepPredict () X).mu.length = (stepPredict () X).std.length := by simp [stepPredict]
  cases y with
  | nan => simp [stepValues]
  | fin y =>
    cases c <;> simp only [stepValues, gaussianAcquisition, Surrogate.single, Surrogate.pair, ok_bind,
      gaussianEi_eq _ rfl rfl hl, gaussianPi_eq _ rfl rfl hl] <;> simp [stepPredict, gaussianLcb]

theorem luckyDims_workable : Workable gaussDims := ⟨by simp [gaussDims], gaussDims_valid, gaussDims_invertible,
  gaussDims_bounds, fun d hd v _ => gaussDims_representable d hd v⟩

theorem luckyWorld_reliable (n : Nat) : Reliable (luckyWorld n) gaussDims where
  fit _ _ _ _ _ _ _ _ := ⟨(), rfl⟩
  predict _ X _ _ := ⟨_, rfl, by simp⟩
  draws r k := by
    have e : (gaussDims.length = 1) = True := by simp [gaussDims]
    simp only [luckyWorld, e, and_true]
    split_ifs with h
    · subst h
      refine ⟨.cons ⟨fun h => (by cases h), trivial⟩ .nil, ?_⟩
      intro d hd
      simp only [columnDraws, List.mem_ofFn] at hd
      obtain ⟨i, rfl⟩ := hd
      simp [rawsOf]
    · refine ⟨.cons ⟨fun h => (by cases h), trivial⟩ .nil, ?_⟩
      intro d hd
      obtain ⟨_, _, rfl⟩ := List.mem_map.1 hd
      simp
  acquisition _ X y c _ _ := ⟨_, rfl, stepValues_length X y c⟩
  argsort v hv := by
    constructor
    · intro h
      have := (List.perm_insertionSort (fun i j => v.getD i (.nan : Flt ℝ) ≤ v.getD j .nan) (List.range v.length)).length_eq
      simp only [luckyWorld] at h
      rw [h, List.length_range] at this
      exact hv (List.length_eq_zero_iff.1 this.symm)
    · intro i hi
      exact List.mem_range.1 ((List.perm_insertionSort _ _).subset hi)
  lbfgs _ _ _ _ x hx := ⟨x, _, rfl, hx⟩
  multinomial _ p := by simp [luckyWorld]
  log t _ := ⟨_, rfl⟩

theorem luckyWorld_argsorts (n : Nat) : Argsorts (luckyWorld n).argsort := by
  intro v _
  refine ⟨List.perm_insertionSort _ _, ?_⟩
  have : Std.Total fun i j : Nat => v.getD i (.nan : Flt ℝ) ≤ v.getD j .nan := ⟨fun i j => le_total _ _⟩
  have : IsTrans Nat fun i j : Nat => v.getD i (.nan : Flt ℝ) ≤ v.getD j .nan := ⟨fun _ _ _ => le_trans⟩
  refine (List.pairwise_insertionSort (fun i j : Nat => v.getD i (.nan : Flt ℝ) ≤ v.getD j .nan) _).imp ?_
  intro i j hij a b ha hb
  rw [List.getD_eq_getElem?_getD, List.getD_eq_getElem?_getD, ha, hb] at hij
  exact hij

/-- A fresh optimizer with one initial point and `n` candidates. -/
noncomputable def luckyOpt (n : Nat) (lbfgs : Bool) (acq : AcqFunc := .EI) : Opt ℝ Unit (Fin n → Fin 1 → ℝ) := Opt.fresh exact
  { acq := acq, hasEst := true, isGP := false, lbfgs := lbfgs, nPoints := n, nRestarts := 5,
    nInitial := 1, queueSize := none } (fun _ _ => 0) none

theorem lucky_candidates (n : Nat) (hn : n ≠ 0) (lbfgs : Bool) (acq : AcqFunc) (hacq : acq = .EI ∨ acq = .LCB) 
    (ω : Fin n → Fin 1 → ℝ) :
    Candidates (luckyWorld n) gaussDims (luckyOpt n lbfgs acq) (.lst [.num 5]) (.num (.fin 1)) () (.fin 1) ω ω := by
  have hin : InSpace exact gaussDims [.num (5 : ℝ)] := .cons ⟨5, rfl, by norm_num, by norm_num⟩ .nil
  have hps : acq.isPs = false := by rcases hacq with rfl | rfl <;> rfl
  obtain ⟨t, r, h1, -, -, h2⟩ := tell_one_live luckyDims_workable (luckyWorld_reliable n)
    (s := { luckyOpt n lbfgs acq with rng := ω }) (live_fresh gaussDims _ ω none) ⟨hn, fun _ => (show (5 : Nat) ≠ 0 by decide),
      fun k hk => (by cases hk)⟩
    hin ⟨.num 5, by simp, rfl⟩ (y := .num (.fin 1))
    (by show Told acq.isPs _; rw [hps]; exact ⟨1, rfl⟩) true
  have hcore : tell exact (luckyWorld n) gaussDims { luckyOpt n lbfgs acq with rng := ω } (.lst [.num 5]) (.num (.fin 1)) true =
      tellCore exact (luckyWorld n) gaussDims { luckyOpt n lbfgs acq with rng := ω } (.lst [.num 5]) (.num (.fin 1)) true := by
    have hc : checkX gaussDims (.lst [.num (5 : ℝ)]) = .ok () := by
      norm_num [checkX, checkXInSpace, gaussDims, is2D, Val.isSeq, Space.contains, Dim.contains, Val.toNum, bind,
        Except.bind]
    rcases hacq with rfl | rfl <;> simp only [tell, hc, ok_bind] <;> rfl
  have hframe := tellCore_frame exact (luckyWorld n) gaussDims { luckyOpt n lbfgs acq with rng := ω } (.lst [.num 5])
    (.num (.fin 1)) true (record_one ⟨.num 5, by simp, rfl⟩ _)
  rw [← hcore] at hframe
  refine ⟨⟨r, by rw [h1]⟩, ⟨?_, ?_⟩, ?_, ?_⟩
  · rw [hframe.nInit]
    show (1 : ℤ) - 1 ≤ 0
    norm_num
  · rw [h1]
    obtain ⟨h3, -⟩ := h2 rfl (by show (1 : ℤ) - 1 ≤ 0; norm_num) rfl
    cases hl : t.models.getLast? with
    | none => exact absurd (List.getLast?_eq_none_iff.1 hl) h3
    | some m => rfl
  · rw [hframe.yi]
    rfl
  · intro X y
    have e : n = (luckyOpt n lbfgs acq).cfg.nPoints ∧ gaussDims.length = 1 := ⟨rfl, by simp [gaussDims]⟩
    simp only [luckyWorld]
    rw [if_pos ⟨rfl, by simp [gaussDims]⟩]
    rfl

/-- Half of `Real(0, 10)` promises an improvement as large as that of a standard normal value below 1. -/
theorem lucky_half : missChance gaussDims (Promising gaussDims stepMean (fun _ => 1) (1 - 0) (expectedImprovement 1 0 1)) ≤
    ENNReal.ofReal (1 - 1 / 1000) := by
  have hsub : {u : Fin gaussDims.length → ℝ | ¬ ∃ p, Space.rvs exact gaussDims (List.ofFn fun i => rawOf (u i)) = .ok [p] ∧
      p ∈ Promising gaussDims stepMean (fun _ => 1) (1 - 0) (expectedImprovement 1 0 1)} ⊆
      Set.univ.pi fun _ => {x : ℝ | x ∉ Set.Icc (0 : ℝ) 5} := by
    intro u hu i _ hi
    refine hu ⟨[.num (u i)], ?_, [.num (u i)], ?_, by norm_num, ?_⟩
    · have h0 : i = (0 : Fin 1) := Subsingleton.elim (α := Fin 1) _ _
      have hc : npClip 0 10 (u i) = u i := by
        unfold npClip
        rw [max_eq_left hi.1, min_eq_left (by linarith [hi.2])]
      have e : (List.ofFn fun i : Fin gaussDims.length => rawOf (u i)) = [rawOf (u i)] := by
        subst h0
        exact List.ofFn_succ (n := 0)
      rw [e]
      simp only [Space.rvs, gaussDims, List.zip_cons_cons, List.zip_nil_right, mapE, realUniform_identity, hc, id_eq, ok_bind]
      rfl
    · rfl
    · simp only [stepMean, if_pos hi.2, sub_zero, le_refl]
  refine (measure_mono hsub).trans ?_
  unfold drawLaw
  rw [Measure.pi_pi]
  have e : ∀ i : Fin gaussDims.length, (gaussDims[i]).rawLaw {x : ℝ | x ∉ Set.Icc (0 : ℝ) 5} = ENNReal.ofReal ((10 - 5) / (10 - 0)) := by
    intro i
    have : (gaussDims[i]).rawLaw = uniformOn 0 10 := by
      have := (gaussDims_all fun d => d.rawLaw = uniformOn 0 10).2 rfl
      exact this _ (List.getElem_mem _)
    rw [this]
    refine uniformOn_eq (by norm_num) ?_ ?_
    · rintro x ⟨h1, h2⟩
      exact ⟨⟨by linarith, h2.le⟩, fun h => by linarith [h.2]⟩
    · rintro x ⟨⟨h1, h2⟩, h3⟩
      refine ⟨?_, h2⟩
      by_contra hc
      exact h3 ⟨h1, by linarith⟩
  rw [Finset.prod_congr rfl fun i _ => e i, Finset.prod_const]
  show ENNReal.ofReal ((10 - 5) / (10 - 0)) ^ 1 ≤ _
  rw [pow_one]
  exact ENNReal.ofReal_le_ofReal (by norm_num)

/-- Told the value 1 at 5, the optimizer with the default number of candidates suggests, except with probability below
1/20000, a point of the better half (`C139_expected_improvement`). -/
example : drawsLaw gaussDims 10000 {ω | ¬ ∃ p,
    (tell exact (luckyWorld 10000) gaussDims { luckyOpt 10000 false with rng := ω } (.lst [.num 5]) (.num (.fin 1)) true).1.nextX =
      some p ∧ p ∈ Promising gaussDims stepMean (fun _ => 1) (1 - 0) (expectedImprovement 1 0 1)} < ENNReal.ofReal (1 / 20000) :=
  C139_expected_improvement (luckyWorld 10000) gaussDims luckyDims_workable (luckyOpt 10000 false) rfl rfl rfl rfl _ _ () 1
    stepPredict 0 _ (luckyWorld_values _) stepMean _ stepPredict_at (fun ω => ω)
    (.of_forall fun ω => lucky_candidates 10000 (by norm_num) false .EI (.inl rfl) ω) _ (expectedImprovement_pos _ _ one_pos) lucky_half

/-- With three candidates the suggestion is not promising with the cube of the probability of a single sample
(`C139_exact`). -/
example (v : ℝ) : drawsLaw gaussDims 3 {ω | ¬ ∃ p,
    (tell exact (luckyWorld 3) gaussDims { luckyOpt 3 false with rng := ω } (.lst [.num 5]) (.num (.fin 1)) true).1.nextX =
      some p ∧ p ∈ atMost gaussDims (fun row => -(if (0 : ℝ) < 1 then expectedImprovement (1 - 0) (stepMean row) 1 else 0)) v} =
    missChance gaussDims
      (atMost gaussDims (fun row => -(if (0 : ℝ) < 1 then expectedImprovement (1 - 0) (stepMean row) 1 else 0)) v) ^ 3 :=
  C139_exact (luckyWorld 3) gaussDims luckyDims_workable (luckyOpt 3 false) rfl rfl .EI rfl _ _ () (.fin 1) _
    (ei_rates (luckyWorld_values 3) stepPredict_at 1) (fun ω => ω)
    (.of_forall fun ω => lucky_candidates 3 (by norm_num) false .EI (.inl rfl) ω) v

theorem luckyWorld_improves (n : Nat) : Improves (luckyWorld n) gaussDims () (.fin 1) .EI
    fun row => -(if (0 : ℝ) < 1 then expectedImprovement (1 - 0) (stepMean row) 1 else 0) := by
  intro r row z w hrow h
  have hr := ei_rates (luckyWorld_values n) stepPredict_at 1 [row]
  simp only [luckyWorld, Except.ok.injEq, Prod.mk.injEq] at h hr
  obtain ⟨rfl, rfl⟩ := h
  refine ⟨hrow, le_refl _, ?_⟩
  rw [hr]
  rfl

/-- The same with L-BFGS (`C139_lbfgs`). -/
example (v : ℝ) : drawsLaw gaussDims 3 {ω | ¬ ∃ z p,
    -(if (0 : ℝ) < 1 then expectedImprovement (1 - 0) (stepMean z) 1 else 0) ≤ v ∧
      Space.inverseTransform exact gaussDims [z] = .ok [p] ∧
      (tell exact (luckyWorld 3) gaussDims { luckyOpt 3 true with rng := ω } (.lst [.num 5]) (.num (.fin 1)) true).1.nextX =
        some p} ≤
    missChance gaussDims
      (atMost gaussDims (fun row => -(if (0 : ℝ) < 1 then expectedImprovement (1 - 0) (stepMean row) 1 else 0)) v) ^ 3 :=
  C139_lbfgs (luckyWorld 3) gaussDims luckyDims_workable (luckyOpt 3 true) rfl (by decide) rfl .EI rfl _ _ () (.fin 1) _
    (ei_rates (luckyWorld_values 3) stepPredict_at 1) (luckyWorld_argsorts 3) (luckyWorld_improves 3) (fun ω => ω)
    (.of_forall fun ω => lucky_candidates 3 (by norm_num) true .EI (.inl rfl) ω) v

/-- A hundred candidates miss the better half with probability at most `exp (-0.1)`, by the bound for a thousandth
(`C139_exponential`). -/
example := C139_exponential gaussDims _ (1 / 1000) (by norm_num) lucky_half 100

theorem luckyWorld_lcb (n : Nat) : GaussianValues (luckyWorld n) stepPredict .LCB 0 (.num 1.96) where
  values est X y := by simp only [luckyWorld, stepValues, gaussianAcquisition, Surrogate.single, ok_bind, Except.map]
  muDim _ _ := rfl
  stdDim _ _ := rfl
  mu _ _ := by simp [stepPredict]
  std _ _ := by simp [stepPredict]

/-- An objective one above the predicted mean: with `acq_func="LCB"` and seven candidates it exceeds 1 at the suggestion by
at most `2 * 1.96`, except with the probability that seven samples of the space all exceed 1 (`C139_lcb`). -/
example : drawsLaw gaussDims 7 {ω | ¬ ∃ p row,
    (tell exact (luckyWorld 7) gaussDims { luckyOpt 7 false .LCB with rng := ω } (.lst [.num 5]) (.num (.fin 1)) true).1.nextX =
      some p ∧ Space.transform exact gaussDims [p] = .ok [row] ∧ stepMean p + 1 ≤ 1 + 2 * (1.96 * 1)} ≤
    missChance gaussDims {p | InSpace exact gaussDims p ∧ stepMean p + 1 ≤ 1} ^ 7 :=
  C139_lcb (luckyWorld 7) gaussDims luckyDims_workable (luckyOpt 7 false .LCB) rfl rfl rfl _ _ () 1 stepPredict 0 1.96
    (luckyWorld_lcb 7) stepMean (fun _ => 1) stepPredict_at (fun p => stepMean p + 1) (by
      intro p row hp h
      unfold gaussDims at hp
      obtain ⟨v, vs, ⟨a, rfl, -, -⟩, h', rfl⟩ := List.forall₂_cons_left_iff.1 hp
      cases h'
      have e : Space.transform exact gaussDims [[.num a]] = .ok [[.num a]] := rfl
      rw [e] at h
      simp only [Except.ok.injEq, List.cons.injEq, and_true] at h
      subst h
      norm_num) (fun ω => ω) (.of_forall fun ω => lucky_candidates 7 (by norm_num) false .LCB (.inr rfl) ω) 1

end Skopt

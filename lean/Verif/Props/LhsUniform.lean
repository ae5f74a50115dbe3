import Verif.Props.Lhs
import Verif.Props.HaltonBoxes
import Mathlib.MeasureTheory.Constructions.Pi
import Mathlib.MeasureTheory.Measure.Lebesgue.Basic
import Mathlib.MeasureTheory.Integral.Bochner.Set
import Mathlib.MeasureTheory.Integral.IntervalIntegral.Basic
import Mathlib.Analysis.SpecialFunctions.Integrals.Basic
import Mathlib.GroupTheory.Perm.Basic
import Mathlib.Data.Fintype.Perm

/-!
# C133: Latin hypercube designs without a criterion are unbiased

`Lhs(lhs_type="classic", criterion=None).generate` (skopt/sampler/lhs.py) in exact arithmetic, with the
random numbers of numpy taken as independent uniform numbers and uniform permutations.
-/

namespace Skopt

open MeasureTheory

/-- The uniform distribution on `[0, 1)`, as drawn by `rng.rand` (lhs.py:135). -/
noncomputable def unitLaw : Measure ℝ := volume.restrict (Set.Ico 0 1)

instance : IsProbabilityMeasure unitLaw := ⟨by simp [unitLaw]⟩

/-- The numbers consumed by one `_lhs_normalized` call (lhs.py:18, 135): the matrix `u` and the permutations `σ`. -/
def drawOf {n d : Nat} (u : Fin n → Fin d → ℝ) (σ : Fin d → Equiv.Perm (Fin n)) : LhsDraw ℝ :=
  ⟨List.ofFn fun k => List.ofFn fun j => u k j, List.ofFn fun j => List.ofFn fun i => (σ j i : ℕ)⟩

/-- Row `i` of the design. -/
noncomputable def lhsRow {n d : Nat} (σ : Fin d → Equiv.Perm (Fin n)) (i : Fin n) (u : Fin n → Fin d → ℝ) :
    Fin d → ℝ := fun j => ((σ j i : ℕ) + u (σ j i) j) / n

theorem perm_list {n : Nat} (σ : Equiv.Perm (Fin n)) : (List.ofFn fun i => (σ i : ℕ)).Perm (List.range n) := by
  have h1 : (List.ofFn fun i => (σ i : ℕ)) = ((List.finRange n).map σ).map Fin.val := by
    rw [List.ofFn_eq_map, List.map_map]; rfl
  have h2 : List.range n = (List.finRange n).map Fin.val := by simp
  rw [h1, h2]
  refine List.Perm.map _ ?_
  refine (List.perm_ext_iff_of_nodup ((List.nodup_finRange n).map σ.injective) (List.nodup_finRange n)).2 fun a => ?_
  simp only [List.mem_finRange, iff_true, List.mem_map, true_and]
  exact ⟨σ.symm a, by simp⟩

theorem drawOf_good {n d : Nat} {u : Fin n → Fin d → ℝ} (hu : ∀ k j, u k j ∈ Set.Ico (0 : ℝ) 1)
    (σ : Fin d → Equiv.Perm (Fin n)) : GoodDraw d n (drawOf u σ) := by
  refine ⟨by simp [drawOf], ?_, ?_, by simp [drawOf], ?_⟩
  · intro r hr
    obtain ⟨k, rfl⟩ := (List.mem_ofFn' _ _).1 hr
    simp
  · intro r hr x hx
    obtain ⟨k, rfl⟩ := (List.mem_ofFn' _ _).1 hr
    obtain ⟨j, rfl⟩ := (List.mem_ofFn' _ _).1 hx
    exact hu k j
  · intro o ho
    obtain ⟨j, rfl⟩ := (List.mem_ofFn' _ _).1 ho
    exact perm_list _

theorem lhs_rows {n d : Nat} {u : Fin n → Fin d → ℝ} (hu : ∀ k j, u k j ∈ Set.Ico (0 : ℝ) 1)
    (σ : Fin d → Equiv.Perm (Fin n)) : lhsNormalized exact .classic d n (drawOf u σ) =
      .ok (List.ofFn fun i => List.ofFn (lhsRow σ i u)) := by
  rw [lhsNormalized_exact (by simp) (drawOf_good hu σ)]
  congr 1
  unfold lhsDesign
  refine List.ext_getElem (by simp) fun i h1 h2 => ?_
  refine List.ext_getElem (by simp) fun j h3 h4 => ?_
  have hi : i < n := by simpa using h1
  have hj : j < d := by simpa using h3
  simp [drawOf, lhsRow, lhsOffset, hi, hj]

theorem perm_sum {n : Nat} (i i' : Fin n) (G : Fin n → ENNReal) :
    ∑ σ : Equiv.Perm (Fin n), G (σ i) = ∑ σ : Equiv.Perm (Fin n), G (σ i') := by
  refine Fintype.sum_equiv (Equiv.mulRight (Equiv.swap i i')) _ _ fun σ => ?_
  simp

theorem perm_average {n : Nat} (i : Fin n) (G : Fin n → ENNReal) :
    n * ∑ σ : Equiv.Perm (Fin n), G (σ i) = n.factorial * ∑ k, G k := by
  have h1 : ∑ i' : Fin n, ∑ σ : Equiv.Perm (Fin n), G (σ i') = n * ∑ σ : Equiv.Perm (Fin n), G (σ i) := by
    rw [Finset.sum_congr rfl fun i' _ => perm_sum i' i G]
    simp
  rw [← h1, Finset.sum_comm]
  rw [Finset.sum_congr rfl fun σ _ => Equiv.sum_comp σ G]
  simp [Fintype.card_perm]

theorem stratum_share {n : Nat} (hn : 0 < n) {s : Set ℝ} (k : ℕ) :
    unitLaw {x | ((k : ℝ) + x) / n ∈ s} = n * volume (s ∩ Set.Ico ((k : ℝ) / n) ((k + 1) / n)) := by
  have hn' : (0 : ℝ) < n := by exact_mod_cast hn
  have h1 : {x : ℝ | ((k : ℝ) + x) / n ∈ s} ∩ Set.Ico 0 1 =
      (fun x => (k : ℝ) + x) ⁻¹' ((fun x => x * (n : ℝ)⁻¹) ⁻¹' (s ∩ Set.Ico ((k : ℝ) / n) ((k + 1) / n))) := by
    ext x
    simp only [Set.mem_inter_iff, Set.mem_ofPred_eq, Set.mem_Ico, Set.mem_preimage, ← div_eq_mul_inv]
    rw [div_le_div_iff_of_pos_right hn', div_lt_div_iff_of_pos_right hn']
    constructor
    · rintro ⟨a, b, c⟩; exact ⟨a, by linarith, by linarith⟩
    · rintro ⟨a, b, c⟩; exact ⟨a, by linarith, by linarith⟩
  rw [unitLaw, Measure.restrict_apply' measurableSet_Ico, h1, measure_preimage_add,
    Real.volume_preimage_mul_right (inv_ne_zero hn'.ne')]
  simp [abs_of_pos hn']

theorem lhs_strata_sum {n : Nat} (hn : 0 < n) {s : Set ℝ} (hs : MeasurableSet s) :
    ∑ k : Fin n, unitLaw {x | (((k : ℕ) : ℝ) + x) / n ∈ s} = n * unitLaw s := by
  have hn' : (0 : ℝ) < n := by exact_mod_cast hn
  rw [Finset.sum_congr rfl fun (k : Fin n) _ => stratum_share hn (s := s) (k : ℕ), ← Finset.mul_sum, unitLaw,
    Measure.restrict_apply hs]
  congr 1
  have hU : s ∩ Set.Ico 0 1 = ⋃ k : Fin n, s ∩ Set.Ico (((k : ℕ) : ℝ) / n) (((k : ℕ) + 1) / n) := by
    rw [← Set.inter_iUnion]
    congr 1
    ext x
    simp only [Set.mem_iUnion, Set.mem_Ico]
    constructor
    · rintro ⟨h0, h1⟩
      have hx : 0 ≤ x * n := by positivity
      have hlt : ⌊x * n⌋₊ < n := by
        rw [Nat.floor_lt hx]; nlinarith
      refine ⟨⟨⌊x * n⌋₊, hlt⟩, ?_, ?_⟩
      · rw [div_le_iff₀ hn']; exact Nat.floor_le hx
      · rw [lt_div_iff₀ hn']; exact Nat.lt_floor_add_one _
    · rintro ⟨k, h0, h1⟩
      have hk : ((k : ℕ) : ℝ) + 1 ≤ n := by exact_mod_cast k.2
      refine ⟨le_trans (by positivity) h0, lt_of_lt_of_le h1 ?_⟩
      rw [div_le_one hn']; exact hk
  rw [hU, measure_iUnion, tsum_fintype]
  · intro k l hkl
    refine Set.disjoint_left.2 ?_
    rintro x ⟨_, h1, h2⟩ ⟨_, h3, h4⟩
    rw [div_le_iff₀ hn'] at h1 h3
    rw [lt_div_iff₀ hn'] at h2 h4
    apply hkl
    have a : ((k : ℕ) : ℝ) < (l : ℕ) + 1 := by linarith
    have b : ((l : ℕ) : ℝ) < (k : ℕ) + 1 := by linarith
    have a' : (k : ℕ) < (l : ℕ) + 1 := by exact_mod_cast a
    have b' : (l : ℕ) < (k : ℕ) + 1 := by exact_mod_cast b
    exact Fin.ext (by omega)
  · intro k; exact hs.inter measurableSet_Ico

/-- One coordinate, averaged over the permutations. -/
theorem coordinate_share {n : Nat} (hn : 0 < n) (i : Fin n) {s : Set ℝ} (hs : MeasurableSet s) :
    ∑ σ : Equiv.Perm (Fin n), unitLaw {x | (((σ i : Fin n) : ℕ) + x) / n ∈ s} = n.factorial * unitLaw s := by
  have h := perm_average i fun k => unitLaw {x | (((k : ℕ) : ℝ) + x) / n ∈ s}
  rw [lhs_strata_sum hn hs] at h
  have h0 : (n : ENNReal) ≠ 0 := by exact_mod_cast hn.ne'
  rw [mul_left_comm] at h
  exact (ENNReal.mul_right_inj h0 (ENNReal.natCast_ne_top n)).1 h

/-- The law of the matrix `rng.rand(n, d)` (lhs.py:135): independent uniform entries. -/
noncomputable def matrixLaw (n d : Nat) : Measure (Fin n → Fin d → ℝ) :=
  Measure.pi fun _ => Measure.pi fun _ => unitLaw

theorem measurable_lhsRow {n d : Nat} (σ : Fin d → Equiv.Perm (Fin n)) (i : Fin n) : Measurable (lhsRow σ i) := by
  unfold lhsRow
  fun_prop

theorem row_box {n d : Nat} (σ : Fin d → Equiv.Perm (Fin n)) (i : Fin n) (s : Fin d → Set ℝ) :
    matrixLaw n d (lhsRow σ i ⁻¹' Set.univ.pi s) =
      ∏ j, unitLaw {x | (((σ j i : Fin n) : ℕ) + x) / n ∈ s j} := by
  have h1 : lhsRow σ i ⁻¹' Set.univ.pi s = Set.univ.pi fun k => Set.univ.pi fun j =>
      if k = σ j i then {x | (((σ j i : Fin n) : ℕ) + x) / (n : ℝ) ∈ s j} else Set.univ := by
    ext u
    simp only [Set.mem_preimage, Set.mem_univ_pi, lhsRow]
    constructor
    · intro h k j
      split
      · next e => subst e; exact h j
      · trivial
    · intro h j
      have := h (σ j i) j
      rw [if_pos rfl] at this
      exact this
  rw [h1, matrixLaw, Measure.pi_pi]
  simp only [Measure.pi_pi]
  rw [Finset.prod_comm]
  refine Finset.prod_congr rfl fun j _ => ?_
  rw [Finset.prod_eq_single (σ j i)]
  · simp
  · intro k _ hk
    simp [hk]
  · simp

/-- The law of row `i` of the design: `u` uniform, the permutations uniform and independent. -/
noncomputable def rowLaw (n d : Nat) (i : Fin n) : Measure (Fin d → ℝ) :=
  ((n.factorial ^ d : ℕ) : ENNReal)⁻¹ • ∑ σ : Fin d → Equiv.Perm (Fin n), (matrixLaw n d).map (lhsRow σ i)

theorem rowLaw_uniform {n d : Nat} (i : Fin n) : rowLaw n d i = Measure.pi fun _ => unitLaw := by
  refine (Measure.pi_eq fun s hs => ?_).symm
  have hn : 0 < n := i.pos
  rw [rowLaw, Measure.smul_apply, Measure.finsetSum_apply]
  have h1 : ∀ σ ∈ (Finset.univ : Finset (Fin d → Equiv.Perm (Fin n))),
      ((matrixLaw n d).map (lhsRow σ i)) (Set.univ.pi s) =
        ∏ j, unitLaw {x | (((σ j i : Fin n) : ℕ) + x) / n ∈ s j} := fun σ _ => by
    rw [Measure.map_apply (measurable_lhsRow σ i) (MeasurableSet.univ_pi hs), row_box]
  rw [Finset.sum_congr rfl h1]
  have h2 := Finset.prod_univ_sum (fun _ : Fin d => (Finset.univ : Finset (Equiv.Perm (Fin n))))
    (fun j τ => unitLaw {x | (((τ i : Fin n) : ℕ) + x) / (n : ℝ) ∈ s j})
  rw [Fintype.piFinset_univ] at h2
  rw [← h2, Finset.prod_congr rfl fun j _ => coordinate_share hn i (hs j), Finset.prod_mul_distrib]
  simp only [Finset.prod_const, Finset.card_univ, Fintype.card_fin, smul_eq_mul]
  rw [← mul_assoc]
  push_cast
  rw [ENNReal.inv_mul_cancel, one_mul]
  · exact pow_ne_zero _ (by exact_mod_cast n.factorial_ne_zero)
  · exact ENNReal.pow_ne_top (ENNReal.natCast_ne_top _)

theorem matrixLaw_cube (n d : Nat) : ∀ᵐ u ∂matrixLaw n d, ∀ k j, u k j ∈ Set.Ico (0 : ℝ) 1 := by
  have h1 : matrixLaw n d (Set.univ.pi fun _ => Set.univ.pi fun _ => Set.Ico (0 : ℝ) 1) = 1 := by
    rw [matrixLaw, Measure.pi_pi]
    simp [Measure.pi_pi, unitLaw]
  have : IsProbabilityMeasure (matrixLaw n d) := by unfold matrixLaw; infer_instance
  have h2 := (mem_ae_iff_prob_eq_one (MeasurableSet.univ_pi fun _ => MeasurableSet.univ_pi fun _ =>
    measurableSet_Ico)).2 h1
  filter_upwards [h2] with u hu k j
  exact Set.mem_univ_pi.1 (Set.mem_univ_pi.1 hu k) j

/-- The expected value of a quantity over one Latin hypercube draw: the matrix `u` has independent
uniform entries, every permutation is equally likely in every dimension, all independent. -/
noncomputable def lhsExpect (n d : Nat) (X : (Fin n → Fin d → ℝ) → (Fin d → Equiv.Perm (Fin n)) → ℝ) : ℝ :=
  (∑ σ : Fin d → Equiv.Perm (Fin n), ∫ u, X u σ ∂matrixLaw n d) / (n.factorial ^ d : ℕ)

theorem row_expect {n d : Nat} (i : Fin n) {g : (Fin d → ℝ) → ℝ}
    (hg : Integrable g (Measure.pi fun _ => unitLaw)) :
    (∀ σ, Integrable (fun u => g (lhsRow σ i u)) (matrixLaw n d)) ∧
    ∑ σ : Fin d → Equiv.Perm (Fin n), ∫ u, g (lhsRow σ i u) ∂matrixLaw n d =
      (n.factorial ^ d : ℕ) * ∫ x, g x ∂Measure.pi fun _ => unitLaw := by
  have hc0 : ((n.factorial ^ d : ℕ) : ENNReal) ≠ 0 := by
    exact_mod_cast pow_ne_zero d n.factorial_ne_zero
  have hg' := hg
  rw [← rowLaw_uniform i, rowLaw, integrable_smul_measure (ENNReal.inv_ne_zero.2 (ENNReal.natCast_ne_top _))
    (ENNReal.inv_ne_top.2 hc0), integrable_finsetSum_measure] at hg'
  refine ⟨fun σ => (hg' σ (Finset.mem_univ _)).comp_measurable (measurable_lhsRow σ i), ?_⟩
  rw [← rowLaw_uniform i, rowLaw, integral_smul_measure, integral_finsetSum_measure hg']
  have h0 : ((n.factorial ^ d : ℕ) : ℝ) ≠ 0 := by exact_mod_cast pow_ne_zero d n.factorial_ne_zero
  rw [ENNReal.toReal_inv, ENNReal.toReal_natCast, smul_eq_mul, mul_inv_cancel_left₀ h0]
  refine Finset.sum_congr rfl fun σ _ => ?_
  rw [integral_map (measurable_lhsRow σ i).aemeasurable (hg' σ (Finset.mem_univ _)).aestronglyMeasurable]

/-- What a user computes from a design: the mean of the values of `f` at the returned points
(`space.rvs`-like call `Lhs.generate`, lhs.py:49-130). -/
noncomputable def designMean (f : Point ℝ → ℝ) : Except PyErr (List (Point ℝ)) → ℝ
  | .ok pts => (pts.map f).sum / pts.length
  | .error _ => 0

/-- The design returned by `Lhs(criterion=None)` for given random numbers. -/
theorem lhs_points {n : Nat} (num : LhsNum ℝ) (l : Lhs) (hk : l.lhsType = .classic) (hc : l.criterion = .none)
    {ds : List (RealDim ℝ)} (hne : ds ≠ []) (hd : ∀ d ∈ ds, PlainReal d) (hn : 0 < n)
    (draws : List (LhsDraw ℝ)) {u : Fin n → Fin ds.length → ℝ} (hu : ∀ k j, u k j ∈ Set.Ico (0 : ℝ) 1)
    (σ : Fin ds.length → Equiv.Perm (Fin n)) :
    (l.generate exact num (ds.map Dim.real) n (drawOf u σ) draws).2 =
      .ok (List.ofFn fun i => (cubePoint ds (List.ofFn (lhsRow σ i u))).map Val.num) := by
  unfold Lhs.generate
  rw [withNormalized_snd _ fun d hd' => by
      obtain ⟨d', h', rfl⟩ := List.mem_map.1 hd'
      exact (hd d' h').valid.legalTransform]
  unfold Lhs.choose
  simp only [List.length_map]
  rw [hk, lhs_rows hu σ, ok_bind, if_pos (Or.inl hc), ok_bind, inverse_cube hne hd]
  · rw [List.map_ofFn]; rfl
  · intro h0
    have := congrArg List.length h0
    simp at this; omega
  · intro r hr
    obtain ⟨i, rfl⟩ := (List.mem_ofFn' _ _).1 hr
    simp
  · intro r hr x hx
    obtain ⟨i, rfl⟩ := (List.mem_ofFn' _ _).1 hr
    obtain ⟨j, rfl⟩ := (List.mem_ofFn' _ _).1 hx
    have h1 := hu (σ j i) j
    have h2 : ((σ j i : ℕ) : ℝ) + 1 ≤ n := by exact_mod_cast (σ j i).2
    have hn' : (0 : ℝ) < n := by exact_mod_cast hn
    unfold lhsRow
    refine ⟨div_nonneg (add_nonneg (by positivity) h1.1) hn'.le, ?_⟩
    rw [div_le_one hn']
    linarith [h1.2]

/-- The point of the space at relative position `x`. -/
noncomputable def placed (ds : List (RealDim ℝ)) (x : Fin ds.length → ℝ) : Point ℝ :=
  List.ofFn fun j => Val.num (ds[j].low + x j * (ds[j].high - ds[j].low))

theorem placed_cube (ds : List (RealDim ℝ)) (x : Fin ds.length → ℝ) :
    (cubePoint ds (List.ofFn x)).map Val.num = placed ds x := by
  have h : cubePoint ds (List.ofFn x) =
      List.ofFn fun j : Fin ds.length => ds[j].low + x j * (ds[j].high - ds[j].low) := by
    unfold cubePoint
    refine List.ext_getElem (by simp) fun j h1 h2 => ?_
    rw [List.getElem_zipWith, List.getElem_ofFn, List.getElem_ofFn, add_comm]
    rfl
  rw [h, List.map_ofFn]
  rfl

/-- **C133.** `Lhs(criterion=None)` (classic) is unbiased: averaged over its random numbers, the mean of `f`
over the returned points is the mean of `f` over the whole space. -/
theorem C133_unbiased {n : Nat} (num : LhsNum ℝ) (l : Lhs) (hk : l.lhsType = .classic) (hc : l.criterion = .none)
    (ds : List (RealDim ℝ)) (hne : ds ≠ []) (hd : ∀ d ∈ ds, PlainReal d) (hn : 0 < n)
    (draws : List (LhsDraw ℝ)) (f : Point ℝ → ℝ)
    (hf : Integrable (fun x => f (placed ds x)) (Measure.pi fun _ => unitLaw)) :
    lhsExpect n ds.length (fun u σ => designMean f (l.generate exact num (ds.map Dim.real) n (drawOf u σ) draws).2) =
      ∫ x, f (placed ds x) ∂Measure.pi fun _ => unitLaw := by
  have hn' : (n : ℝ) ≠ 0 := by exact_mod_cast hn.ne'
  have h1 : ∀ σ : Fin ds.length → Equiv.Perm (Fin n),
      ∫ u, designMean f (l.generate exact num (ds.map Dim.real) n (drawOf u σ) draws).2 ∂matrixLaw n ds.length =
        (∑ i : Fin n, ∫ u, f (placed ds (lhsRow σ i u)) ∂matrixLaw n ds.length) / n := by
    intro σ
    rw [← integral_finsetSum _ fun i _ => (row_expect i hf).1 σ, ← integral_div]
    refine integral_congr_ae ?_
    filter_upwards [matrixLaw_cube n ds.length] with u hu
    rw [lhs_points num l hk hc hne hd hn draws hu σ, designMean, List.map_ofFn, List.length_ofFn, List.sum_ofFn]
    simp only [Function.comp_apply, placed_cube]
  unfold lhsExpect
  rw [Finset.sum_congr rfl fun σ _ => h1 σ, ← Finset.sum_div, Finset.sum_comm,
    Finset.sum_congr rfl fun i _ => (row_expect i hf).2]
  have h0 : ((n.factorial ^ ds.length : ℕ) : ℝ) ≠ 0 := by exact_mod_cast pow_ne_zero _ n.factorial_ne_zero
  simp only [Finset.sum_const, Finset.card_univ, Fintype.card_fin, nsmul_eq_mul]
  field_simp

/-- The box `[lo, hi)` of the space. -/
def InRealBox {d : Nat} (lo hi : Fin d → ℝ) (p : Point ℝ) : Prop :=
  ∃ y : Fin d → ℝ, p = (List.ofFn fun j => Val.num (y j)) ∧ ∀ j, lo j ≤ y j ∧ y j < hi j

theorem placed_inBox {ds : List (RealDim ℝ)} (hd : ∀ d ∈ ds, PlainReal d) (lo hi : Fin ds.length → ℝ)
    (x : Fin ds.length → ℝ) : InRealBox lo hi (placed ds x) ↔ x ∈ Set.univ.pi fun j =>
      Set.Ico ((lo j - ds[j].low) / (ds[j].high - ds[j].low)) ((hi j - ds[j].low) / (ds[j].high - ds[j].low)) := by
  have hp : ∀ j : Fin ds.length, 0 < ds[j].high - ds[j].low := fun j => sub_pos.2 (hd _ (List.getElem_mem j.2)).1
  simp only [Set.mem_univ_pi, Set.mem_Ico]
  constructor
  · rintro ⟨y, e, h⟩ j
    have e' := congrFun (List.ofFn_injective e) j
    injection e' with e'
    rw [div_le_iff₀ (hp j), lt_div_iff₀ (hp j)]
    have := h j
    exact ⟨by linarith, by linarith⟩
  · intro h
    refine ⟨_, rfl, fun j => ?_⟩
    have := h j
    rw [div_le_iff₀ (hp j), lt_div_iff₀ (hp j)] at this
    exact ⟨by linarith, by linarith⟩

open Classical in
/-- **C133.** Every box of the space receives, on average over the random numbers, exactly its share of the points. -/
theorem C133_box_share {n : Nat} (num : LhsNum ℝ) (l : Lhs) (hk : l.lhsType = .classic) (hc : l.criterion = .none)
    (ds : List (RealDim ℝ)) (hne : ds ≠ []) (hd : ∀ d ∈ ds, PlainReal d) (hn : 0 < n)
    (draws : List (LhsDraw ℝ)) (lo hi : Fin ds.length → ℝ)
    (hb : ∀ j : Fin ds.length, ds[j].low ≤ lo j ∧ lo j ≤ hi j ∧ hi j ≤ ds[j].high) :
    lhsExpect n ds.length (fun u σ => designMean (fun p => if InRealBox lo hi p then 1 else 0)
      (l.generate exact num (ds.map Dim.real) n (drawOf u σ) draws).2) =
      ∏ j : Fin ds.length, (hi j - lo j) / (ds[j].high - ds[j].low) := by
  have hp : ∀ j : Fin ds.length, 0 < ds[j].high - ds[j].low := fun j => sub_pos.2 (hd _ (List.getElem_mem j.2)).1
  set B : Set (Fin ds.length → ℝ) := Set.univ.pi fun j =>
    Set.Ico ((lo j - ds[j].low) / (ds[j].high - ds[j].low)) ((hi j - ds[j].low) / (ds[j].high - ds[j].low)) with hB
  have hBm : MeasurableSet B := MeasurableSet.univ_pi fun _ => measurableSet_Ico
  have hfe : (fun x : Fin ds.length → ℝ => if InRealBox lo hi (placed ds x) then (1 : ℝ) else 0) = B.indicator 1 := by
    ext x
    by_cases h : x ∈ B
    · rw [Set.indicator_of_mem h, if_pos ((placed_inBox hd lo hi x).2 h)]; rfl
    · rw [Set.indicator_of_notMem h, if_neg fun h' => h ((placed_inBox hd lo hi x).1 h')]
  rw [C133_unbiased num l hk hc ds hne hd hn draws]
  · rw [hfe, integral_indicator_one hBm, measureReal_def, hB, Measure.pi_pi, ENNReal.toReal_prod]
    refine Finset.prod_congr rfl fun j _ => ?_
    obtain ⟨h1, h2, h3⟩ := hb j
    have hsub : Set.Ico ((lo j - ds[j].low) / (ds[j].high - ds[j].low)) ((hi j - ds[j].low) / (ds[j].high - ds[j].low))
        ∩ Set.Ico 0 1 = Set.Ico ((lo j - ds[j].low) / (ds[j].high - ds[j].low))
          ((hi j - ds[j].low) / (ds[j].high - ds[j].low)) := by
      refine Set.inter_eq_left.2 (Set.Ico_subset_Ico (div_nonneg (by linarith) (hp j).le) ?_)
      rw [div_le_one (hp j)]; linarith
    rw [unitLaw, Measure.restrict_apply measurableSet_Ico, hsub, Real.volume_Ico, ← sub_div,
      ENNReal.toReal_ofReal (div_nonneg (by linarith) (hp j).le)]
    congr 1
    ring
  · rw [hfe]
    exact (integrable_const (1 : ℝ)).indicator hBm

/-- Centred designs are biased: with a single point, `x ↦ x²` over `Real(0, 1)` is estimated as 1/4, always. -/
theorem C133_needs_classic (num : LhsNum ℝ) (draws : List (LhsDraw ℝ)) :
    let ds : List (RealDim ℝ) := [⟨0, 1, .uniform, 10, .identity, none, id⟩]
    let f : Point ℝ → ℝ := fun p => match p with | [.num x] => x ^ 2 | _ => 0
    let l : Lhs := { lhsType := .centered, criterion := .none }
    lhsExpect 1 1 (fun u σ => designMean f (l.generate exact num (ds.map Dim.real) 1 (drawOf u σ) draws).2) = 1 / 4 ∧
      ∫ x, f (placed ds x) ∂Measure.pi (fun _ => unitLaw) = 1 / 3 := by
  intro ds f l
  constructor
  · have hd : ∀ d ∈ ds, PlainReal d := by
      intro d h
      rw [List.mem_singleton.1 h]
      exact ⟨by norm_num, rfl, rfl, Or.inl rfl⟩
    have hgen : ∀ (u : Fin 1 → Fin 1 → ℝ) (_ : ∀ k j, u k j ∈ Set.Ico (0 : ℝ) 1) (σ : Fin 1 → Equiv.Perm (Fin 1)),
        (l.generate exact num (ds.map Dim.real) 1 (drawOf u σ) draws).2 = .ok [[.num (1 / 2)]] := by
      intro u hu σ
      unfold Lhs.generate
      rw [withNormalized_snd _ fun d hd' => by
          obtain ⟨d', h', rfl⟩ := List.mem_map.1 hd'
          exact (hd d' h').valid.legalTransform]
      unfold Lhs.choose
      have h1 : lhsNormalized exact .centered 1 1 (drawOf u σ) = .ok [[1 / 2]] := by
        rw [lhsNormalized_exact (by simp) (drawOf_good hu σ)]
        simp [lhsDesign, drawOf, lhsOffset, List.range_succ]
      have h2 : (ds.map Dim.real).length = 1 := rfl
      rw [h2, h1, ok_bind, if_pos (Or.inl rfl), ok_bind, inverse_cube (by simp [ds]) hd (by simp) (by simp [ds])
        (by simp; norm_num)]
      simp [cubePoint, ds]
    have h1 : ∀ σ : Fin 1 → Equiv.Perm (Fin 1),
        ∫ u, designMean f (l.generate exact num (ds.map Dim.real) 1 (drawOf u σ) draws).2 ∂matrixLaw 1 1 = 1 / 4 := by
      intro σ
      have : IsProbabilityMeasure (matrixLaw 1 1) := by unfold matrixLaw; infer_instance
      rw [integral_congr_ae (g := fun _ => (1 / 4 : ℝ))]
      · simp
      · filter_upwards [matrixLaw_cube 1 1] with u hu
        rw [hgen u hu σ]
        simp [designMean, f]
        norm_num
    unfold lhsExpect
    rw [Finset.sum_congr rfl fun σ _ => h1 σ]
    simp
  · have h1 : (fun x : Fin ds.length → ℝ => f (placed ds x)) = fun x => (fun y : ℝ => y ^ 2) (x (0 : Fin 1)) := by
      ext x
      show f [Val.num (0 + x (0 : Fin 1) * (1 - 0))] = _
      simp [f]
    rw [h1]
    have h2 := (measurePreserving_funUnique unitLaw (Fin 1)).integral_comp'
      (fun y : ℝ => y ^ 2)
    refine h2.trans ?_
    rw [unitLaw, integral_Ico_eq_integral_Ioc, ← intervalIntegral.integral_of_le zero_le_one, integral_pow]
    norm_num

section Examples

/-- Two dimensions, `Real(-5, 10)` and `Real(0, 15)`; `f` the first coordinate, and the box `[-5, 0) × [3, 6)`.
Meets the hypotheses of `C133_unbiased` and `C133_box_share`. -/
example :
    let ds : List (RealDim ℝ) := [⟨-5, 10, .uniform, 10, .identity, none, id⟩, ⟨0, 15, .uniform, 10, .normalize, none, id⟩]
    ds ≠ [] ∧ (∀ d ∈ ds, PlainReal d) ∧
      (∀ j : Fin ds.length, ds[j].low ≤ (![-5, 3] : Fin 2 → ℝ) j ∧ (![-5, 3] : Fin 2 → ℝ) j ≤ (![0, 6] : Fin 2 → ℝ) j ∧
        (![0, 6] : Fin 2 → ℝ) j ≤ ds[j].high) ∧
      Integrable (fun x => (fun p : Point ℝ => match p with | .num y :: _ => y | _ => 0) (placed ds x)) (Measure.pi fun _ => unitLaw) := by
  intro ds
  refine ⟨by simp [ds], ?_, ?_, ?_⟩
  · intro d hd
    rcases List.mem_cons.1 hd with rfl | hd
    · exact ⟨by norm_num, rfl, rfl, Or.inl rfl⟩
    · rw [List.mem_singleton.1 hd]
      exact ⟨by norm_num, rfl, rfl, Or.inr rfl⟩
  · intro j
    match j with
    | ⟨0, _⟩ => simp [ds]
    | ⟨1, _⟩ => simp [ds]; norm_num
  · have h1 : Integrable (id : ℝ → ℝ) unitLaw :=
      (continuous_id.integrableOn_Icc (a := 0) (b := 1)).mono_set Set.Ico_subset_Icc_self
    have h2 := (measurePreserving_eval (fun _ : Fin 2 => unitLaw) 0).integrable_comp_of_integrable h1
    exact (integrable_const (-5 : ℝ)).add (h2.mul_const (10 - -5))

end Examples

end Skopt

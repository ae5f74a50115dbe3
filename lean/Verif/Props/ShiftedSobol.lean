import Verif.Props.SearchRate
import Mathlib.MeasureTheory.Function.Floor

/-!
# C136: Sobol designs with the random shift (the default)

`Sobol(skip, randomize=True).generate` (skopt/sampler/sobol.py:216-276, 398-428) in exact arithmetic, the numbers of
`rng.rand(1, d)` taken as independent uniform numbers.
-/

namespace Skopt

open MeasureTheory

variable {M R G : Type}

/-! ## The shift keeps the uniform distribution -/

theorem fract_shift_measure (a : ℝ) {s : Set ℝ} (hs : MeasurableSet s) :
    unitLaw {u | Int.fract (a + u) ∈ s} = unitLaw s := by
  set b := Int.fract a with hb
  have hb0 : 0 ≤ b := Int.fract_nonneg a
  have hb1 : b < 1 := Int.fract_lt_one a
  have hab : ∀ u, Int.fract (a + u) = Int.fract (b + u) := by
    intro u
    have : a + u = b + u + (⌊a⌋ : ℤ) := by rw [hb]; linarith [Int.fract_add_floor a]
    rw [this, Int.fract_add_intCast]
  have h1 : {u | Int.fract (a + u) ∈ s} ∩ Set.Ico 0 1 =
      ((fun u => b + u) ⁻¹' (s ∩ Set.Ico b 1)) ∪ ((fun u => (b - 1) + u) ⁻¹' (s ∩ Set.Ico 0 b)) := by
    ext u
    simp only [Set.mem_inter_iff, Set.mem_ofPred_eq, Set.mem_Ico, Set.mem_union, Set.mem_preimage, hab]
    constructor
    · rintro ⟨h, h0, h2⟩
      rcases lt_or_ge (b + u) 1 with hlt | hge
      · rw [Int.fract_eq_self.2 ⟨by linarith, hlt⟩] at h
        exact Or.inl ⟨h, by linarith, hlt⟩
      · have : Int.fract (b + u) = b - 1 + u := by
          have e : b + u = (b - 1 + u) + (1 : ℤ) := by push_cast; ring
          rw [e, Int.fract_add_intCast, Int.fract_eq_self.2 ⟨by linarith, by linarith⟩]
        rw [this] at h
        exact Or.inr ⟨h, by linarith, by linarith⟩
    · rintro (⟨h, h0, h2⟩ | ⟨h, h0, h2⟩)
      · rw [Int.fract_eq_self.2 ⟨by linarith, h2⟩]
        exact ⟨h, by linarith, by linarith⟩
      · have : Int.fract (b + u) = b - 1 + u := by
          have e : b + u = (b - 1 + u) + (1 : ℤ) := by push_cast; ring
          rw [e, Int.fract_add_intCast, Int.fract_eq_self.2 ⟨by linarith, by linarith⟩]
        rw [this]
        exact ⟨h, by linarith, by linarith⟩
  have hd : Disjoint ((fun u => b + u) ⁻¹' (s ∩ Set.Ico b 1)) ((fun u => (b - 1) + u) ⁻¹' (s ∩ Set.Ico 0 b)) := by
    refine Set.disjoint_left.2 ?_
    rintro u ⟨-, h1, h2⟩ ⟨-, h3, h4⟩
    simp only at h1 h2 h3 h4
    linarith
  have hm : MeasurableSet ((fun u => (b - 1) + u) ⁻¹' (s ∩ Set.Ico 0 b)) :=
    (measurable_const_add (b - 1)) (hs.inter measurableSet_Ico)
  rw [unitLaw, Measure.restrict_apply' measurableSet_Ico, h1, measure_union hd hm, measure_preimage_add,
    measure_preimage_add, Measure.restrict_apply hs, ← measure_union _ (hs.inter measurableSet_Ico),
    ← Set.inter_union_distrib_left, Set.union_comm, Set.Ico_union_Ico_eq_Ico hb0 hb1.le]
  refine Set.disjoint_left.2 ?_
  rintro u ⟨-, h1, h2⟩ ⟨-, h3, h4⟩
  linarith

theorem fract_shift_preserving (a : ℝ) : MeasurePreserving (fun u => Int.fract (a + u)) unitLaw unitLaw := by
  have hm : Measurable fun u : ℝ => Int.fract (a + u) := measurable_fract.comp (measurable_const_add a)
  refine ⟨hm, Measure.ext fun s hs => ?_⟩
  rw [Measure.map_apply hm hs]
  exact fract_shift_measure a hs

/-- The law of `rng.rand(1, d)` (sobol.py:426). -/
noncomputable def shiftLaw (d : Nat) : Measure (Fin d → ℝ) := Measure.pi fun _ => unitLaw

instance (d : Nat) : IsProbabilityMeasure (shiftLaw d) := by unfold shiftLaw; infer_instance

theorem cube_shift_preserving {d : Nat} (a : Fin d → ℝ) :
    MeasurePreserving (fun (u : Fin d → ℝ) j => Int.fract (a j + u j)) (shiftLaw d) (shiftLaw d) :=
  measurePreserving_pi _ _ fun j => fract_shift_preserving (a j)

/-! ## The returned points -/

/-- Coordinate `j` of the unshifted point with index `t`. -/
noncomputable def sobolAt {d : Nat} (t : Nat) : Fin d → ℝ := fun j => (sobolT j t : ℝ) * (1 / 2 ^ 30)

theorem sobolVec_ofFn (dim t : Nat) : sobolVec exact dim t = List.ofFn (sobolAt t : Fin dim → ℝ) := by
  refine List.ext_getElem? fun j => ?_
  by_cases hj : j < dim
  · rw [sobolVec_entry hj]
    simp [hj, sobolAt]
  · rw [List.getElem?_eq_none (by rw [sobolVec_length]; omega), List.getElem?_eq_none (by simp; omega)]

theorem shifted_generate (skip : Nat) (s : Sobol) (hs : Sobol.new skip true = .ok s)
    (ds : List (RealDim ℝ)) (hne : ds ≠ []) (hd : ∀ d ∈ ds, PlainReal d) (h40 : ds.length ≤ 40) (n : Nat)
    (u : Fin ds.length → ℝ) (hn : 1 ≤ n) (hmax : skip + n ≤ 2 ^ 30 - 1) (hbud : skip ≠ 0 → n ≤ skip) :
    (s.generate exact Int.fract (ds.map Dim.real) n (List.ofFn u)).2 =
      (ds.map Dim.real, .ok ((List.range n).map fun i => placed ds fun j => Int.fract (sobolAt (skip + i) j + u j))) := by
  obtain ⟨hb, hsk, hr, hg⟩ := Sobol.new_between hs
  have h1 : 1 ≤ ds.length := List.length_pos_iff.2 hne
  obtain ⟨s1, e1, -⟩ := Sobol.rows_eq (A := exact) (n := n) hb h1 h40 hn hmax
  have hw : ∀ d ∈ ds.map Dim.real, HasLegalTransform d := fun d h =>
    ((plainReal_workable hne hd).valid d h).legalTransform
  have hsh : randomShift exact Int.fract (List.ofFn u) ((List.range n).map fun i => sobolVec exact ds.length (skip + i)) =
      (List.range n).map fun i => List.ofFn fun j => Int.fract (sobolAt (skip + i) j + u j) := by
    unfold randomShift
    rw [List.map_map]
    refine List.map_congr_left fun i _ => ?_
    simp only [Function.comp_apply, sobolVec_ofFn]
    refine List.ext_getElem (by simp) fun j h1 h2 => ?_
    simp
    rfl
  have hsnd : (withNormalized (ds.map Dim.real) (fun dims' => do
      let M ← (s.rows exact (ds.map Dim.real).length n s.skip).2
      Space.inverseTransform exact dims' (numRows (if s.randomize then randomShift exact Int.fract (List.ofFn u) M else M)))).2 =
      .ok ((List.range n).map fun i => placed ds fun j => Int.fract (sobolAt (skip + i) j + u j)) := by
    rw [withNormalized_snd _ hw, List.length_map, hsk, e1, ok_bind, hr, if_pos rfl, hsh, inverse_cube hne hd]
    · rw [List.map_map]
      congr 1
      refine List.map_congr_left fun i _ => ?_
      simp only [Function.comp_apply, placed_cube]
    · intro h0
      have := congrArg List.length h0
      simp at this
      omega
    · intro r hr
      obtain ⟨i, -, rfl⟩ := List.mem_map.1 hr
      simp
    · intro r hr x hx
      obtain ⟨i, -, rfl⟩ := List.mem_map.1 hr
      obtain ⟨j, rfl⟩ := (List.mem_ofFn' _ _).1 hx
      exact ⟨Int.fract_nonneg _, (Int.fract_lt_one _).le⟩
  rw [Sobol.generate_snd exact Int.fract s _ n _ (by rw [hsk, hg]; rintro ⟨g1, g2⟩; have := hbud g1; omega)]
  exact Prod.ext (withNormalized_restores _ hw _ hsnd) hsnd

/-! ## C136 -/

/-- **C136.** Every single point of a shifted Sobol design is uniformly distributed over the space. -/
theorem C136_point_uniform (skip : Nat) (s : Sobol) (hs : Sobol.new skip true = .ok s)
    (ds : List (RealDim ℝ)) (hne : ds ≠ []) (hd : ∀ d ∈ ds, PlainReal d) (h40 : ds.length ≤ 40) (n : Nat)
    (hn : 1 ≤ n) (hmax : skip + n ≤ 2 ^ 30 - 1) (hbud : skip ≠ 0 → n ≤ skip) (i : Nat) (hi : i < n)
    (S : Set (Point ℝ)) (hS : MeasurableSet (placed ds ⁻¹' S)) :
    shiftLaw ds.length {u | ∃ pts p, (s.generate exact Int.fract (ds.map Dim.real) n (List.ofFn u)).2.2 = .ok pts ∧
      pts[i]? = some p ∧ p ∈ S} = shiftLaw ds.length {x | placed ds x ∈ S} := by
  refine Eq.trans ?_ ((cube_shift_preserving (sobolAt (skip + i) : Fin ds.length → ℝ)).measure_preimage
    hS.nullMeasurableSet)
  congr 1
  ext u
  simp only [Set.mem_ofPred_eq, Set.mem_preimage]
  rw [shifted_generate skip s hs ds hne hd h40 n u hn hmax hbud]
  simp [hi]

/-- **C136.** Shifted Sobol designs are unbiased: averaged over the random shift, the mean of `f` over the returned
points is the mean of `f` over the whole space. -/
theorem C136_unbiased (skip : Nat) (s : Sobol) (hs : Sobol.new skip true = .ok s)
    (ds : List (RealDim ℝ)) (hne : ds ≠ []) (hd : ∀ d ∈ ds, PlainReal d) (h40 : ds.length ≤ 40) (n : Nat)
    (hn : 1 ≤ n) (hmax : skip + n ≤ 2 ^ 30 - 1) (hbud : skip ≠ 0 → n ≤ skip) (f : Point ℝ → ℝ)
    (hf : Integrable (fun x => f (placed ds x)) (shiftLaw ds.length)) :
    ∫ u, designMean f (s.generate exact Int.fract (ds.map Dim.real) n (List.ofFn u)).2.2 ∂shiftLaw ds.length =
      ∫ x, f (placed ds x) ∂shiftLaw ds.length := by
  have hn' : (n : ℝ) ≠ 0 := by exact_mod_cast (by omega : n ≠ 0)
  have hmp := fun i : Nat => cube_shift_preserving (sobolAt (skip + i) : Fin ds.length → ℝ)
  have h1 : ∀ i : Nat, ∫ u, f (placed ds fun j => Int.fract (sobolAt (skip + i) j + u j)) ∂shiftLaw ds.length =
      ∫ x, f (placed ds x) ∂shiftLaw ds.length := by
    intro i
    conv_rhs => rw [← (hmp i).map_eq]
    rw [integral_map (hmp i).measurable.aemeasurable (by rw [(hmp i).map_eq]; exact hf.aestronglyMeasurable)]
  have h2 : ∀ u, designMean f (s.generate exact Int.fract (ds.map Dim.real) n (List.ofFn u)).2.2 =
      (∑ i ∈ Finset.range n, f (placed ds fun j => Int.fract (sobolAt (skip + i) j + u j))) / n := by
    intro u
    rw [shifted_generate skip s hs ds hne hd h40 n u hn hmax hbud]
    simp only [designMean, List.map_map, List.length_map, List.length_range]
    rw [Finset.sum_range, ← List.sum_ofFn, List.ofFn_eq_map, ← List.map_coe_finRange_eq_range, List.map_map]
    rfl
  simp only [h2]
  have h3 : ∀ i ∈ Finset.range n, Integrable (fun u : Fin ds.length → ℝ =>
      f (placed ds fun j => Int.fract (sobolAt (skip + i) j + u j))) (shiftLaw ds.length) := fun i _ =>
    (hmp i).integrable_comp_of_integrable hf
  rw [integral_div, integral_finsetSum _ h3, Finset.sum_congr rfl fun i _ => h1 i]
  simp only [Finset.sum_const, Finset.card_range, nsmul_eq_mul]
  field_simp

/-- Without the shift the first point of a new generator is always the lower corner. -/
theorem C136_needs_randomize (ds : List (RealDim ℝ)) (hne : ds ≠ []) (hd : ∀ d ∈ ds, PlainReal d) (h40 : ds.length ≤ 40)
    (n : Nat) (hn : 1 ≤ n) (hmax : n ≤ 2 ^ 30 - 1) (s : Sobol) (hs : Sobol.new 0 false = .ok s) (shift : List ℝ) :
    ∃ rest, (s.generate exact Int.fract (ds.map Dim.real) n shift).2.2 = .ok (ds.map (fun d => Val.num d.low) :: rest) := by
  obtain ⟨h, -⟩ := sobol_generate_rows 0 s hs ds hne hd h40 n shift hn (by omega) (by simp)
  obtain ⟨m, rfl⟩ : ∃ m, n = m + 1 := ⟨n - 1, by omega⟩
  have e : (cubePoint ds (sobolVec exact ds.length (0 + 0))).map Val.num = ds.map (fun d => Val.num d.low) := by
    rw [sobolVec_ofFn, placed_cube]
    unfold placed
    refine List.ext_getElem (by simp) fun j h1 h2 => ?_
    simp [sobolAt, sobolT]
  rw [h, List.range_succ_eq_map, List.map_cons, List.map_cons, e]
  exact ⟨_, rfl⟩

/-! ## Density -/

theorem shifted_stratum_near {N : Nat} (hN : 0 < N) {x s : ℝ} (hx : 0 ≤ x ∧ x ≤ 1) (hs : 0 ≤ s ∧ s < 1) :
    ∃ c < N, ∀ p, InStratum N c p → |x - Int.fract (p + s)| ≤ 2 / N := by
  have hN' : (0 : ℝ) < N := by exact_mod_cast hN
  rcases Nat.lt_or_ge 1 N with h2 | h1
  swap
  · obtain rfl : N = 1 := by omega
    refine ⟨0, by norm_num, fun p _ => ?_⟩
    have h3 := Int.fract_nonneg (p + s)
    have h4 := Int.fract_lt_one (p + s)
    rw [abs_le]
    constructor <;> norm_num <;> linarith
  have h2' : (2 : ℝ) ≤ N := by exact_mod_cast h2
  set a := ⌊s * N⌋₊ with ha
  have hsN : 0 ≤ s * N := mul_nonneg hs.1 hN'.le
  have ha1 : (a : ℝ) ≤ s * N := Nat.floor_le hsN
  have ha2 : s * N < a + 1 := Nat.lt_floor_add_one _
  have haN : a < N := by rw [ha, Nat.floor_lt hsN]; nlinarith
  set e := s - a / N with he
  have he0 : 0 ≤ e * N := by rw [he]; field_simp; linarith
  have he1 : e * N < 1 := by rw [he]; field_simp; linarith
  -- the cell `i` after the shift occupies `[e + i/N, e + (i+1)/N)`
  have key : ∀ i : Nat, i + 2 ≤ N → ∃ c < N, ∀ p, InStratum N c p →
      e * N + i ≤ Int.fract (p + s) * N ∧ Int.fract (p + s) * N < e * N + i + 1 := by
    intro i hi
    have hi' : (i : ℝ) + 2 ≤ N := by exact_mod_cast hi
    have fr : ∀ (q : ℝ) (z : ℤ), e * N + i ≤ q * N → q * N < e * N + i + 1 → Int.fract (q + z) = q := by
      intro q z h1 h3
      rw [Int.fract_add_intCast, Int.fract_eq_self]
      have hi0 : (0 : ℝ) ≤ i := Nat.cast_nonneg i
      constructor
      · by_contra hc
        push Not at hc
        nlinarith
      · by_contra hc
        push Not at hc
        nlinarith
    have hsa : s * N = e * N + a := by rw [he]; field_simp; ring
    rcases Nat.lt_or_ge i a with hia | hia
    · refine ⟨i + N - a, by omega, fun p hp => ?_⟩
      obtain ⟨p1, p2⟩ := hp
      rw [div_le_iff₀ hN'] at p1
      rw [lt_div_iff₀ hN'] at p2
      have hc : ((i + N - a : ℕ) : ℝ) = i + N - a := by
        rw [Nat.cast_sub (by omega)]; push_cast; ring
      rw [hc] at p1 p2
      have h3 := fr (p + s - 1) 1 (by nlinarith) (by nlinarith)
      have h4 : p + s - 1 + ((1 : ℤ) : ℝ) = p + s := by push_cast; ring
      rw [h4] at h3
      rw [h3]
      constructor <;> nlinarith
    · refine ⟨i - a, by omega, fun p hp => ?_⟩
      obtain ⟨p1, p2⟩ := hp
      rw [div_le_iff₀ hN'] at p1
      rw [lt_div_iff₀ hN'] at p2
      have hc : ((i - a : ℕ) : ℝ) = i - a := by
        rw [Nat.cast_sub hia]
      rw [hc] at p1 p2
      have h3 := fr (p + s) 0 (by nlinarith) (by nlinarith)
      simp only [Int.cast_zero, add_zero] at h3
      rw [h3]
      constructor <;> nlinarith
  -- choose the cell
  have fin : ∀ y : ℝ, |x * N - y * N| ≤ 2 → |x - y| ≤ 2 / N := by
    intro y h
    rw [le_div_iff₀ hN']
    calc _ = |x * N - y * N| := by rw [← sub_mul, abs_mul, abs_of_pos hN']
      _ ≤ 2 := h
  have hxN : x * N ≤ N := by nlinarith [hx.2]
  have hxN0 : 0 ≤ x * N := mul_nonneg hx.1 hN'.le
  rcases lt_or_ge (x * N) (e * N) with hlt | hge
  · obtain ⟨c, hc, h⟩ := key 0 (by omega)
    refine ⟨c, hc, fun p hp => fin _ ?_⟩
    obtain ⟨h3, h4⟩ := h p hp
    simp only [Nat.cast_zero, add_zero] at h3 h4
    rw [abs_le]; constructor <;> linarith
  · set i := ⌊x * N - e * N⌋₊ with hi
    have hi0 : 0 ≤ x * N - e * N := by linarith
    have i1 : (i : ℝ) ≤ x * N - e * N := Nat.floor_le hi0
    have i2 : x * N - e * N < i + 1 := Nat.lt_floor_add_one _
    rcases Nat.lt_or_ge (i + 1) N with hiN | hiN
    · obtain ⟨c, hc, h⟩ := key i (by omega)
      refine ⟨c, hc, fun p hp => fin _ ?_⟩
      obtain ⟨h3, h4⟩ := h p hp
      rw [abs_le]; constructor <;> linarith
    · obtain ⟨c, hc, h⟩ := key (N - 2) (by omega)
      refine ⟨c, hc, fun p hp => fin _ ?_⟩
      obtain ⟨h3, h4⟩ := h p hp
      have hN2 : ((N - 2 : ℕ) : ℝ) = N - 2 := by rw [Nat.cast_sub h2]; norm_num
      have hiN' : (N : ℝ) ≤ i + 1 := by exact_mod_cast hiN
      rw [hN2] at h3 h4
      rw [abs_le]; constructor <;> linarith

/-- In every cell there is an unshifted point. -/
theorem sobol_cell_hit (skip : Nat) (hskip : skip = 0 ∨ ∃ m, skip = 2 ^ m) (d : Nat) (h1 : 1 ≤ d) (h40 : d ≤ 40) (n : Nat)
    (hmax : skip + n ≤ 2 ^ 30 - 1) (hbud : skip ≠ 0 → n ≤ skip) (k : Nat → Nat) (K t : Nat)
    (ht : t = ∑ r ∈ (Finset.range d).filter (fun r => k r ≠ 0), (sobolDegree r - 1))
    (hK : K = (∑ r ∈ Finset.range d, k r) + t) (h30 : K ≤ 30) (hn : 2 ^ K ≤ n) (y : Nat → Nat)
    (hy : ∀ r < d, y r < 2 ^ k r) :
    ∃ i < n, ∀ r : Fin d, InStratum (2 ^ k r) (y r) (sobolAt (skip + i) r) := by
  classical
  have hn1 : 1 ≤ n := le_trans (Nat.one_le_two_pow) hn
  set ds : List (RealDim ℝ) := List.replicate d ⟨0, 1, .uniform, 10, .identity, none, id⟩ with hds
  have hl : ds.length = d := by simp [hds]
  have hne : ds ≠ [] := List.length_pos_iff.1 (by omega)
  have hd : ∀ d ∈ ds, PlainReal d := by
    intro x hx
    rw [List.eq_of_mem_replicate hx]
    exact ⟨by norm_num, rfl, rfl, Or.inl rfl⟩
  obtain ⟨s, hs⟩ : ∃ s, Sobol.new skip false = .ok s := ⟨_, (C26_skip_accepted skip false).1 hskip⟩
  obtain ⟨pts, e1, -, e2, -⟩ := C105_sobol_boxes skip s hs ds hne (by omega) hd n [] hn1 hmax hbud k y (by rwa [hl]) K t
    (by rwa [hl]) (by rwa [hl]) h30
  obtain ⟨g1, g2⟩ := sobol_generate_rows skip s hs ds hne hd (by omega) n [] hn1 hmax hbud
  rw [g1] at e1
  injection e1 with e1
  rw [← e1, spaceBoxCount_cube hd fun r hr => (g2 r hr).1] at e2
  have hpos : 0 < n / 2 ^ K * 2 ^ t := Nat.mul_pos (Nat.div_pos hn (by positivity)) (by positivity)
  unfold boxCount at e2
  obtain ⟨p, hp⟩ := List.exists_mem_of_length_pos (lt_of_lt_of_le hpos e2)
  rw [List.mem_filter, decide_eq_true_iff] at hp
  obtain ⟨hpm, hcell⟩ := hp
  obtain ⟨i, hi, rfl⟩ := List.mem_map.1 hpm
  refine ⟨i, List.mem_range.1 hi, fun r => ?_⟩
  rw [hl] at hcell
  have hst := (List.forall₂_iff_get.1 hcell).2 r (by simp) (by rw [sobolVec_length]; exact r.2)
  simp only [List.get_eq_getElem, List.getElem_map, List.getElem_range, sobolVec_ofFn, List.getElem_ofFn] at hst
  exact hst

/-- **C136.** With at least `2 ^ (Σ k r + t)` points of the shifted sequence, every point of the space has a design point
within `2 * range_r / 2 ^ k r` in every coordinate, whatever the random shift is. -/
theorem C136_dense (skip : Nat) (s : Sobol) (hs : Sobol.new skip true = .ok s)
    (ds : List (RealDim ℝ)) (hne : ds ≠ []) (hd : ∀ d ∈ ds, PlainReal d) (h40 : ds.length ≤ 40) (n : Nat)
    (shift : List ℝ) (hsl : shift.length = ds.length) (hsh : ∀ x ∈ shift, 0 ≤ x ∧ x < 1)
    (hmax : skip + n ≤ 2 ^ 30 - 1) (hbud : skip ≠ 0 → n ≤ skip) (k : Nat → Nat) (K t : Nat) (ht : t = ∑ r ∈ (Finset.range ds.length).filter (fun r => k r ≠ 0), (sobolDegree r - 1))
    (hK : K = (∑ r ∈ Finset.range ds.length, k r) + t) (h30 : K ≤ 30) (hn : 2 ^ K ≤ n) :
    ∃ pts, (s.generate exact Int.fract (ds.map Dim.real) n shift).2 = (ds.map Dim.real, .ok pts) ∧ pts.length = n ∧
      (∀ p ∈ pts, InSpace exact (ds.map Dim.real) p) ∧ Dense ds (fun r => 2 * span ds r / (2 ^ k r : ℕ)) pts := by
  have hn1 : 1 ≤ n := le_trans (Nat.one_le_two_pow) hn
  obtain ⟨u, rfl⟩ : ∃ u : Fin ds.length → ℝ, shift = List.ofFn u :=
    ⟨fun j => shift[j]'(by omega), List.ext_getElem (by simp [hsl]) fun j h1 h2 => by simp⟩
  have hu : ∀ j, 0 ≤ u j ∧ u j < 1 := fun j => hsh _ ((List.mem_ofFn' _ _).2 ⟨j, rfl⟩)
  have hgen := shifted_generate skip s hs ds hne hd h40 n u hn1 hmax hbud
  obtain ⟨pts, e1, e2, e3⟩ := C26_sobol_in_space skip true s hs (ds.map Dim.real) (plainReal_workable hne hd).valid n
    (List.ofFn u) (by simpa using hne) (by simpa using h40) hn1 hmax hbud (by simp)
  rw [hgen] at e1
  injection e1 with e1
  refine ⟨pts, by rw [hgen, e1], e2, e3, fun xs hx => ?_⟩
  have hl := hx.length_eq
  have hs' : ∀ j : Fin ds.length, 0 < ds[j].high - ds[j].low := fun j => sub_pos.2 (hd _ (List.getElem_mem j.2)).1
  have h1 : ∀ j : Fin ds.length, ∃ c < 2 ^ k j, ∀ p, InStratum (2 ^ k j) c p →
      |(xs[j]'(by omega) - ds[j].low) / (ds[j].high - ds[j].low) - Int.fract (p + u j)| ≤ 2 / (2 ^ k j : ℕ) := by
    intro j
    have hxr := (List.forall₂_iff_get.1 hx).2 j j.2 (by omega)
    simp only [List.get_eq_getElem] at hxr
    refine shifted_stratum_near (by positivity) ⟨div_nonneg (sub_nonneg.2 hxr.1) (hs' j).le, ?_⟩ (hu j)
    rw [div_le_one (hs' j)]
    exact sub_le_sub_right hxr.2 _
  choose c hc using h1
  have hskip : skip = 0 ∨ ∃ m, skip = 2 ^ m := by
    by_contra hcon
    rw [(C26_skip_accepted skip true).2 hcon] at hs
    cases hs
  obtain ⟨i, hi, hit⟩ := sobol_cell_hit skip hskip ds.length (List.length_pos_iff.2 hne) h40 n hmax hbud k K t ht hK h30 hn
    (fun r => if h : r < ds.length then c ⟨r, h⟩ else 0) (fun r hr => by simp only [hr, dite_true]; exact (hc ⟨r, hr⟩).1)
  refine ⟨List.ofFn fun j : Fin ds.length => ds[j].low + Int.fract (sobolAt (skip + i) j + u j) * (ds[j].high - ds[j].low),
    ?_, by simp [hl], ?_⟩
  · rw [← e1, List.map_ofFn]
    exact List.mem_map.2 ⟨i, List.mem_range.2 hi, rfl⟩
  · intro r x y ex ey
    obtain ⟨hr, rfl⟩ := List.getElem?_eq_some_iff.1 ex
    obtain ⟨hr', rfl⟩ := List.getElem?_eq_some_iff.1 ey
    have hrd : r < ds.length := by omega
    have h3 := (hc ⟨r, hrd⟩).2 _ (by
      have := hit ⟨r, hrd⟩
      simpa only [hrd, dite_true] using this)
    have h4 := hs' ⟨r, hrd⟩
    simp only [List.getElem_ofFn, span, List.getElem?_eq_getElem hrd, Option.map_some, Option.getD_some]
    simp only [Fin.getElem_fin] at h3 h4 ⊢
    set z := Int.fract (sobolAt (skip + i) ⟨r, hrd⟩ + u ⟨r, hrd⟩)
    calc |xs[r] - (ds[r].low + z * (ds[r].high - ds[r].low))|
        = |(xs[r] - ds[r].low) / (ds[r].high - ds[r].low) - z| * (ds[r].high - ds[r].low) := by
          rw [← abs_of_pos h4, ← abs_mul, abs_of_pos h4]
          congr 1
          field_simp
          ring
      _ ≤ 2 / (2 ^ k r : ℕ) * (ds[r].high - ds[r].low) := mul_le_mul_of_nonneg_right h3 h4.le
      _ = _ := by ring

/-- The generator object `g` answers as a fresh shifted generator does, with some shift from `[0, 1)`. -/
def ProducesShifted (W : World ℝ M R G) (g : G) (s : Sobol) (dims : List (Dim ℝ)) : Prop :=
  ∀ (n : ℤ) (r : R), 0 < n → ∃ (g' : G) (shift : List ℝ), shift.length = dims.length ∧
    (∀ x ∈ shift, 0 ≤ x ∧ x < 1) ∧ W.generate g dims n r = (g', (s.generate exact Int.fract dims n.toNat shift).2)

/-- **C136.** A run that begins with at least `2 ^ (Σ k r + t)` points of `Sobol(skip, randomize=True)` reports at most
`v + Σ L r * 2 * range_r / 2 ^ k r`, whatever the random shift is. -/
theorem C136_search (W : World ℝ M R G) (ds : List (RealDim ℝ)) (hne : ds ≠ []) (hd : ∀ d ∈ ds, PlainReal d)
    (h40 : ds.length ≤ 40) (func : Objective ℝ) (m : MinArgs ℝ M) (rng : R) (n : Nat) (hm : BeginsWith n m)
    (hW : Reliable W (searched m.opt.est.isGP (ds.map Dim.real)))
    (hfunc : TotalOn m.opt.perSecond (ds.map Dim.real) func) (g : G) (skip : Nat) (s : Sobol)
    (hs : Sobol.new skip true = .ok s) (hg : ProducesShifted W g s (searched m.opt.est.isGP (ds.map Dim.real)))
    (hmax : skip + n ≤ 2 ^ 30 - 1) (hbud : skip ≠ 0 → n ≤ skip) (k : Nat → Nat) (K t : Nat)
    (ht : t = ∑ r ∈ (Finset.range ds.length).filter (fun r => k r ≠ 0), (sobolDegree r - 1))
    (hK : K = (∑ r ∈ Finset.range ds.length, k r) + t) (h30 : K ≤ 30) (hn : 2 ^ K ≤ n)
    (L : Nat → ℝ) (hL : ∀ r, 0 ≤ L r)
    (xs : List ℝ) (hx : List.Forall₂ (fun (d : RealDim ℝ) (x : ℝ) => d.low ≤ x ∧ x ≤ d.high) ds xs) (v : ℝ)
    (hrise : RisesAtMost func ds L xs v) :
    Reports (v + ∑ r ∈ Finset.range ds.length, L r * (2 * span ds r / (2 ^ k r : ℕ)))
      (baseMinimize exact W ⟨ds.map Dim.real, some g⟩ func m rng) := by
  obtain ⟨φ, e, hφ⟩ := searched_bounds m.opt.est.isGP ds
  obtain ⟨g', shift, hsl, hsh, hgen⟩ := hg n (W.seed rng).2 (by exact_mod_cast hm.some)
  have hd' : ∀ d ∈ ds.map φ, PlainReal d := by
    intro d h
    obtain ⟨d', h', rfl⟩ := List.mem_map.1 h
    exact (hφ d').2.2 (hd d' h')
  obtain ⟨pts, h1, h2, h3, h4⟩ := C136_dense skip s hs (ds.map φ) (by simpa using hne) hd' (by simpa using h40) n shift
    (by rw [hsl, e]; simp) hsh hmax hbud k K t (by simpa using ht) (by simpa using hK) h30 hn
  rw [← e] at h1 h3
  rw [Int.toNat_natCast, h1] at hgen
  have tw : ∀ es : List (RealDim ℝ), (fun r => 2 * span es r / (2 ^ k r : ℕ)) = fun r => span es r / ((2 ^ k r : ℕ) / 2 : ℝ) := by
    intro es
    funext r
    rw [div_div_eq_mul_div, mul_comm]
  rw [tw] at h4
  have h5 := dense_bounds hφ h4
  rw [← tw] at h5
  exact C135_search W ds hne hd func m rng n hm hW hfunc g g' pts hgen h2 (fun p hp' => inSpace_searched.1 (h3 p hp'))
    _ L hL h5 xs hx v hrise

/-! ## Examples -/

/-- The box `[lo, hi)` receives its share of a shifted design: `Real(-5, 10)` and `Real(0, 15)`, the set of points whose first
coordinate is negative.  Meets the hypotheses of `C136_point_uniform` and `C136_unbiased`. -/
example : ∃ s, Sobol.new 16 true = .ok s ∧
    let ds : List (RealDim ℝ) := [⟨-5, 10, .uniform, 10, .identity, none, id⟩, ⟨0, 15, .uniform, 10, .normalize, none, id⟩]
    ds ≠ [] ∧ (∀ d ∈ ds, PlainReal d) ∧ ds.length ≤ 40 ∧ 16 + 13 ≤ 2 ^ 30 - 1 ∧ (16 ≠ 0 → 13 ≤ 16) ∧
      MeasurableSet (placed ds ⁻¹' {p | ∃ x y, p = [.num x, y] ∧ x < 0}) ∧
      Integrable (fun x => (fun p : Point ℝ => match p with | .num y :: _ => y | _ => 0) (placed ds x)) (shiftLaw ds.length) := by
  refine ⟨_, rfl, ?_⟩
  intro ds
  refine ⟨by simp [ds], ?_, by simp [ds], by norm_num, by norm_num, ?_, ?_⟩
  · intro d hd
    rcases List.mem_cons.1 hd with rfl | hd
    · exact ⟨by norm_num, rfl, rfl, Or.inl rfl⟩
    · rw [List.mem_singleton.1 hd]
      exact ⟨by norm_num, rfl, rfl, Or.inr rfl⟩
  · have : placed ds ⁻¹' {p | ∃ x y, p = [.num x, y] ∧ x < 0} = {x : Fin 2 → ℝ | -5 + x 0 * (10 - -5) < 0} := by
      ext x
      constructor
      · rintro ⟨a, b, e, h⟩
        have e' : Val.num (-5 + x (0 : Fin 2) * (10 - -5)) = Val.num a := (List.cons.inj e).1
        injection e' with e'
        rw [← e'] at h
        exact h
      · intro h
        exact ⟨_, _, rfl, h⟩
    rw [this]
    exact measurableSet_lt (by fun_prop) measurable_const
  · have h1 : Integrable (id : ℝ → ℝ) unitLaw :=
      (continuous_id.integrableOn_Icc (a := 0) (b := 1)).mono_set Set.Ico_subset_Icc_self
    have h2 := (measurePreserving_eval (fun _ : Fin 2 => unitLaw) 0).integrable_comp_of_integrable h1
    exact (integrable_const (-5 : ℝ)).add (h2.mul_const (10 - -5))

/-- `tapeWorld` with the shifted Sobol generator, shift `(0.3, 0.8)`. -/
noncomputable def shiftedTapeWorld (s : Sobol) : World ℝ Unit (List (List ℝ)) Unit :=
  { tapeWorld with generate := fun g dims n _ => (g, (s.generate exact Int.fract dims n.toNat [3 / 10, 8 / 10]).2) }

/-- 256 shifted Sobol points suffice for `20/16 + 20/16`.  Meets the hypotheses of `C136_dense`, `C136_search`. -/
example (rng : List (List ℝ)) : ∃ s, Sobol.new 0 true = .ok s ∧ Reports (20 / 16 + 20 / 16)
    (baseMinimize exact (shiftedTapeWorld s) ⟨squareDims.map Dim.real, some ()⟩ tent (squareRun 256) rng) := by
  obtain ⟨s, hs⟩ : ∃ s, Sobol.new 0 true = .ok s := ⟨_, rfl⟩
  refine ⟨s, hs, ?_⟩
  have hrel : Reliable (shiftedTapeWorld s) (squareDims.map Dim.real) := by
    have h := haltonWorld_reliable
    exact ⟨h.fit, h.predict, h.draws, h.acquisition, h.argsort, h.lbfgs, h.multinomial, h.log⟩
  have h := C136_search (shiftedTapeWorld s) squareDims (by simp [squareDims]) squareDims_plain (by simp [squareDims]) tent
    (squareRun 256) rng 256 (squareRun_begins (by norm_num)) hrel tent_square () 0 s hs
    (fun n r _ => ⟨(), [3 / 10, 8 / 10], rfl, by simp; norm_num, rfl⟩)
    (by norm_num) (fun h => absurd rfl h) (fun _ => 4) 8 0 (by simp [squareDims, Finset.sum_range_succ]; decide)
    (by simp [squareDims]) (by norm_num) (by norm_num) (fun _ => 1) (fun _ => zero_le_one) [3, 2]
    (.cons ⟨by norm_num, by norm_num⟩ (.cons ⟨by norm_num, by norm_num⟩ .nil)) 0 tent_rises
  have e : (0 : ℝ) + ∑ r ∈ Finset.range squareDims.length, (fun _ => (1 : ℝ)) r *
      (2 * span squareDims r / (2 ^ (fun _ : Nat => 4) r : ℕ)) = 20 / 16 + 20 / 16 := by
    simp [squareDims, Finset.sum_range_succ, span]
    norm_num
  rw [e] at h
  exact h

/-- Meets the hypotheses of `C136_needs_randomize`. -/
example (shift : List ℝ) : ∃ s rest, Sobol.new 0 false = .ok s ∧
    (s.generate exact Int.fract (squareDims.map Dim.real) 8 shift).2.2 =
      .ok (squareDims.map (fun d => Val.num d.low) :: rest) := by
  obtain ⟨s, hs⟩ : ∃ s, Sobol.new 0 false = .ok s := ⟨_, rfl⟩
  obtain ⟨rest, h⟩ := C136_needs_randomize squareDims (by simp [squareDims]) squareDims_plain (by simp [squareDims]) 8
    (by norm_num) (by norm_num) s hs shift
  exact ⟨s, rest, hs, h⟩

end Skopt

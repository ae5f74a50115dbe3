import Verif.Props.LhsUniform
import Mathlib.MeasureTheory.Integral.IntervalIntegral.Basic

/-!
# C134: Latin hypercube designs estimate the effects of single coordinates
-/

namespace Skopt

open MeasureTheory

/-- The strata are met by a bijection. -/
theorem stratified_perm {n : Nat} {a : Fin n → ℝ} (h : Stratified (List.ofFn a)) :
    ∃ p : Equiv.Perm (Fin n), ∀ k : Fin n, ((k : ℕ) : ℝ) / n ≤ a (p k) ∧ a (p k) < ((k : ℕ) + 1) / n := by
  have h1 : ∀ k : Fin n, ∃ i : Fin n, ((k : ℕ) : ℝ) / n ≤ a i ∧ a i < ((k : ℕ) + 1) / n := by
    intro k
    obtain ⟨i, ⟨x, hx, hs⟩, -⟩ := h k (by simp)
    obtain ⟨hi, e⟩ := List.getElem?_eq_some_iff.1 hx
    have hi' : i < n := by simpa using hi
    refine ⟨⟨i, hi'⟩, ?_⟩
    rw [List.getElem_ofFn] at e
    rw [e]
    simpa [InStratum] using hs
  choose p hp using h1
  have hinj : Function.Injective p := by
    intro k l e
    have hn' : (0 : ℝ) < n := by exact_mod_cast k.pos
    have a1 := hp k
    have a2 := hp l
    rw [e] at a1
    rw [div_le_iff₀ hn', lt_div_iff₀ hn'] at a1 a2
    have b1 : ((k : ℕ) : ℝ) < (l : ℕ) + 1 := by linarith
    have b2 : ((l : ℕ) : ℝ) < (k : ℕ) + 1 := by linarith
    have b1' : (k : ℕ) < (l : ℕ) + 1 := by exact_mod_cast b1
    have b2' : (l : ℕ) < (k : ℕ) + 1 := by exact_mod_cast b2
    exact Fin.ext (by omega)
  exact ⟨Equiv.ofBijective p (Finite.injective_iff_bijective.1 hinj), hp⟩

/-- One coordinate: the mean over a stratified sample is close to the mean over the unit interval. -/
theorem stratified_mean {n : Nat} (hn : 0 < n) {a : Fin n → ℝ} (h : Stratified (List.ofFn a))
    {G : ℝ → ℝ} {e : ℝ} (hG : IntervalIntegrable G volume 0 1)
    (he : ∀ x y : ℝ, 0 ≤ x → x ≤ 1 → 0 ≤ y → y ≤ 1 → |x - y| ≤ 1 / (n : ℝ) → |G x - G y| ≤ e) :
    |(∑ i, G (a i)) / n - ∫ x in (0 : ℝ)..1, G x| ≤ e := by
  have hn' : (0 : ℝ) < n := by exact_mod_cast hn
  obtain ⟨p, hp⟩ := stratified_perm h
  rw [← Equiv.sum_comp p fun i => G (a i)]
  have ht : ∀ k : ℕ, k ≤ n → 0 ≤ (k : ℝ) / n ∧ (k : ℝ) / n ≤ 1 := by
    intro k hk
    refine ⟨by positivity, ?_⟩
    rw [div_le_one hn']
    exact_mod_cast hk
  have hint : ∀ k < n, IntervalIntegrable G volume ((k : ℝ) / n) (((k + 1 : ℕ) : ℝ) / n) := by
    intro k hk
    refine hG.mono_set ?_
    rw [Set.uIcc_of_le zero_le_one]
    refine Set.uIcc_subset_Icc (Set.mem_Icc.2 (ht k hk.le)) (Set.mem_Icc.2 (ht (k + 1) hk))
  have hsum := intervalIntegral.sum_integral_adjacent_intervals (a := fun k : ℕ => (k : ℝ) / n) hint
  have h01 : ∫ x in (0 : ℝ)..1, G x = ∫ x in ((0 : ℕ) : ℝ) / n..((n : ℕ) : ℝ) / n, G x := by
    rw [Nat.cast_zero, zero_div, div_self hn'.ne']
  rw [h01, ← hsum, Finset.sum_div, ← Fin.sum_univ_eq_sum_range (fun k : ℕ => ∫ x in (k : ℝ) / n..((k + 1 : ℕ) : ℝ) / n, G x),
    ← Finset.sum_sub_distrib]
  have hk : ∀ k : Fin n, |G (a (p k)) / n - ∫ x in ((k : ℕ) : ℝ) / n..(((k : ℕ) + 1 : ℕ) : ℝ) / n, G x| ≤ e / n := by
    intro k
    have hw : (((k : ℕ) + 1 : ℕ) : ℝ) / n - ((k : ℕ) : ℝ) / n = 1 / n := by
      push_cast; ring
    have h1 : G (a (p k)) / n = ∫ _ in ((k : ℕ) : ℝ) / n..(((k : ℕ) + 1 : ℕ) : ℝ) / n, G (a (p k)) := by
      rw [intervalIntegral.integral_const, hw, smul_eq_mul]; ring
    rw [h1, ← intervalIntegral.integral_sub intervalIntegrable_const (hint k k.2)]
    have h2 := intervalIntegral.norm_integral_le_of_norm_le_const (a := ((k : ℕ) : ℝ) / n)
      (b := (((k : ℕ) + 1 : ℕ) : ℝ) / n) (f := fun x => G (a (p k)) - G x) (C := e) ?_
    · rw [hw, abs_of_pos (by positivity)] at h2
      rw [Real.norm_eq_abs] at h2
      calc _ ≤ e * (1 / n) := h2
        _ = e / n := by ring
    · intro x hx
      have hle : ((k : ℕ) : ℝ) / n ≤ (((k : ℕ) + 1 : ℕ) : ℝ) / n := by
        rw [← sub_nonneg, hw]; positivity
      rw [Set.uIoc_of_le hle] at hx
      have hb := hp k
      have t1 := ht k k.2.le
      have t2 := ht ((k : ℕ) + 1) k.2
      push_cast at hx hw t2
      refine he _ _ (t1.1.trans hb.1) (hb.2.le.trans t2.2) (t1.1.trans hx.1.le) (hx.2.trans t2.2) ?_
      rw [abs_le]
      constructor <;> linarith [hx.1, hx.2, hb.1, hb.2]
  calc _ ≤ ∑ k : Fin n, |G (a (p k)) / n - ∫ x in ((k : ℕ) : ℝ) / n..(((k : ℕ) + 1 : ℕ) : ℝ) / n, G x| :=
        Finset.abs_sum_le_sum_abs _ _
    _ ≤ ∑ _k : Fin n, e / n := Finset.sum_le_sum fun k _ => hk k
    _ = e := by
      simp only [Finset.sum_const, Finset.card_univ, Fintype.card_fin, nsmul_eq_mul]
      field_simp

/-- A design, seen as a matrix. -/
theorem matrix_of {n d : Nat} {M : List (List ℝ)} (hM : M.length = n) (hl : ∀ r ∈ M, r.length = d) :
    ∃ A : Fin n → Fin d → ℝ, M = List.ofFn fun i => List.ofFn (A i) := by
  subst hM
  refine ⟨fun i j => (M[(i : ℕ)])[(j : ℕ)]'(by rw [hl _ (List.getElem_mem i.2)]; exact j.2), ?_⟩
  refine List.ext_getElem (by simp) fun i h1 h2 => ?_
  refine List.ext_getElem (by simpa using hl _ (List.getElem_mem h1)) fun j h3 h4 => ?_
  simp

theorem column_ofFn {n d : Nat} (A : Fin n → Fin d → ℝ) (j : Fin d) :
    column j (List.ofFn fun i => List.ofFn (A i)) = List.ofFn fun i => A i j := by
  unfold column
  rw [List.ofFn_eq_map, List.ofFn_eq_map, List.filterMap_map]
  rw [← List.filterMap_eq_map]
  refine List.filterMap_congr fun i _ => ?_
  simp

/-- **C134.** For an objective that is a sum of effects of the single coordinates, the mean over the points of a
Latin hypercube design — of any type, with any criterion, for every random outcome — differs from the mean over
the space by no more than the effects can change within one `n`-th of their range. -/
theorem C134_additive {n : Nat} (num : LhsNum ℝ) (l : Lhs) (ds : List (RealDim ℝ)) (hne : ds ≠ [])
    (hd : ∀ d ∈ ds, PlainReal d) (hn : 0 < n) (first : LhsDraw ℝ) (draws : List (LhsDraw ℝ))
    (hr : ∀ r ∈ first :: draws, GoodDraw ds.length n r) (f : Point ℝ → ℝ) (g : Fin ds.length → ℝ → ℝ)
    (hf : ∀ y : Fin ds.length → ℝ, f (List.ofFn fun j => Val.num (y j)) = ∑ j, g j (y j))
    (hg : ∀ j, IntervalIntegrable (g j) volume ds[j].low ds[j].high) (e : Fin ds.length → ℝ)
    (he : ∀ j, ∀ x ∈ Set.Icc ds[j].low ds[j].high, ∀ y ∈ Set.Icc ds[j].low ds[j].high,
      |x - y| ≤ (ds[j].high - ds[j].low) / (n : ℝ) → |g j x - g j y| ≤ e j)
    (pts : List (Point ℝ)) (h : (l.generate exact num (ds.map Dim.real) n first draws).2 = .ok pts) :
    |(pts.map f).sum / pts.length - ∑ j, (∫ x in ds[j].low..ds[j].high, g j x) / (ds[j].high - ds[j].low)| ≤
      ∑ j, e j := by
  unfold Lhs.generate at h
  rw [withNormalized_snd _ fun d hd' => by
      obtain ⟨d', h', rfl⟩ := List.mem_map.1 hd'
      exact (hd d' h').valid.legalTransform, bind_eq_ok] at h
  obtain ⟨M, hM, h⟩ := h
  rw [List.length_map] at hM
  obtain ⟨hlen, hrow, hcol⟩ := C22_one_sample_per_stratum num l ds.length n first draws hr M hM
  obtain ⟨A, rfl⟩ := matrix_of hlen fun r hr => (hrow r hr).1
  rw [inverse_cube hne hd (by intro h0; have := congrArg List.length h0; simp at this; omega)
    (fun r hr => (hrow r hr).1) (fun r hr x hx => ⟨((hrow r hr).2 x hx).1, ((hrow r hr).2 x hx).2.le⟩)] at h
  injection h with h
  subst h
  have hp : ∀ j : Fin ds.length, 0 < ds[j].high - ds[j].low := fun j => sub_pos.2 (hd _ (List.getElem_mem j.2)).1
  have hsum : ((((List.ofFn fun i => List.ofFn (A i)).map fun r => (cubePoint ds r).map Val.num).map f).sum : ℝ) =
      ∑ j : Fin ds.length, ∑ i : Fin n, g j (ds[j].low + A i j * (ds[j].high - ds[j].low)) := by
    rw [List.map_map, List.map_ofFn, List.sum_ofFn, Finset.sum_comm]
    refine Finset.sum_congr rfl fun i _ => ?_
    simp only [Function.comp_apply, placed_cube]
    exact hf _
  rw [hsum, List.length_map, List.length_ofFn, Finset.sum_div, ← Finset.sum_sub_distrib]
  refine (Finset.abs_sum_le_sum_abs _ _).trans (Finset.sum_le_sum fun j _ => ?_)
  have hst := (hcol j j.2).2
  rw [column_ofFn] at hst
  have hpj := hp j
  have key := stratified_mean hn hst
    (G := fun u => g j (ds[j].low + u * (ds[j].high - ds[j].low))) (e := e j) ?_ ?_
  · have hi : ∫ u in (0 : ℝ)..1, g j (ds[j].low + u * (ds[j].high - ds[j].low)) =
        (∫ x in ds[j].low..ds[j].high, g j x) / (ds[j].high - ds[j].low) := by
      have hc := intervalIntegral.integral_comp_add_mul (a := 0) (b := 1) (g j) hpj.ne' ds[j].low
      simp only [mul_comm (ds[j].high - ds[j].low)] at hc
      rw [hc, zero_mul, add_zero, one_mul, add_sub_cancel, smul_eq_mul, inv_mul_eq_div]
    rw [hi] at key
    exact key
  · have h1 := (hg j).comp_add_left ds[j].low enorm_ne_top
    rw [sub_self] at h1
    have h2 := h1.comp_mul_right (c := ds[j].high - ds[j].low) enorm_ne_top enorm_ne_top
    rwa [zero_div, div_self hpj.ne'] at h2
  · intro x y x0 x1 y0 y1 hxy
    refine he j _ ⟨by nlinarith, by nlinarith⟩ _ ⟨by nlinarith, by nlinarith⟩ ?_
    rw [add_sub_add_left_eq_sub, ← sub_mul, abs_mul, abs_of_pos hpj]
    calc |x - y| * (ds[j].high - ds[j].low) ≤ 1 / n * (ds[j].high - ds[j].low) :=
          mul_le_mul_of_nonneg_right hxy hpj.le
      _ = _ := by ring

/-- **C134.** With Lipschitz effects the error is at most `(Σ L_j * range_j) / n`: it falls like `1/n`. -/
theorem C134_lipschitz {n : Nat} (num : LhsNum ℝ) (l : Lhs) (ds : List (RealDim ℝ)) (hne : ds ≠ [])
    (hd : ∀ d ∈ ds, PlainReal d) (hn : 0 < n) (first : LhsDraw ℝ) (draws : List (LhsDraw ℝ))
    (hr : ∀ r ∈ first :: draws, GoodDraw ds.length n r) (f : Point ℝ → ℝ) (g : Fin ds.length → ℝ → ℝ)
    (hf : ∀ y : Fin ds.length → ℝ, f (List.ofFn fun j => Val.num (y j)) = ∑ j, g j (y j))
    (L : Fin ds.length → ℝ) (hL : ∀ j x y, |g j x - g j y| ≤ L j * |x - y|)
    (pts : List (Point ℝ)) (h : (l.generate exact num (ds.map Dim.real) n first draws).2 = .ok pts) :
    |(pts.map f).sum / pts.length - ∑ j, (∫ x in ds[j].low..ds[j].high, g j x) / (ds[j].high - ds[j].low)| ≤
      (∑ j, L j * (ds[j].high - ds[j].low)) / n := by
  have hL0 : ∀ j, 0 ≤ L j := fun j => by
    have := (abs_nonneg _).trans (hL j 1 0)
    simpa using this
  rw [Finset.sum_div]
  refine C134_additive num l ds hne hd hn first draws hr f g hf (fun j => ?_) _ (fun j x _ y _ hxy => ?_) pts h
  · refine Continuous.intervalIntegrable ?_ _ _
    have : LipschitzWith (Real.toNNReal (L j)) (g j) := LipschitzWith.of_dist_le_mul fun x y => by
      rw [Real.dist_eq, Real.dist_eq, Real.coe_toNNReal _ (hL0 j)]
      exact hL j x y
    exact this.continuous
  · refine (hL j x y).trans ?_
    rw [mul_div_assoc]
    exact mul_le_mul_of_nonneg_left hxy (hL0 j)

/-- The identity permutation in two dimensions and the middle of every stratum. -/
noncomputable def diagonalDraw (n : Nat) : LhsDraw ℝ :=
  ⟨List.replicate n [1 / 2, 1 / 2], [List.range n, List.range n]⟩

theorem diagonalDraw_good (n : Nat) : GoodDraw 2 n (diagonalDraw n) := by
  refine ⟨by simp [diagonalDraw], ?_, ?_, rfl, ?_⟩
  · intro r hr
    rw [List.eq_of_mem_replicate hr]; rfl
  · intro r hr x hx
    rw [List.eq_of_mem_replicate hr] at hx
    simp only [List.mem_cons, List.not_mem_nil, or_false, or_self] at hx
    subst hx
    norm_num
  · intro o ho
    simp only [diagonalDraw, List.mem_cons, List.not_mem_nil, or_false, or_self] at ho
    rw [ho]

/-- The square `Real(0, 1) × Real(0, 1)`. -/
def unitSquare : List (RealDim ℝ) :=
  [⟨0, 1, .uniform, 10, .identity, none, id⟩, ⟨0, 1, .uniform, 10, .identity, none, id⟩]

theorem unitSquare_plain : ∀ d ∈ unitSquare, PlainReal d := by
  intro d hd
  simp only [unitSquare, List.mem_cons, List.not_mem_nil, or_false, or_self] at hd
  rw [hd]
  exact ⟨by norm_num, rfl, rfl, Or.inl rfl⟩

theorem sum_mid_squares (n : Nat) :
    ((List.range n).map fun k : ℕ => ((k : ℝ) + 1 / 2) * (k + 1 / 2)).sum = (n : ℝ) ^ 3 / 3 - n / 12 := by
  induction n with
  | zero => simp
  | succ n ih =>
    rw [List.range_succ, List.map_append, List.sum_append, ih]
    simp only [List.map_cons, List.map_nil, List.sum_cons, List.sum_nil]
    push_cast
    ring

/-- The design on the diagonal. -/
theorem diagonal_points (num : LhsNum ℝ) (n : Nat) (hn : 0 < n) :
    (({ lhsType := .classic, criterion := .none } : Lhs).generate exact num (unitSquare.map Dim.real) n
      (diagonalDraw n) []).2 =
      .ok ((List.range n).map fun k : ℕ => [.num (((k : ℝ) + 1 / 2) / n), .num (((k : ℝ) + 1 / 2) / n)]) := by
  have hn' : (0 : ℝ) < n := by exact_mod_cast hn
  have h1 : lhsNormalized exact .classic 2 n (diagonalDraw n) =
      .ok ((List.range n).map fun k : ℕ => [((k : ℝ) + 1 / 2) / n, ((k : ℝ) + 1 / 2) / n]) := by
    rw [lhsNormalized_exact (by simp) (diagonalDraw_good n)]
    congr 1
    refine List.map_congr_left fun k hk => ?_
    rw [List.mem_range] at hk
    simp [diagonalDraw, lhsOffset, List.range_succ, hk]
  have hx : ∀ k < n, 0 ≤ ((k : ℝ) + 1 / 2) / n ∧ ((k : ℝ) + 1 / 2) / n ≤ 1 := by
    intro k hk
    refine ⟨by positivity, ?_⟩
    rw [div_le_one hn']
    have : (k : ℝ) + 1 ≤ n := by exact_mod_cast hk
    linarith
  unfold Lhs.generate
  rw [withNormalized_snd _ fun d hd' => by
    obtain ⟨d', h', rfl⟩ := List.mem_map.1 hd'
    exact (unitSquare_plain d' h').valid.legalTransform]
  unfold Lhs.choose
  have h2 : (unitSquare.map Dim.real).length = 2 := rfl
  rw [h2, h1, ok_bind, if_pos (Or.inl rfl), ok_bind, inverse_cube (by simp [unitSquare]) unitSquare_plain]
  · rw [List.map_map]
    congr 1
    refine List.map_congr_left fun k _ => ?_
    simp [cubePoint, unitSquare]
  · intro h0
    have := congrArg List.length h0
    simp at this; omega
  · intro r hr
    obtain ⟨k, _, rfl⟩ := List.mem_map.1 hr
    rfl
  · intro r hr x hxr
    obtain ⟨k, hk, rfl⟩ := List.mem_map.1 hr
    simp only [List.mem_cons, List.not_mem_nil, or_false, or_self] at hxr
    rw [hxr]
    exact hx k (List.mem_range.1 hk)

/-- The restriction to sums of single effects matters: for the product of two coordinates, of mean 1/4, every
number `n ≥ 2` of points allows a Latin hypercube design that estimates at least 5/16. -/
theorem C134_needs_additive (num : LhsNum ℝ) (n : Nat) (hn : 2 ≤ n) :
    let l : Lhs := { lhsType := .classic, criterion := .none }
    let f : Point ℝ → ℝ := fun p => match p with | [.num x, .num y] => x * y | _ => 0
    GoodDraw 2 n (diagonalDraw n) ∧
    ∃ pts, (l.generate exact num (unitSquare.map Dim.real) n (diagonalDraw n) []).2 = .ok pts ∧
      5 / 16 ≤ (pts.map f).sum / pts.length := by
  intro l f
  have hn' : (0 : ℝ) < n := by exact_mod_cast (by omega : 0 < n)
  refine ⟨diagonalDraw_good n, _, diagonal_points num n (by omega), ?_⟩
  rw [List.map_map, List.length_map, List.length_range]
  have h3 : ((List.range n).map (f ∘ fun k : ℕ =>
      [.num (((k : ℝ) + 1 / 2) / n), .num (((k : ℝ) + 1 / 2) / n)])).sum = ((n : ℝ) ^ 3 / 3 - n / 12) / (n * n) := by
    rw [← sum_mid_squares, div_eq_mul_inv _ ((n : ℝ) * n), ← List.sum_map_mul_right]
    congr 1
    refine List.map_congr_left fun k _ => ?_
    simp only [f, Function.comp_apply]
    field_simp
  rw [h3]
  have h4 : (2 : ℝ) ≤ n := by exact_mod_cast hn
  rw [div_div, le_div_iff₀ (by positivity)]
  have h5 : 0 ≤ (n : ℝ) * (n ^ 2 - 4) := mul_nonneg hn'.le (by nlinarith)
  nlinarith

section Examples

/-- `f(x, y) = |x| + 3 y` over the unit square with `L = (1, 3)` and the design above meets the hypotheses of `C134_additive`
and `C134_lipschitz`. -/
example (num : LhsNum ℝ) : ∃ (f : Point ℝ → ℝ) (g : Fin unitSquare.length → ℝ → ℝ) (L : Fin unitSquare.length → ℝ),
    (∀ y : Fin unitSquare.length → ℝ, f (List.ofFn fun j => Val.num (y j)) = ∑ j, g j (y j)) ∧
    (∀ j x y, |g j x - g j y| ≤ L j * |x - y|) ∧ (∀ r ∈ [diagonalDraw 4], GoodDraw unitSquare.length 4 r) ∧
    ∃ pts, (({ criterion := .none } : Lhs).generate exact num (unitSquare.map Dim.real) 4 (diagonalDraw 4) []).2 = .ok pts := by
  refine ⟨fun p => match p with | [.num x, .num y] => |x| + 3 * y | _ => 0,
    (![fun x => |x|, fun y => 3 * y] : Fin 2 → ℝ → ℝ), (![1, 3] : Fin 2 → ℝ), ?_, ?_, ?_, ?_⟩
  · intro y
    exact (Fin.sum_univ_two (fun j : Fin 2 => (![fun x => |x|, fun y => 3 * y] : Fin 2 → ℝ → ℝ) j (y j))).symm
  · intro j x y
    match j with
    | ⟨0, _⟩ =>
      show |(|x| - |y|)| ≤ 1 * |x - y|
      rw [one_mul]
      exact abs_abs_sub_abs_le x y
    | ⟨1, _⟩ =>
      show |3 * x - 3 * y| ≤ 3 * |x - y|
      rw [← mul_sub, abs_mul, abs_of_pos (by norm_num : (0 : ℝ) < 3)]
  · intro r hr
    rw [List.mem_singleton.1 hr]
    exact diagonalDraw_good 4
  · obtain ⟨-, pts, h, -⟩ := C134_needs_additive num 4 (by norm_num)
    exact ⟨pts, h⟩

end Examples

end Skopt

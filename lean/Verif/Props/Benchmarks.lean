import Verif.Model.Benchmarks
import Verif.Lemmas.Dip
import Verif.Lemmas.HartmannUnique
import Mathlib.Topology.Order.Compact

/-!
# C59, C84: documented optima of the benchmark functions
-/

namespace Skopt

open Real

/-- The three documented minimisers, with the exact value 3π behind the printed 9.42478. -/
noncomputable def braninMinimisers : List (List ℝ) := [[-π, 12.275], [π, 2.275], [3 * π, 2.475]]

theorem branin_ok (u v : ℝ) : branin [u, v] = .ok (1 * (v - 5.1 / (4 * π ^ 2) * u ^ 2 + 5 / π * u - 6) ^ 2
    + 10 * (1 - 1 / (8 * π)) * cos u + 10) := rfl

theorem one_sub_pos : 0 < 1 - 1 / (8 * π) := by
  have := pi_gt_three
  rw [sub_pos, div_lt_one (by positivity)]
  linarith

/-- **C59.** Branin never falls below its value `10 / (8 π)` at the three documented minimisers; they are in the
documented square, and they are the only minimisers there. -/
theorem C59_branin_minimum :
    (∀ x ∈ braninMinimisers, branin x = .ok (10 / (8 * π))) ∧
    (∀ u v : ℝ, ∃ y, branin [u, v] = .ok y ∧ 10 / (8 * π) ≤ y) ∧
    (∀ u v : ℝ, -5 ≤ u → u ≤ 10 → (branin [u, v] = .ok (10 / (8 * π)) ↔ [u, v] ∈ braninMinimisers)) ∧
    (∀ x ∈ braninMinimisers, ∃ u v, x = [u, v] ∧ -5 ≤ u ∧ u ≤ 10 ∧ 0 ≤ v ∧ v ≤ 15) := by
  have hpi := pi_pos
  have hpi0 : π ≠ 0 := pi_ne_zero
  have hk := one_sub_pos
  have h31 := pi_gt_three
  have h32 := pi_lt_d2
  have hval : ∀ x ∈ braninMinimisers, branin x = .ok (10 / (8 * π)) := by
    intro x hx
    simp only [braninMinimisers, List.mem_cons, List.not_mem_nil, or_false] at hx
    rcases hx with rfl | rfl | rfl
    · rw [branin_ok, cos_neg, cos_pi]
      congr 1
      field_simp
      ring
    · rw [branin_ok, cos_pi]
      congr 1
      field_simp
      ring
    · have : cos (3 * π) = -1 := by
        rw [show 3 * π = π + 2 * π by ring, cos_add_two_pi, cos_pi]
      rw [branin_ok, this]
      congr 1
      field_simp
      ring
  have hdec : ∀ u v : ℝ, 1 * (v - 5.1 / (4 * π ^ 2) * u ^ 2 + 5 / π * u - 6) ^ 2
      + 10 * (1 - 1 / (8 * π)) * cos u + 10 - 10 / (8 * π)
      = (v - 5.1 / (4 * π ^ 2) * u ^ 2 + 5 / π * u - 6) ^ 2 + 10 * (1 - 1 / (8 * π)) * (cos u + 1) := by
    intro u v; field_simp; ring
  refine ⟨hval, ?_, ?_, ?_⟩
  · intro u v
    refine ⟨_, branin_ok u v, ?_⟩
    have h := hdec u v
    have h1 : 0 ≤ cos u + 1 := by linarith [neg_one_le_cos u]
    have h2 : 0 ≤ 10 * (1 - 1 / (8 * π)) * (cos u + 1) := by positivity
    have h3 := sq_nonneg (v - 5.1 / (4 * π ^ 2) * u ^ 2 + 5 / π * u - 6)
    linarith
  · intro u v hu0 hu1
    refine ⟨?_, hval _⟩
    intro h
    rw [branin_ok] at h
    have h := hdec u v |>.symm.trans (sub_eq_zero.2 (Except.ok.inj h))
    have h1 : 0 ≤ cos u + 1 := by linarith [neg_one_le_cos u]
    have h2 : 0 ≤ 10 * (1 - 1 / (8 * π)) * (cos u + 1) := by positivity
    have h3 := sq_nonneg (v - 5.1 / (4 * π ^ 2) * u ^ 2 + 5 / π * u - 6)
    have h4 : (v - 5.1 / (4 * π ^ 2) * u ^ 2 + 5 / π * u - 6) ^ 2 = 0 := by linarith
    have h5 : 10 * (1 - 1 / (8 * π)) * (cos u + 1) = 0 := by linarith
    have hv : v = 5.1 / (4 * π ^ 2) * u ^ 2 - 5 / π * u + 6 := by
      have := pow_eq_zero_iff (two_ne_zero) |>.1 h4
      linarith
    have hc : cos (u - π) = 1 := by
      rw [cos_sub_pi]
      have : cos u + 1 = 0 := by
        rcases mul_eq_zero.1 h5 with h | h
        · linarith
        · exact h
      linarith
    obtain ⟨n, hn⟩ := (cos_eq_one_iff _).1 hc
    have hu : u = (2 * n + 1) * π := by linarith
    have hn1 : (-2 : ℝ) < n := by
      by_contra hcon
      have : (2 * n + 1 : ℝ) ≤ -3 := by linarith
      nlinarith
    have hn2 : (n : ℝ) < 2 := by
      by_contra hcon
      have : (5 : ℝ) ≤ 2 * n + 1 := by linarith
      nlinarith
    have hn1' : -2 < n := by exact_mod_cast hn1
    have hn2' : n < 2 := by exact_mod_cast hn2
    simp only [braninMinimisers, List.mem_cons, List.not_mem_nil, or_false, List.cons.injEq, and_true]
    have hcases : n = -1 ∨ n = 0 ∨ n = 1 := by omega
    rcases hcases with rfl | rfl | rfl
    · left
      have hu' : u = -π := by rw [hu]; push_cast; ring
      refine ⟨hu', ?_⟩
      rw [hv, hu']; field_simp; ring
    · right; left
      have hu' : u = π := by rw [hu]; push_cast; ring
      refine ⟨hu', ?_⟩
      rw [hv, hu']; field_simp; ring
    · right; right
      have hu' : u = 3 * π := by rw [hu]; push_cast; ring
      refine ⟨hu', ?_⟩
      rw [hv, hu']; field_simp; ring
  · intro x hx
    simp only [braninMinimisers, List.mem_cons, List.not_mem_nil, or_false] at hx
    rcases hx with rfl | rfl | rfl
    · exact ⟨_, _, rfl, by linarith, by linarith, by norm_num, by norm_num⟩
    · exact ⟨_, _, rfl, by linarith, by linarith, by norm_num, by norm_num⟩
    · exact ⟨_, _, rfl, by linarith, by linarith, by norm_num, by norm_num⟩

/-- The documented decimal value. -/
example : |10 / (8 * π) - 0.397887| < 0.000001 := by
  have h1 := pi_gt_d6
  have h2 := pi_lt_d6
  have h3 : 0.397886 < 10 / (8 * π) := by rw [lt_div_iff₀ (by positivity)]; linarith
  have h4 : 10 / (8 * π) < 0.397888 := by rw [div_lt_iff₀ (by positivity)]; linarith
  rw [abs_lt]
  constructor <;> linarith

example : [π, 2.275] ∈ braninMinimisers := by simp [braninMinimisers]

/-- **C59, the small benchmarks.** `bench1`, `bench2`, `bench4` and `bench5` have the documented minimum, attained only at the
documented point. -/
theorem C59_bench_minima (float : String → Except PyErr ℝ) (hfloat : float "0" = .ok 0) :
    (∀ u : ℝ, ∃ y, bench1 [u] = .ok y ∧ 0 ≤ y ∧ (y = 0 ↔ u = 0)) ∧
    (∀ u : ℝ, ∃ y t, bench1WithTime [u] = .ok (y, t) ∧ bench1 [u] = .ok y ∧ 0 < t) ∧
    (∀ u : ℝ, ∃ y, bench2 [u] = .ok y ∧ -5 ≤ y ∧ (y = -5 ↔ u = 5)) ∧
    (∀ (s : String) (a v : ℝ), float s = .ok a → ∃ y, bench5 float s v = .ok y ∧ 0 ≤ y ∧ (y = 0 ↔ a = 0 ∧ v = 0)) ∧
    bench5 float "0" 0 = .ok 0 ∧
    (∀ (s : String) (a : ℝ), float s = .ok a → ∃ y, bench4 float [s] = .ok y ∧ 0 ≤ y ∧ (y = 0 ↔ a = 0)) ∧
    bench4 float ["0"] = .ok 0 := by
  refine ⟨?_, ?_, ?_, ?_, ?_, ?_, ?_⟩
  · intro u
    exact ⟨u ^ 2, rfl, sq_nonneg u, by simp⟩
  · intro u
    exact ⟨u ^ 2, 2.22, rfl, rfl, by norm_num⟩
  · intro u
    by_cases h : u < 0
    · refine ⟨u ^ 2, by simp [bench2, pyGet, h, bind, Except.bind], by nlinarith, ?_⟩
      constructor <;> intro h' <;> nlinarith
    · refine ⟨(u - 5) ^ 2 - 5, by simp [bench2, pyGet, h, bind, Except.bind], by nlinarith, ?_⟩
      constructor
      · intro h'
        have : (u - 5) ^ 2 = 0 := by linarith
        have := pow_eq_zero_iff (two_ne_zero) |>.1 this
        linarith
      · rintro rfl; norm_num
  · intro s a v hs
    refine ⟨a ^ 2 + v ^ 2, by simp [bench5, hs, bind, Except.bind], by positivity, ?_⟩
    rw [add_eq_zero_iff_of_nonneg (sq_nonneg a) (sq_nonneg v)]
    simp
  · simp [bench5, hfloat, bind, Except.bind]
  · intro s a hs
    exact ⟨a ^ 2, by simp [bench4, pyGet, hs, bind, Except.bind], sq_nonneg a, by simp⟩
  · simp [bench4, pyGet, hfloat, bind, Except.bind]

/-- A `float` that meets the hypothesis. -/
example : ∃ float : String → Except PyErr ℝ, float "0" = .ok 0 ∧ float "x" = .error .valueError :=
  ⟨fun s => if s = "0" then .ok 0 else .error .valueError, by simp, by simp⟩

/-- **C59, `bench3`.** There is exactly one global minimiser; to one decimal it is the documented -0.3, and to one
decimal the minimum is the documented -0.9. -/
theorem C59_bench3_minimum : ∃ x y : ℝ, bench3 [x] = .ok y ∧ |x - -0.3| < 0.05 ∧ |y - -0.9| < 0.05 ∧
    ∀ u : ℝ, ∃ v, bench3 [u] = .ok v ∧ y ≤ v ∧ (v = y → u = x) := by
  obtain ⟨x, hx, hmin⟩ := isCompact_Icc.exists_isMinOn (s := Set.Icc (-0.35 : ℝ) (-0.25)) ⟨-0.29, by norm_num, by norm_num⟩
    dip_continuous.continuousOn
  have hx9 : dip x ≤ -0.9 := le_trans (hmin (show (-0.29 : ℝ) ∈ _ from ⟨by norm_num, by norm_num⟩)) dip_at
  have hall : ∀ u, dip x ≤ dip u := by
    intro u
    by_cases hu : u ∈ Set.Icc (-0.35 : ℝ) (-0.25)
    · exact hmin hu
    · have : u ≤ -0.35 ∨ -0.25 ≤ u := by
        by_contra hc
        push Not at hc
        exact hu ⟨hc.1.le, hc.2.le⟩
      linarith [dip_outside this]
  have hin : ∀ u, dip u = dip x → -0.35 < u ∧ u < -0.25 := by
    intro u hu
    by_contra hc
    have : u ≤ -0.35 ∨ -0.25 ≤ u := by
      by_contra hc'
      push Not at hc'
      exact hc hc'
    linarith [dip_outside this]
  have hcrit : ∀ u, dip u = dip x → deriv dip u = 0 := fun u hu =>
    IsLocalMin.deriv_eq_zero (Filter.Eventually.of_forall fun w => hu ▸ hall w)
  obtain ⟨i1, i2⟩ := hin x rfl
  refine ⟨x, dip x, bench3_eq x, ?_, ?_, fun u => ⟨dip u, bench3_eq u, hall u, fun hu => ?_⟩⟩
  · rw [abs_lt]; norm_num at *; constructor <;> linarith
  · have h1 := decay_le (x := x) (c := 0.25) (by nlinarith)
    have h2 : 1 / (1 + 0.25 ^ 2 + 0.25 ^ 4 : ℝ) < 0.95 := by norm_num
    have h3 := decay_pos x
    have hs := abs_le.1 (abs_sin_le_one (5 * x))
    have h4 : -0.95 < dip x := by unfold dip; nlinarith
    rw [abs_lt]; norm_num at *; constructor <;> linarith
  · obtain ⟨j1, j2⟩ := hin u hu
    rcases lt_trichotomy u x with h | h | h
    · exact (dip_critical_unique j1 h i2 (hcrit u hu) (hcrit x rfl)).elim
    · exact h
    · exact (dip_critical_unique i1 h j2 (hcrit x rfl) (hcrit u hu)).elim

/-- Away from the minimiser the function is strictly larger, e.g. at the origin. -/
example : bench3 [0] = .ok 0 := by simp [bench3, pyGet, bind, Except.bind]

/-- The documented minimiser of the six-dimensional Hartmann function. -/
noncomputable def hartMinimiser : List ℝ := [0.20169, 0.15001, 0.476874, 0.275332, 0.311652, 0.6573]

theorem hart_entries :
    hAl 0 = 1 ∧ hA 0 0 = 10 ∧ hP 0 0 = 82 / 625 ∧ hA 0 1 = 3 ∧ hP 0 1 = 106 / 625 ∧ hA 0 2 = 17 ∧
    hP 0 2 = 5569 / 10000 ∧ hA 0 3 = 7 / 2 ∧ hP 0 3 = 31 / 2500 ∧ hA 0 4 = 17 / 10 ∧ hP 0 4 = 8283 / 10000 ∧
    hA 0 5 = 8 ∧ hP 0 5 = 2943 / 5000 ∧ hAl 1 = 6 / 5 ∧ hA 1 0 = 1 / 20 ∧ hP 1 0 = 2329 / 10000 ∧ hA 1 1 = 10 ∧
    hP 1 1 = 827 / 2000 ∧ hA 1 2 = 17 ∧ hP 1 2 = 8307 / 10000 ∧ hA 1 3 = 1 / 10 ∧ hP 1 3 = 467 / 1250 ∧ hA 1 4 = 8 ∧
    hP 1 4 = 251 / 2500 ∧ hA 1 5 = 14 ∧ hP 1 5 = 9991 / 10000 ∧ hAl 2 = 3 ∧ hA 2 0 = 3 ∧ hP 2 0 = 587 / 2500 ∧
    hA 2 1 = 7 / 2 ∧ hP 2 1 = 1451 / 10000 ∧ hA 2 2 = 17 / 10 ∧ hP 2 2 = 1761 / 5000 ∧ hA 2 3 = 10 ∧
    hP 2 3 = 2883 / 10000 ∧ hA 2 4 = 17 ∧ hP 2 4 = 3047 / 10000 ∧ hA 2 5 = 8 ∧ hP 2 5 = 133 / 200 ∧ hAl 3 = 16 / 5 ∧
    hA 3 0 = 17 ∧ hP 3 0 = 4047 / 10000 ∧ hA 3 1 = 8 ∧ hP 3 1 = 2207 / 2500 ∧ hA 3 2 = 1 / 20 ∧
    hP 3 2 = 2183 / 2500 ∧ hA 3 3 = 10 ∧ hP 3 3 = 5743 / 10000 ∧ hA 3 4 = 1 / 10 ∧ hP 3 4 = 1091 / 10000 ∧
    hA 3 5 = 14 ∧ hP 3 5 = 381 / 10000 := by
  decide +kernel

theorem hart6_hsum (x : Fin 6 → ℝ) : hart6 (List.ofFn x) = .ok (-hsum x) := by
  have e : List.ofFn x = [x 0, x 1, x 2, x 3, x 4, x 5] := by simp [List.ofFn_succ]
  rw [e, hart6_eq]
  congr 2
  unfold hsum hq hartQ1 hartQ2 hartQ3 hartQ4
  obtain ⟨v0, v1, v2, v3, v4, v5, v6, v7, v8, v9, v10, v11, v12, v13, v14, v15, v16, v17, v18, v19, v20, v21, v22, v23,
    v24, v25, v26, v27, v28, v29, v30, v31, v32, v33, v34, v35, v36, v37, v38, v39, v40, v41, v42, v43, v44, v45,
    v46, v47, v48, v49, v50, v51⟩ := hart_entries
  simp only [Fin.sum_univ_four, Fin.sum_univ_six, v0, v1, v2, v3, v4, v5, v6, v7, v8, v9, v10, v11, v12, v13, v14, v15, v16, v17, v18, v19, v20, v21, v22, v23,
    v24, v25, v26, v27, v28, v29, v30, v31, v32, v33, v34, v35, v36, v37, v38, v39, v40, v41, v42, v43, v44, v45,
    v46, v47, v48, v49, v50, v51]
  norm_num

theorem hartMinimiser_eq : hartMinimiser = List.ofFn fun j => (hX j : ℝ) := by
  have h : hX 0 = 20169 / 100000 ∧ hX 1 = 15001 / 100000 ∧ hX 2 = 476874 / 1000000 ∧ hX 3 = 275332 / 1000000 ∧
      hX 4 = 311652 / 1000000 ∧ hX 5 = 6573 / 10000 := by decide +kernel
  obtain ⟨h0, h1, h2, h3, h4, h5⟩ := h
  have e : (List.ofFn fun j => (hX j : ℝ)) =
      [(hX 0 : ℝ), (hX 1 : ℝ), (hX 2 : ℝ), (hX 3 : ℝ), (hX 4 : ℝ), (hX 5 : ℝ)] := by simp [List.ofFn_succ]
  rw [e, h0, h1, h2, h3, h4, h5]
  norm_num [hartMinimiser]

theorem hsum_documented : 3.32236 < hsum (fun j => (hX j : ℝ)) ∧ |hsum (fun j => (hX j : ℝ)) - 3.32237| < 0.000005 := by
  have h := (hart6_hsum fun j => (hX j : ℝ)).symm
  rw [← hartMinimiser_eq, hartMinimiser, hart6_eq] at h
  have h := neg_injective (Except.ok.inj h)
  rw [h]
  obtain ⟨l1, u1⟩ := hart_at_1
  obtain ⟨l2, u2⟩ := hart_at_2
  obtain ⟨l3, u3⟩ := hart_at_3
  obtain ⟨l4, u4⟩ := hart_at_4
  rw [abs_lt]
  norm_num at *
  refine ⟨?_, ?_, ?_⟩ <;> linarith

theorem hsum_attained : ∃ z : Fin 6 → ℝ, (∀ j, |z j - hX j| < 0.002) ∧ ∀ x, hsum x ≤ hsum z ∧ (hsum x = hsum z → x = z) := by
  have hcont : Continuous hsum := by
    unfold hsum hq
    fun_prop
  obtain ⟨z, hz, hmax⟩ := (isCompact_univ_pi fun j : Fin 6 =>
    isCompact_Icc (a := (hX j : ℝ) - 0.002) (b := (hX j : ℝ) + 0.002)).exists_isMaxOn
    ⟨fun j => (hX j : ℝ), fun j _ => ⟨by linarith, by linarith⟩⟩ hcont.continuousOn
  have hin : ∀ x : Fin 6 → ℝ, 3.32236 < hsum x → x ∈ Set.univ.pi fun j : Fin 6 =>
      Set.Icc ((hX j : ℝ) - 0.002) ((hX j : ℝ) + 0.002) := by
    intro x hx j _
    have := abs_lt.1 (hsum_place x hx j)
    exact ⟨by linarith, by linarith⟩
  have hzX : hsum (fun j => (hX j : ℝ)) ≤ hsum z := hmax (fun j _ => ⟨by linarith, by linarith⟩)
  have hzbig : 3.32236 < hsum z := hsum_documented.1.trans_le hzX
  have hall : ∀ x, hsum x ≤ hsum z := by
    intro x
    rcases le_or_gt (hsum x) 3.32236 with h | h
    · exact h.trans hzbig.le
    · exact hmax (hin x h)
  refine ⟨z, hsum_place z hzbig, fun x => ⟨hall x, fun he => ?_⟩⟩
  by_contra hne
  have hb : ∀ y : Fin 6 → ℝ, 3.32236 < hsum y → ∀ j, |y j - hX j| ≤ 2 / 1000 := fun y hy j => by
    have := (hsum_place y hy j).le
    norm_num at this ⊢
    exact this
  have h1 := mid_better (hb x (he ▸ hzbig)) (hb z hzbig) hne
  have h2 := hall fun j => (x j + z j) / 2
  rw [he] at h1
  linarith

/-- **C84, `hart6`.** At the documented minimiser, which lies in the unit hypercube, the function has the documented
value -3.32237 to all printed digits, and nowhere in six dimensions does it fall below that value.  There is exactly one
point where it is smallest, and each of its coordinates differs from the documented one by less than 0.002. -/
theorem C84_hart6 :
    (∃ y, hart6 hartMinimiser = .ok y ∧ |y - -3.32237| < 0.000005) ∧
    (∀ u ∈ hartMinimiser, 0 ≤ u ∧ u ≤ 1) ∧
    (∀ x : List ℝ, x.length = 6 → ∃ y, hart6 x = .ok y ∧ -3.32237 ≤ y ∧ y < 0) ∧
    ∃ z y, hart6 z = .ok y ∧ List.Forall₂ (fun u p => |u - p| < 0.002) z hartMinimiser ∧
      ∀ x : List ℝ, x.length = 6 → ∃ y', hart6 x = .ok y' ∧ y ≤ y' ∧ (y' = y → x = z) := by
  have hlist : ∀ x : List ℝ, x.length = 6 → ∃ u : Fin 6 → ℝ, x = List.ofFn u := by
    intro x hx
    refine ⟨fun j => x[j.val]'(by omega), ?_⟩
    refine List.ext_getElem (by simp [hx]) fun i h1 h2 => ?_
    rw [List.getElem_ofFn]
  refine ⟨⟨_, by rw [hartMinimiser_eq]; exact hart6_hsum _, ?_⟩, ?_, ?_, ?_⟩
  · rw [← abs_neg]
    convert hsum_documented.2 using 2
    ring
  · intro u hu
    simp only [hartMinimiser, List.mem_cons, List.not_mem_nil, or_false] at hu
    rcases hu with rfl | rfl | rfl | rfl | rfl | rfl <;> constructor <;> norm_num
  · intro x hx
    obtain ⟨u, rfl⟩ := hlist x hx
    refine ⟨_, hart6_hsum u, by linarith [hsum_le u], ?_⟩
    have hAlpos : ∀ i, 0 < hAl i := by decide +kernel
    have : 0 < hsum u := Finset.sum_pos (fun i _ => mul_pos (by exact_mod_cast hAlpos i) (exp_pos _)) ⟨0, Finset.mem_univ 0⟩
    linarith
  · obtain ⟨z, hz, hmax⟩ := hsum_attained
    refine ⟨List.ofFn z, _, hart6_hsum z, ?_, fun x hx => ?_⟩
    · rw [hartMinimiser_eq]
      simp only [List.ofFn_succ, List.ofFn_zero, List.forall₂_cons, List.forall₂_nil_right_iff, and_true]
      exact ⟨hz 0, hz 1, hz 2, hz 3, hz 4, hz 5⟩
    · obtain ⟨u, rfl⟩ := hlist x hx
      refine ⟨_, hart6_hsum u, neg_le_neg (hmax u).1, fun h => ?_⟩
      rw [(hmax u).2 (neg_injective h)]

example : hart6 [0, 1] = .error .valueError := rfl

example : hartMinimiser.length = 6 := rfl

end Skopt

import Verif.Lemmas.Hartmann
import Mathlib.Tactic.FinCases

/-!
# The minimum of the six-dimensional Hartmann function

The function is minus a sum of four terms `α exp (-q)`, where the exponents `q` are weighted squared distances.  For
every choice of numbers `γ ≥ 0`, the terms `α exp (-q) + γ q` are convex in `q`, so on an interval of values of `q` they
are largest at one of the ends; and `∑ γ q` is a weighted sum of squares whose minimum over all points is known exactly.
Cutting the possible values of the four exponents into boxes, with a choice of `γ` for every box, bounds the function
everywhere; the same bound keeps all good points close to the documented minimiser.
-/

namespace Skopt

open Real

/-- The factors of the four terms. -/
def hAl : Fin 4 → ℚ := ![1, 12 / 10, 3, 32 / 10]

/-- The weights of the four squared distances. -/
def hA : Fin 4 → Fin 6 → ℚ :=
  ![![10, 3, 17, 35 / 10, 17 / 10, 8], ![5 / 100, 10, 17, 1 / 10, 8, 14], ![3, 35 / 10, 17 / 10, 10, 17, 8],
    ![17, 8, 5 / 100, 10, 1 / 10, 14]]

/-- The four centres. -/
def hP : Fin 4 → Fin 6 → ℚ := fun i j =>
  (![![1312, 1696, 5569, 124, 8283, 5886], ![2329, 4135, 8307, 3736, 1004, 9991],
    ![2348, 1451, 3522, 2883, 3047, 6650], ![4047, 8828, 8732, 5743, 1091, 381]] : Fin 4 → Fin 6 → ℚ) i j / 10000

/-- The documented minimiser. -/
def hX : Fin 6 → ℚ := ![20169 / 100000, 15001 / 100000, 476874 / 1000000, 275332 / 1000000, 311652 / 1000000,
  6573 / 10000]

/-- The four exponents. -/
noncomputable def hq (x : Fin 6 → ℝ) (i : Fin 4) : ℝ := ∑ j, (hA i j : ℝ) * (x j - hP i j) ^ 2

/-- Minus the function. -/
noncomputable def hsum (x : Fin 6 → ℝ) : ℝ := ∑ i, (hAl i : ℝ) * exp (-hq x i)

/-- An interval of values of an exponent: the lower end and possibly an upper end, each with an upper bound for
`exp (-·)`. -/
structure HInt where
  lo : ℚ
  elo : ℚ
  hi : Option (ℚ × ℚ)

/-- The value lies in the interval, whose bounds are right. -/
def HInt.Has (b : HInt) (q : ℝ) : Prop :=
  b.lo ≤ q ∧ exp (-b.lo) ≤ b.elo ∧ ∀ p, b.hi = some p → q ≤ p.1 ∧ exp (-p.1) ≤ p.2

/-- A way to cut the values of the four exponents into boxes. -/
inductive HTree
  | leaf (g0 g1 g2 g3 : ℕ)
  | split (i : Fin 4) (mid : ℚ) (e : ℕ) (l r : HTree)

/-- The largest value of `α exp (-q) + g q` in an interval. -/
def HInt.top (b : HInt) (al g : ℚ) : ℚ :=
  match b.hi with
  | none => al * b.elo + g * b.lo
  | some p => max (al * b.elo + g * b.lo) (al * p.2 + g * p.1)

/-- The sum of the weights of a coordinate. -/
def hW (g : Fin 4 → ℚ) (j : Fin 6) : ℚ := ∑ i, g i * hA i j

/-- The weighted sum of the centres. -/
def hT (g : Fin 4 → ℚ) (j : Fin 6) : ℚ := ∑ i, g i * hA i j * hP i j

/-- The weighted sum of the squared centres. -/
def hS (g : Fin 4 → ℚ) (j : Fin 6) : ℚ := ∑ i, g i * hA i j * hP i j ^ 2

/-- What is left of the bound `v` after the choice `g`. -/
def hSlack (v : ℚ) (b : Fin 4 → HInt) (g : Fin 4 → ℚ) : ℚ :=
  ∑ i, (b i).top (hAl i) (g i) - ∑ j, (hS g j - hT g j ^ 2 / hW g j) - v

/-- The choice `g` bounds the sum by `v`, or places all points with a larger sum within `r` of the documented point. -/
def hLeaf (v r : ℚ) (b : Fin 4 → HInt) (g : Fin 4 → ℚ) : Bool :=
  decide (∀ i, 0 ≤ g i ∧ ((b i).hi = none → g i = 0)) &&
    (decide (hSlack v b g ≤ 0) || decide (∀ j, 0 < hW g j ∧ |hT g j / hW g j - hX j| < r ∧
      hSlack v b g < hW g j * (r - |hT g j / hW g j - hX j|) ^ 2))

/-- Taylor polynomial of the exponential function. -/
def hExp (q : ℚ) : ℚ := ∑ k ∈ Finset.range 60, q ^ k / (k.factorial : ℚ)

/-- All boxes are bounded. -/
def HTree.check (v r : ℚ) : HTree → (Fin 4 → HInt) → Bool
  | .leaf g0 g1 g2 g3, b => hLeaf v r b ![g0 / 1000000, g1 / 1000000, g2 / 1000000, g3 / 1000000]
  | .split i mid e s t, b =>
    decide (0 ≤ mid ∧ 1 ≤ (e : ℚ) / 1000000000000 * hExp mid) &&
      (s.check v r (Function.update b i { b i with hi := some (mid, e / 1000000000000) }) &&
        t.check v r (Function.update b i { b i with lo := mid, elo := e / 1000000000000 }))

theorem hExp_bound {q e : ℚ} (hq : 0 ≤ q) (h : 1 ≤ e * hExp q) : exp (-(q : ℝ)) ≤ e := by
  have h1 : ((hExp q : ℚ) : ℝ) ≤ exp q := by
    have := sum_le_exp_of_nonneg (x := (q : ℝ)) (by exact_mod_cast hq) 60
    refine le_trans (le_of_eq ?_) this
    simp [hExp]
  have h2 : (1 : ℝ) ≤ e * hExp q := by exact_mod_cast h
  have he : (0 : ℝ) ≤ e := by
    by_contra hcon
    have h3 : (0 : ℝ) ≤ hExp q := by
      have : 0 ≤ hExp q := Finset.sum_nonneg fun k _ => by positivity
      exact_mod_cast this
    nlinarith
  rw [exp_neg, inv_le_iff_one_le_mul₀ (exp_pos _)]
  nlinarith

theorem top_bound {b : HInt} {q : ℝ} (h : b.Has q) {al g : ℚ} (ha : 0 ≤ al) (hg : 0 ≤ g)
    (hnone : b.hi = none → g = 0) : al * exp (-q) + g * q ≤ b.top al g := by
  obtain ⟨h1, h2, h3⟩ := h
  have ha' : (0 : ℝ) ≤ al := by exact_mod_cast ha
  have hg' : (0 : ℝ) ≤ g := by exact_mod_cast hg
  unfold HInt.top
  split
  · next hn =>
    have : g = 0 := hnone hn
    subst this
    have : exp (-q) ≤ exp (-b.lo) := exp_le_exp.2 (by linarith)
    push_cast
    nlinarith
  · next p hp =>
    obtain ⟨h4, h5⟩ := h3 p hp
    have hc : ConvexOn ℝ Set.univ (fun s : ℝ => (al : ℝ) * exp (-1 * s + 0) + g * s) := by
      refine ((convexOn_exp_line (-1) 0).smul ha').add ?_
      have := (convexOn_id (𝕜 := ℝ) (β := ℝ) (s := Set.univ) convex_univ).smul hg'
      exact this
    have := hc.le_max_of_mem_Icc (x := (b.lo : ℝ)) (y := (p.1 : ℝ)) (z := q) (Set.mem_univ _) (Set.mem_univ _) ⟨h1, h4⟩
    simp only [neg_one_mul, add_zero] at this
    refine this.trans ?_
    push_cast
    exact max_le_max (by nlinarith) (by nlinarith)

theorem weighted_squares (g : Fin 4 → ℚ) (hg : ∀ i, 0 ≤ g i) (x : ℝ) (j : Fin 6) :
    ∑ i, (g i : ℝ) * ((hA i j : ℝ) * (x - hP i j) ^ 2) =
      ((hS g j - hT g j ^ 2 / hW g j : ℚ) : ℝ) + hW g j * (x - (hT g j / hW g j : ℚ)) ^ 2 := by
  have hApos : ∀ i, 0 < hA i j := by decide +kernel +revert
  have e : ∑ i, (g i : ℝ) * ((hA i j : ℝ) * (x - hP i j) ^ 2) =
      hW g j * x ^ 2 - 2 * hT g j * x + hS g j := by
    unfold hW hT hS
    push_cast
    rw [Finset.sum_mul, Finset.mul_sum, Finset.sum_mul, ← Finset.sum_sub_distrib, ← Finset.sum_add_distrib]
    refine Finset.sum_congr rfl fun i _ => ?_
    ring
  rw [e]
  by_cases h0 : hW g j = 0
  · have hz : ∀ i, g i = 0 := by
      intro i
      have := (Finset.sum_eq_zero_iff_of_nonneg fun i _ => mul_nonneg (hg i) (hApos i).le).1 h0 i (Finset.mem_univ i)
      exact (mul_eq_zero.1 this).resolve_right (hApos i).ne'
    have hT0 : hT g j = 0 := Finset.sum_eq_zero fun i _ => by rw [hz]; ring
    have hS0 : hS g j = 0 := Finset.sum_eq_zero fun i _ => by rw [hz]; ring
    rw [h0, hT0, hS0]
    norm_num
  · have : (hW g j : ℝ) ≠ 0 := by exact_mod_cast h0
    push_cast
    field_simp
    ring

theorem leaf_sound {v r : ℚ} {b : Fin 4 → HInt} {g : Fin 4 → ℚ} (h : hLeaf v r b g = true) (x : Fin 6 → ℝ)
    (hx : ∀ i, (b i).Has (hq x i)) : hsum x ≤ v ∨ ∀ j, |x j - hX j| < r := by
  simp only [hLeaf, Bool.and_eq_true, decide_eq_true_eq, Bool.or_eq_true] at h
  obtain ⟨hg, h⟩ := h
  have hAlpos : ∀ i, 0 ≤ hAl i := by decide +kernel
  have h1 : hsum x + ∑ j, (hW g j : ℝ) * (x j - (hT g j / hW g j : ℚ)) ^ 2 ≤ (hSlack v b g : ℝ) + v := by
    have e1 : ∑ i, (g i : ℝ) * hq x i = ∑ j, (((hS g j - hT g j ^ 2 / hW g j : ℚ) : ℝ) +
        hW g j * (x j - (hT g j / hW g j : ℚ)) ^ 2) := by
      unfold hq
      simp_rw [Finset.mul_sum]
      rw [Finset.sum_comm]
      exact Finset.sum_congr rfl fun j _ => weighted_squares g (fun i => (hg i).1) (x j) j
    rw [Finset.sum_add_distrib] at e1
    have e2 : hsum x + ∑ i, (g i : ℝ) * hq x i ≤ ((∑ i, (b i).top (hAl i) (g i) : ℚ) : ℝ) := by
      unfold hsum
      rw [← Finset.sum_add_distrib]
      push_cast
      exact Finset.sum_le_sum fun i _ => top_bound (hx i) (hAlpos i) (hg i).1 (hg i).2
    have e3 : ((hSlack v b g : ℚ) : ℝ) + v = ((∑ i, (b i).top (hAl i) (g i) : ℚ) : ℝ) -
        ∑ j, ((hS g j - hT g j ^ 2 / hW g j : ℚ) : ℝ) := by
      unfold hSlack
      push_cast
      ring
    rw [e3]
    linarith
  have hWnn : ∀ j, (0 : ℝ) ≤ hW g j := by
    intro j
    have : 0 ≤ hW g j := Finset.sum_nonneg fun i _ => mul_nonneg (hg i).1 (by revert i j; decide +kernel)
    exact_mod_cast this
  have hterm : ∀ j, 0 ≤ (hW g j : ℝ) * (x j - (hT g j / hW g j : ℚ)) ^ 2 := fun j => mul_nonneg (hWnn j) (sq_nonneg _)
  rcases h with h | h
  · left
    have h2 : (hSlack v b g : ℝ) ≤ 0 := by exact_mod_cast h
    have h3 := Finset.sum_nonneg fun j (_ : j ∈ Finset.univ) => hterm j
    linarith
  · by_cases hv : hsum x ≤ v
    · exact .inl hv
    · right
      intro j
      obtain ⟨w1, w2, w3⟩ := h j
      have h2 := Finset.single_le_sum (f := fun j => (hW g j : ℝ) * (x j - (hT g j / hW g j : ℚ)) ^ 2)
        (fun j _ => hterm j) (Finset.mem_univ j)
      have w1' : (0 : ℝ) < hW g j := by exact_mod_cast w1
      have w2' : |((hT g j / hW g j : ℚ) : ℝ) - hX j| < r := by exact_mod_cast w2
      have w3' : (hSlack v b g : ℝ) < hW g j * (r - |((hT g j / hW g j : ℚ) : ℝ) - hX j|) ^ 2 := by exact_mod_cast w3
      have h3 : (hW g j : ℝ) * (x j - (hT g j / hW g j : ℚ)) ^ 2 <
          hW g j * (r - |((hT g j / hW g j : ℚ) : ℝ) - hX j|) ^ 2 := by
        linarith [not_le.1 hv]
      have h4 := lt_of_mul_lt_mul_left h3 w1'.le
      have h5 := abs_lt_of_sq_lt_sq h4 (by linarith)
      calc |x j - hX j| ≤ |x j - (hT g j / hW g j : ℚ)| + |((hT g j / hW g j : ℚ) : ℝ) - hX j| := abs_sub_le _ _ _
        _ < r := by linarith

theorem check_sound {v r : ℚ} (t : HTree) (b : Fin 4 → HInt) (h : t.check v r b = true) (x : Fin 6 → ℝ)
    (hx : ∀ i, (b i).Has (hq x i)) : hsum x ≤ v ∨ ∀ j, |x j - hX j| < r := by
  induction t generalizing b with
  | leaf g0 g1 g2 g3 => exact leaf_sound h x hx
  | split i mid e s t ihs iht =>
    simp only [HTree.check, Bool.and_eq_true, decide_eq_true_eq] at h
    obtain ⟨⟨h1, h2⟩, h3, h4⟩ := h
    have he := hExp_bound h1 h2
    rcases le_total (hq x i) mid with hm | hm
    · refine ihs _ h3 fun k => ?_
      by_cases hk : k = i
      · subst hk
        rw [Function.update_self]
        refine ⟨(hx k).1, (hx k).2.1, fun p hp => ?_⟩
        cases hp
        exact ⟨hm, he⟩
      · rw [Function.update_of_ne hk]
        exact hx k
    · refine iht _ h4 fun k => ?_
      by_cases hk : k = i
      · subst hk
        rw [Function.update_self]
        exact ⟨hm, he, (hx k).2.2⟩
      · rw [Function.update_of_ne hk]
        exact hx k

/-- All values of the exponents. -/
def hAll : Fin 4 → HInt := fun _ => ⟨0, 1, none⟩

theorem hq_nonneg (x : Fin 6 → ℝ) (i : Fin 4) : 0 ≤ hq x i := by
  have hApos : ∀ i j, 0 < hA i j := by decide +kernel
  refine Finset.sum_nonneg fun j _ => mul_nonneg ?_ (sq_nonneg _)
  exact_mod_cast (hApos i j).le

theorem check_all {v r : ℚ} {t : HTree} (h : t.check v r hAll = true) (x : Fin 6 → ℝ) :
    hsum x ≤ v ∨ ∀ j, |x j - hX j| < r := by
  refine check_sound t hAll h x fun i => ⟨?_, ?_, fun p hp => ?_⟩
  · simpa [hAll] using hq_nonneg x i
  · simp [hAll]
  · cases hp

/-- Boxes that bound the sum by 3.32237. -/
def hTreeBound : HTree :=
  (.split 3 1 367879441172 (.split 2 1 367879441172 (.leaf 0 0 1896362 2022786) (.split 1 1 367879441172 (.leaf 0
  758545 0 2022786) (.split 2 2 135335283237 (.leaf 0 0 697632 2022786) (.split 0 1 367879441172 (.leaf 632121 0 0
  2022786) (.split 1 2 135335283237 (.leaf 0 279053 0 2022786) (.split 2 3 49787068368 (.leaf 0 0 256645 2022786)
  (.split 0 2 135335283237 (.leaf 232544 0 0 2022786) (.split 1 3 49787068368 (.leaf 0 102658 0 2022786) (.split 2 4
  18315638889 (.leaf 0 0 94414 2022786) (.split 0 3 49787068368 (.leaf 85548 0 0 2022786) (.split 1 4 18315638889
  (.leaf 0 37766 0 2022786) (.split 2 5 6737947000 (.leaf 0 0 34733 2022786) (.leaf 0 0 0 2022786))))))))))))) (.split
  2 1 367879441172 (.split 1 1 367879441172 (.split 3 2 135335283237 (.leaf 0 758545 1896362 744141) (.split 0 1
  367879441172 (.leaf 632121 758545 1896362 0) (.leaf 0 758545 1896362 0))) (.split 3 2 135335283237 (.leaf 0 0
  1896362 744141) (.split 0 1 367879441172 (.split 1 2 135335283237 (.split 3 3 49787068368 (.leaf 632121 279053
  1896362 273754) (.leaf 632121 279053 1896362 0)) (.split 3 3 49787068368 (.leaf 632121 0 1896362 273754) (.split 1 3
  49787068368 (.split 3 4 18315638889 (.leaf 632121 102658 1896362 100709) (.split 2 (1 / 2) 606530659713 (.leaf
  632121 304763 2360816 0) (.leaf 632121 102658 1431907 0))) (.split 3 4 18315638889 (.leaf 632121 0 1896362 100709)
  (.split 2 (1 / 2) 606530659713 (.split 1 4 18315638889 (.split 3 5 6737947000 (.leaf 632121 37766 2360816 37049)
  (.split 0 (1 / 2) 606530659713 (.leaf 786939 37766 2360816 0) (.split 2 (1 / 4) 778800783072 (.split 3 6 2478752177
  (.leaf 477302 37766 2654391 13629) (.split 2 (1 / 8) 882496902585 (.leaf 477302 111944 2820074 0) (.leaf 477302
  37766 2488707 0))) (.leaf 477302 37766 2067241 0)))) (.split 3 5 6737947000 (.leaf 632121 0 2360816 37049) (.split 0
  (1 / 2) 606530659713 (.leaf 786939 0 2360816 0) (.split 2 (1 / 4) 778800783072 (.split 1 5 6737947000 (.split 3 6
  2478752177 (.leaf 477302 13893 2654391 13629) (.split 0 (3 / 4) 472366552742 (.split 2 (1 / 8) 882496902585 (.leaf
  865817 13893 2820074 0) (.leaf 536656 13893 2488707 0)) (.split 2 (1 / 8) 882496902585 (.split 3 7 911881966 (.leaf
  417948 13893 2820074 5014) (.split 2 (1 / 16) 939413062814 (.split 0 (7 / 8) 416862019679 (.split 3 8 335462628
  (.leaf 444036 13893 2908173 1845) (.split 2 (1 / 32) 969233234477 (.leaf 517974 13893 3885728 0) (.split 1 (9 / 2)
  11108996539 (.leaf 444036 17296 2862736 0) (.split 3 9 123409805 (.leaf 444036 10491 2862736 679) (.split 3 10
  45399930 (.leaf 444036 10491 2862736 99973) (.split 1 (19 / 4) 8651695204 (.leaf 444036 11795 2862736 0) (.split 2
  (3 / 64) 954206665970 (.leaf 444036 9186 2885101 0) (.leaf 444036 9186 2840372 0)))))))) (.split 3 8 335462628
  (.leaf 391861 13893 2908173 1845) (.split 2 (1 / 32) 969233234477 (.split 3 9 123409805 (.leaf 391861 13893 3001427
  199030) (.split 1 (9 / 2) 11108996539 (.leaf 391861 17296 2953609 0) (.split 0 (15 / 16) 391605626677 (.split 3 10
  45399930 (.leaf 404102 10491 3024630 102958) (.split 1 (19 / 4) 8651695204 (.leaf 404102 18880 3184149 0) (.split 0
  (29 / 32) 404036523664 (.split 3 11 16701701 (.leaf 410416 9186 3045505 20230) (.split 1 (39 / 8) 7635094219 (.leaf
  410416 9759 3056058 0) (.leaf 410416 8613 2953609 0))) (.split 3 11 16701701 (.leaf 397789 9186 2953609 92) (.leaf
  397789 9186 2953609 0))))) (.leaf 379619 10491 2953609 0)))) (.split 3 9 123409805 (.leaf 391861 13893 2862736
  191170) (.split 1 (9 / 2) 11108996539 (.leaf 391861 17296 2862736 0) (.split 0 (15 / 16) 391605626677 (.split 3 10
  45399930 (.leaf 404102 10491 2862736 98374) (.split 1 (19 / 4) 8651695204 (.split 3 11 16701701 (.leaf 404102 16835
  2862736 19660) (.split 2 (3 / 64) 954206665970 (.leaf 404102 17332 2885101 0) (.leaf 404102 11795 2840372 0)))
  (.split 0 (29 / 32) 404036523664 (.split 3 11 16701701 (.leaf 410416 9186 2862736 19434) (.split 2 (3 / 64)
  954206665970 (.split 1 (39 / 8) 7635094219 (.split 3 12 6144213 (.split 0 (57 / 64) 410399173097 (.split 2 (5 / 128)
  961690601606 (.split 1 (77 / 16) 8127515490 (.split 2 (9 / 256) 965454552198 (.split 2 (17 / 512) 967342048278
  (.leaf 413622 10064 2904862 34) (.leaf 413622 10064 2899194 34)) (.leaf 413622 10064 2890714 34)) (.split 2 (9 /
  256) 965454552198 (.split 2 (17 / 512) 967342048278 (.leaf 413622 9454 2904862 34) (.leaf 413622 9454 2899194 34))
  (.leaf 413622 9454 2890714 34))) (.leaf 413622 9759 2873831 34)) (.split 2 (5 / 128) 961690601606 (.split 1 (77 /
  16) 8127515490 (.split 2 (9 / 256) 965454552198 (.split 0 (115 / 128) 407205421394 (.split 2 (17 / 512) 967342048278
  (.split 3 (23 / 2) 10130094 (.split 0 (229 / 256) 408799178351 (.split 3 (45 / 4) 13007298 (.leaf 409599 10064
  2904862 47) (.leaf 409599 10064 2904862 37)) (.leaf 408002 10064 2904862 42)) (.leaf 408800 10064 2904862 26))
  (.leaf 408800 10103 2867713 34)) (.leaf 405619 10064 2902028 34)) (.leaf 407210 10064 2890714 34)) (.split 2 (9 /
  256) 965454552198 (.split 0 (115 / 128) 407205421394 (.split 2 (17 / 512) 967342048278 (.split 3 (23 / 2) 10130094
  (.split 0 (229 / 256) 408799178351 (.split 1 (155 / 32) 7877458126 (.split 3 (45 / 4) 13007298 (.leaf 409599 9602
  2904862 1459) (.split 2 (33 / 1024) 968287179662 (.leaf 409599 9602 2906280 37) (.leaf 409599 9602 2903444 37)))
  (.leaf 409599 9307 2904862 42)) (.split 1 (155 / 32) 7877458126 (.split 3 (45 / 4) 13007298 (.leaf 408002 9602
  2904862 47) (.leaf 408002 9602 2904862 37)) (.leaf 408002 9307 2904862 42))) (.leaf 408800 9454 2904862 0)) (.leaf
  408800 9454 2856709 34)) (.leaf 405619 9454 2902028 34)) (.leaf 407210 9454 2890714 34))) (.leaf 407210 9759 2873831
  34))) (.split 0 (57 / 64) 410399173097 (.split 2 (5 / 128) 961690601606 (.split 3 13 2260330 (.split 1 (77 / 16)
  8127515490 (.leaf 413622 10064 2896371 12) (.leaf 413622 9454 2896371 12)) (.leaf 413622 9759 2896371 0)) (.leaf
  413622 9759 2873831 0)) (.split 2 (5 / 128) 961690601606 (.split 3 13 2260330 (.split 1 (77 / 16) 8127515490 (.leaf
  407210 10240 2896371 0) (.leaf 407210 9454 2896371 0)) (.split 1 (77 / 16) 8127515490 (.leaf 407210 10064 2896371 0)
  (.leaf 407210 9454 2896371 0))) (.leaf 407210 9759 2873831 0)))) (.leaf 410416 2784 2885101 0)) (.leaf 410416 9186
  2840372 0))) (.leaf 365620 9186 2731447 0)))) (.leaf 379619 10491 2862736 0))))))) (.leaf 417948 13893 1447128 0)))
  (.leaf 417948 13893 2488707 0)))) (.split 3 6 2478752177 (.leaf 477302 0 2654391 13629) (.split 0 (3 / 4)
  472366552742 (.leaf 832226 0 2654391 0) (.split 2 (1 / 8) 882496902585 (.split 1 6 2478752177 (.split 3 7 911881966
  (.leaf 417948 5111 2820074 5014) (.split 2 (1 / 16) 939413062814 (.split 0 (7 / 8) 416862019679 (.split 3 8
  335462628 (.leaf 444036 5111 2908173 1845) (.split 2 (1 / 32) 969233234477 (.leaf 444036 5111 2953609 0) (.leaf
  452087 0 2862736 0))) (.split 3 8 335462628 (.leaf 391861 5111 2908173 1845) (.split 2 (1 / 32) 969233234477 (.split
  3 9 123409805 (.leaf 391861 5111 2953609 679) (.leaf 391861 0 2953609 0)) (.split 3 9 123409805 (.leaf 391861 5111
  2862736 679) (.leaf 391861 0 2756600 0))))) (.leaf 417948 0 1367425 0))) (.split 3 7 911881966 (.leaf 417948 0
  2820074 5014) (.split 2 (1 / 16) 939413062814 (.split 0 (7 / 8) 416862019679 (.leaf 444036 0 2908173 0) (.leaf
  391861 0 2908173 0)) (.leaf 417948 0 2731976 0)))) (.leaf 417948 0 2488707 0))))) (.leaf 477302 0 2067241 0)))))
  (.leaf 632121 0 1431907 0)))))) (.split 1 2 135335283237 (.split 3 3 49787068368 (.leaf 0 279053 1896362 273754)
  (.leaf 0 279053 1896362 0)) (.split 3 3 49787068368 (.leaf 0 0 1896362 273754) (.split 0 2 135335283237 (.split 1 3
  49787068368 (.split 3 4 18315638889 (.leaf 232544 102658 1896362 100709) (.leaf 232544 102658 1896362 0)) (.split 3
  4 18315638889 (.leaf 232544 0 1896362 100709) (.split 1 4 18315638889 (.split 3 5 6737947000 (.leaf 232544 37766
  1896362 37049) (.leaf 87135 83593 1896362 0)) (.split 3 5 6737947000 (.leaf 232544 0 1896362 37049) (.split 2 (1 /
  2) 606530659713 (.split 1 5 6737947000 (.split 3 6 2478752177 (.leaf 232544 13893 2360816 13629) (.split 2 (1 / 4)
  778800783072 (.split 3 7 911881966 (.leaf 232544 13893 2654391 5014) (.split 2 (1 / 8) 882496902585 (.leaf 232544
  13893 2820074 0) (.leaf 232544 13893 2488707 0))) (.leaf 232544 13893 2067241 0))) (.split 3 6 2478752177 (.leaf
  232544 0 2360816 13629) (.split 2 (1 / 4) 778800783072 (.split 1 6 2478752177 (.split 3 7 911881966 (.leaf 232544
  5111 2654391 5014) (.split 2 (1 / 8) 882496902585 (.leaf 232544 5111 2820074 0) (.leaf 232544 5111 2488707 0)))
  (.split 3 7 911881966 (.leaf 232544 0 2654391 5014) (.leaf 232544 0 2654391 0))) (.leaf 232544 0 2067241 0))))
  (.leaf 232544 0 1431907 0)))))) (.split 1 3 49787068368 (.leaf 0 102658 1896362 0) (.split 3 4 18315638889 (.leaf 0
  0 1896362 100709) (.leaf 0 0 1896362 0))))))))) (.split 1 1 367879441172 (.split 3 2 135335283237 (.leaf 0 758545 0
  744141) (.split 2 2 135335283237 (.split 0 1 367879441172 (.leaf 632121 758545 697632 0) (.leaf 0 758545 697632 0))
  (.leaf 0 758545 0 0))) (.split 3 2 135335283237 (.split 2 2 135335283237 (.leaf 0 0 697632 744141) (.leaf 0 0 0 0))
  (.leaf 0 0 0 0)))))

/-- Boxes that place the points where the sum exceeds 3.32236. -/
def hTreePlace : HTree :=
  (.split 3 1 367879441172 (.split 2 1 367879441172 (.leaf 0 0 1896362 2022786) (.split 1 1 367879441172 (.leaf 0
  758545 0 2022786) (.split 2 2 135335283237 (.leaf 0 0 697632 2022786) (.split 0 1 367879441172 (.leaf 632121 0 0
  2022786) (.split 1 2 135335283237 (.leaf 0 279053 0 2022786) (.split 2 3 49787068368 (.leaf 0 0 256645 2022786)
  (.split 0 2 135335283237 (.leaf 232544 0 0 2022786) (.split 1 3 49787068368 (.leaf 0 102658 0 2022786) (.split 2 4
  18315638889 (.leaf 0 0 94414 2022786) (.split 0 3 49787068368 (.leaf 85548 0 0 2022786) (.split 1 4 18315638889
  (.leaf 0 37766 0 2022786) (.split 2 5 6737947000 (.leaf 0 0 34733 2022786) (.leaf 0 0 0 2022786))))))))))))) (.split
  2 1 367879441172 (.split 1 1 367879441172 (.split 3 2 135335283237 (.leaf 0 758545 1896362 744141) (.split 0 1
  367879441172 (.leaf 632121 758545 1896362 0) (.leaf 0 758545 1896362 0))) (.split 3 2 135335283237 (.leaf 0 0
  1896362 744141) (.split 0 1 367879441172 (.split 1 2 135335283237 (.split 3 3 49787068368 (.leaf 632121 279053
  1896362 273754) (.leaf 632121 279053 1896362 0)) (.split 3 3 49787068368 (.leaf 632121 0 1896362 273754) (.split 1 3
  49787068368 (.split 3 4 18315638889 (.leaf 632121 102658 1896362 100709) (.split 2 (1 / 2) 606530659713 (.leaf
  632121 304763 2360816 0) (.leaf 632121 102658 1431907 0))) (.split 3 4 18315638889 (.leaf 632121 0 1896362 100709)
  (.split 2 (1 / 2) 606530659713 (.split 1 4 18315638889 (.split 3 5 6737947000 (.leaf 632121 37766 2360816 37049)
  (.split 0 (1 / 2) 606530659713 (.leaf 786939 37766 2360816 0) (.split 2 (1 / 4) 778800783072 (.split 3 6 2478752177
  (.leaf 477302 37766 2654391 13629) (.split 2 (1 / 8) 882496902585 (.leaf 477302 111944 2820074 0) (.leaf 477302
  37766 2488707 0))) (.leaf 477302 37766 2067241 0)))) (.split 3 5 6737947000 (.leaf 632121 0 2360816 37049) (.split 0
  (1 / 2) 606530659713 (.leaf 786939 0 2360816 0) (.split 2 (1 / 4) 778800783072 (.split 1 5 6737947000 (.split 3 6
  2478752177 (.leaf 477302 13893 2654391 13629) (.split 0 (3 / 4) 472366552742 (.split 2 (1 / 8) 882496902585 (.leaf
  865817 13893 2820074 0) (.leaf 536656 13893 2488707 0)) (.split 2 (1 / 8) 882496902585 (.split 3 7 911881966 (.leaf
  417948 13893 2820074 5014) (.split 2 (1 / 16) 939413062814 (.split 0 (7 / 8) 416862019679 (.split 3 8 335462628
  (.leaf 444036 13893 2908173 1845) (.split 2 (1 / 32) 969233234477 (.leaf 517974 13893 3885728 0) (.split 1 (9 / 2)
  11108996539 (.leaf 444036 17296 2862736 0) (.split 3 9 123409805 (.leaf 444036 10491 2862736 679) (.split 3 10
  45399930 (.leaf 444036 10491 2862736 99973) (.split 1 (19 / 4) 8651695204 (.split 2 (3 / 64) 954206665970 (.leaf
  444036 11795 2885101 0) (.leaf 444036 11795 2840372 0)) (.split 2 (3 / 64) 954206665970 (.leaf 444036 9186 2885101
  0) (.leaf 444036 9186 2840372 0)))))))) (.split 3 8 335462628 (.leaf 391861 13893 2908173 1845) (.split 2 (1 / 32)
  969233234477 (.split 3 9 123409805 (.leaf 391861 13893 3001427 199030) (.split 1 (9 / 2) 11108996539 (.leaf 391861
  17296 2953609 0) (.split 0 (15 / 16) 391605626677 (.split 3 10 45399930 (.leaf 404102 10491 3024630 102958) (.split
  1 (19 / 4) 8651695204 (.leaf 404102 18880 3184149 0) (.split 0 (29 / 32) 404036523664 (.split 3 11 16701701 (.leaf
  410416 9186 3045505 20230) (.split 1 (39 / 8) 7635094219 (.leaf 410416 9759 3056058 0) (.leaf 410416 8613 2953609
  0))) (.split 3 11 16701701 (.leaf 397789 9186 2953609 92) (.leaf 397789 9186 2953609 0))))) (.leaf 379619 10491
  2953609 0)))) (.split 3 9 123409805 (.leaf 391861 13893 2862736 191170) (.split 1 (9 / 2) 11108996539 (.leaf 391861
  17296 2862736 0) (.split 0 (15 / 16) 391605626677 (.split 3 10 45399930 (.leaf 404102 10491 2862736 98374) (.split 1
  (19 / 4) 8651695204 (.split 3 11 16701701 (.leaf 404102 16835 2862736 19660) (.split 2 (3 / 64) 954206665970 (.leaf
  404102 17332 2885101 0) (.leaf 404102 11795 2840372 0))) (.split 0 (29 / 32) 404036523664 (.split 3 11 16701701
  (.leaf 410416 9186 2862736 19434) (.split 2 (3 / 64) 954206665970 (.split 1 (39 / 8) 7635094219 (.split 3 12 6144213
  (.split 0 (57 / 64) 410399173097 (.split 2 (5 / 128) 961690601606 (.split 1 (77 / 16) 8127515490 (.split 2 (9 / 256)
  965454552198 (.leaf 413634 10064 2902028 34) (.leaf 413622 10064 2890714 34)) (.leaf 414399 9351 2896371 34)) (.leaf
  413622 9759 2873831 34)) (.split 2 (5 / 128) 961690601606 (.split 1 (77 / 16) 8127515490 (.leaf 407210 10241 2896371
  34) (.leaf 407210 9454 2896371 34)) (.leaf 407210 9759 2873831 34))) (.split 0 (57 / 64) 410399173097 (.split 2 (5 /
  128) 961690601606 (.leaf 413622 9759 2896371 0) (.leaf 413622 9759 2873831 0)) (.split 2 (5 / 128) 961690601606
  (.leaf 407210 9759 2896371 0) (.leaf 407210 9759 2873831 0)))) (.leaf 410416 2784 2885101 0)) (.leaf 410416 9186
  2840372 0))) (.leaf 361151 9186 2700104 0)))) (.leaf 379619 10491 2862736 0))))))) (.leaf 417948 13893 1447128 0)))
  (.leaf 417948 13893 2488707 0)))) (.split 3 6 2478752177 (.leaf 477302 0 2654391 13629) (.split 0 (3 / 4)
  472366552742 (.leaf 832226 0 2654391 0) (.split 2 (1 / 8) 882496902585 (.split 1 6 2478752177 (.split 3 7 911881966
  (.leaf 417948 5111 2820074 5014) (.split 2 (1 / 16) 939413062814 (.split 0 (7 / 8) 416862019679 (.split 3 8
  335462628 (.leaf 444036 5111 2908173 1845) (.split 2 (1 / 32) 969233234477 (.leaf 444036 5111 2953609 0) (.leaf
  452087 0 2862736 0))) (.split 3 8 335462628 (.leaf 391861 5111 2908173 1845) (.split 2 (1 / 32) 969233234477 (.split
  3 9 123409805 (.leaf 391861 5111 2953609 679) (.leaf 391861 0 2953609 0)) (.split 3 9 123409805 (.leaf 391861 5111
  2862736 679) (.leaf 391861 0 2756600 0))))) (.leaf 417948 0 1367425 0))) (.split 3 7 911881966 (.leaf 417948 0
  2820074 5014) (.split 2 (1 / 16) 939413062814 (.split 0 (7 / 8) 416862019679 (.leaf 444036 0 2908173 0) (.leaf
  391861 0 2908173 0)) (.leaf 417948 0 2731976 0)))) (.leaf 417948 0 2488707 0))))) (.leaf 477302 0 2067241 0)))))
  (.leaf 632121 0 1431907 0)))))) (.split 1 2 135335283237 (.split 3 3 49787068368 (.leaf 0 279053 1896362 273754)
  (.leaf 0 279053 1896362 0)) (.split 3 3 49787068368 (.leaf 0 0 1896362 273754) (.split 0 2 135335283237 (.split 1 3
  49787068368 (.split 3 4 18315638889 (.leaf 232544 102658 1896362 100709) (.leaf 232544 102658 1896362 0)) (.split 3
  4 18315638889 (.leaf 232544 0 1896362 100709) (.split 1 4 18315638889 (.split 3 5 6737947000 (.leaf 232544 37766
  1896362 37049) (.leaf 87135 83593 1896362 0)) (.split 3 5 6737947000 (.leaf 232544 0 1896362 37049) (.split 2 (1 /
  2) 606530659713 (.split 1 5 6737947000 (.split 3 6 2478752177 (.leaf 232544 13893 2360816 13629) (.split 2 (1 / 4)
  778800783072 (.split 3 7 911881966 (.leaf 232544 13893 2654391 5014) (.split 2 (1 / 8) 882496902585 (.leaf 232544
  13893 2820074 0) (.leaf 232544 13893 2488707 0))) (.leaf 232544 13893 2067241 0))) (.split 3 6 2478752177 (.leaf
  232544 0 2360816 13629) (.split 2 (1 / 4) 778800783072 (.split 1 6 2478752177 (.split 3 7 911881966 (.leaf 232544
  5111 2654391 5014) (.split 2 (1 / 8) 882496902585 (.leaf 232544 5111 2820074 0) (.leaf 232544 5111 2488707 0)))
  (.split 3 7 911881966 (.leaf 232544 0 2654391 5014) (.leaf 232544 0 2654391 0))) (.leaf 232544 0 2067241 0))))
  (.leaf 232544 0 1431907 0)))))) (.split 1 3 49787068368 (.leaf 0 102658 1896362 0) (.split 3 4 18315638889 (.leaf 0
  0 1896362 100709) (.leaf 0 0 1896362 0))))))))) (.split 1 1 367879441172 (.split 3 2 135335283237 (.leaf 0 758545 0
  744141) (.split 2 2 135335283237 (.split 0 1 367879441172 (.leaf 632121 758545 697632 0) (.leaf 0 758545 697632 0))
  (.leaf 0 758545 0 0))) (.split 3 2 135335283237 (.split 2 2 135335283237 (.leaf 0 0 697632 744141) (.leaf 0 0 0 0))
  (.leaf 0 0 0 0)))))

theorem hsum_le (x : Fin 6 → ℝ) : hsum x ≤ 3.32237 := by
  have h : hTreeBound.check (332237 / 100000) 0 hAll = true := by decide +kernel
  rcases check_all h x with h | h
  · refine h.trans ?_
    norm_num
  · have := (abs_nonneg _).trans_lt (h 0)
    norm_num at this

theorem hsum_place (x : Fin 6 → ℝ) (hx : 3.32236 < hsum x) (j : Fin 6) : |x j - hX j| < 0.002 := by
  have h : hTreePlace.check (332236 / 100000) (2 / 1000) hAll = true := by decide +kernel
  rcases check_all h x with h | h
  · norm_num at h hx
    linarith
  · refine (h j).trans_le ?_
    norm_num

end Skopt

import Verif.Model.ForestFloat
import Verif.Props.FloatDistance
import Verif.Props.Learning

/-!
# C149: the uncertainty of forests in floating-point arithmetic

`_return_std` computes the variance as the difference of the mean square and the squared mean.  In exact arithmetic this is
the law of total variance (C58); with rounding the difference cancels.
-/

namespace Skopt

variable {p : ℕ}

/-! ## Specification -/

/-- The mean of a non-empty list of numbers. -/
noncomputable def meanOf (l : List ℝ) : ℝ := l.sum / l.length

/-- The law of total variance for trees picked uniformly: the mean of the leaf variances (raised to `min_variance`) plus the
variance of the predictions. -/
noncomputable def totalVariance (mv : ℝ) (leaves : List (ℝ × ℝ)) : ℝ :=
  meanOf (leaves.map fun l => max l.1 mv) +
    meanOf (leaves.map fun l => (l.2 - meanOf (leaves.map Prod.snd)) ^ 2)

/-- The second moment: the mean of the leaf variances plus the mean of the squared predictions. -/
noncomputable def secondMoment (mv : ℝ) (leaves : List (ℝ × ℝ)) : ℝ := meanOf (leaves.map fun l => max l.1 mv + l.2 ^ 2)

/-! ## Lemmas -/

theorem totalVariance_eq {mv : ℝ} {leaves : List (ℝ × ℝ)} (hne : leaves ≠ []) :
    totalVariance mv leaves = secondMoment mv leaves - meanOf (leaves.map Prod.snd) ^ 2 := by
  have h0 : (leaves.length : ℝ) ≠ 0 := by simpa using hne
  have h := sum_sq_dev (leaves.map Prod.snd) (by simpa using hne)
  rw [List.map_map, List.map_map, List.length_map] at h
  unfold totalVariance secondMoment
  have e : (leaves.map fun l : ℝ × ℝ => max l.1 mv + l.2 ^ 2).sum =
      (leaves.map fun l => max l.1 mv).sum + (leaves.map fun l => l.2 ^ 2).sum := List.sum_map_add
  simp only [meanOf, List.length_map] at h ⊢
  rw [e]
  have h' : (leaves.map fun l : ℝ × ℝ => (l.2 - (leaves.map Prod.snd).sum / leaves.length) ^ 2).sum =
      (leaves.map fun l : ℝ × ℝ => l.2 ^ 2).sum - leaves.length * ((leaves.map Prod.snd).sum / leaves.length) ^ 2 := h
  rw [h']
  field_simp
  ring

theorem one_sub_pow_ge {u : ℝ} (h0 : 0 ≤ u) (h1 : u ≤ 1) (n : ℕ) : 2 - (1 + u) ^ n ≤ (1 - u) ^ n := by
  have a := one_add_mul_le_pow (a := u) (by linarith) n
  have b := one_add_mul_le_pow (a := -u) (by linarith) n
  have : (1 - u) ^ n = (1 + -u) ^ n := by ring
  rw [this]; linarith

/-- Adding up numbers of either sign with rounding. -/
theorem bin_foldl_abs (hp : 1 ≤ p) (l : List (Bin p)) : ∀ a : Bin p,
    |(l.foldl (binArith p).add a).1 - (a.1 + (l.map Subtype.val).sum)| ≤
      ((1 + 1 / 2 ^ p) ^ l.length - 1) * (|a.1| + (l.map fun x => |x.1|).sum) := by
  obtain ⟨u0, u1⟩ := unit_le_half hp
  induction l with
  | nil => intro a; simp
  | cons x l ih =>
    intro a
    have h := ih ((binArith p).add a x)
    have hb : ((binArith p).add a x).1 = rnd p (a.1 + x.1) := rfl
    have he := rnd_err p (a.1 + x.1)
    rw [← hb] at he
    rw [List.foldl_cons, List.map_cons, List.sum_cons, List.length_cons, List.map_cons, List.sum_cons]
    have hs : 0 ≤ (l.map fun x => |x.1|).sum := List.sum_nonneg fun y hy => by
      obtain ⟨z, _, rfl⟩ := List.mem_map.1 hy
      exact abs_nonneg _
    have hK : 1 ≤ (1 + 1 / 2 ^ p : ℝ) ^ l.length := one_le_pow₀ (by linarith)
    have hax := abs_add_le a.1 x.1
    have hbb : |((binArith p).add a x).1| ≤ (1 + 1 / 2 ^ p) * (|a.1| + |x.1|) := by
      have : |((binArith p).add a x).1| ≤ |((binArith p).add a x).1 - (a.1 + x.1)| + |a.1 + x.1| := by
        have := abs_add_le (((binArith p).add a x).1 - (a.1 + x.1)) (a.1 + x.1)
        rwa [sub_add_cancel] at this
      nlinarith
    rw [pow_succ]
    generalize ((1 + 1 / 2 ^ p : ℝ) ^ l.length) = K at *
    generalize (l.map fun x => |x.1|).sum = S at *
    generalize (l.map Subtype.val).sum = T at *
    generalize (List.foldl (binArith p).add ((binArith p).add a x) l).1 = Y at *
    generalize ((binArith p).add a x).1 = b at *
    generalize (1 : ℝ) / 2 ^ p = w at *
    have t1 : |Y - (a.1 + (x.1 + T))| ≤ |Y - (b + T)| + |b - (a.1 + x.1)| := by
      have := abs_add_le (Y - (b + T)) (b - (a.1 + x.1))
      rwa [show Y - (b + T) + (b - (a.1 + x.1)) = Y - (a.1 + (x.1 + T)) by ring] at this
    have hA : 0 ≤ |a.1| + |x.1| := by positivity
    have t2 : |Y - (b + T)| ≤ (K - 1) * ((1 + w) * (|a.1| + |x.1|) + S) :=
      h.trans (mul_le_mul_of_nonneg_left (by linarith) (by linarith))
    have t3 : |b - (a.1 + x.1)| ≤ w * (|a.1| + |x.1|) := he.trans (mul_le_mul_of_nonneg_left hax u0.le)
    nlinarith [mul_nonneg (show 0 ≤ K by linarith) (mul_nonneg u0.le hs)]

/-- The summand of one tree. -/
theorem leaf_term (hp : 1 ≤ p) (mv : Bin p) (l : Bin p × Bin p) (h0 : 0 ≤ mv.1) :
    (1 - 1 / 2 ^ p) ^ 2 * (max l.1.1 mv.1 + l.2.1 ^ 2) ≤
      ((binArith p).add (if l.1 < mv then mv else l.1) ((binArith p).mul l.2 l.2)).1 ∧
    ((binArith p).add (if l.1 < mv then mv else l.1) ((binArith p).mul l.2 l.2)).1 ≤
      (1 + 1 / 2 ^ p) ^ 2 * (max l.1.1 mv.1 + l.2.1 ^ 2) := by
  obtain ⟨u0, u1⟩ := unit_le_half hp
  have hmax : (if l.1 < mv then mv else l.1).1 = max l.1.1 mv.1 := by
    split
    · next h =>
      have h' : l.1.1 < mv.1 := h
      exact (max_eq_right h'.le).symm
    · next h =>
      have h' : ¬ l.1.1 < mv.1 := h
      exact (max_eq_left (not_lt.1 h')).symm
  have hsq : 0 ≤ l.2.1 * l.2.1 := mul_self_nonneg _
  obtain ⟨s1, s2⟩ := rnd_rel (p := p) hsq
  have hV : 0 ≤ max l.1.1 mv.1 := h0.trans (le_max_right _ _)
  have hr : 0 ≤ max l.1.1 mv.1 + rnd p (l.2.1 * l.2.1) := add_nonneg hV (rnd_nonneg hp hsq)
  obtain ⟨t1, t2⟩ := rnd_rel (p := p) hr
  have he : ((binArith p).add (if l.1 < mv then mv else l.1) ((binArith p).mul l.2 l.2)).1 =
      rnd p (max l.1.1 mv.1 + rnd p (l.2.1 * l.2.1)) := by
    show rnd p ((if l.1 < mv then mv else l.1).1 + rnd p (l.2.1 * l.2.1)) = _
    rw [hmax]
  rw [he, show l.2.1 ^ 2 = l.2.1 * l.2.1 by ring]
  generalize max l.1.1 mv.1 = V at *
  generalize l.2.1 * l.2.1 = Q at *
  generalize rnd p Q = q at *
  generalize rnd p (V + q) = t at *
  generalize (1 : ℝ) / 2 ^ p = w at *
  constructor
  · refine le_trans ?_ t1
    rw [pow_two, mul_assoc]
    exact mul_le_mul_of_nonneg_left (by nlinarith) (by linarith)
  · refine t2.trans ?_
    rw [pow_two, mul_assoc]
    exact mul_le_mul_of_nonneg_left (by nlinarith) (by linarith)

/-- The numbers behind the leaves. -/
def leafVals (leaves : List (Bin p × Bin p)) : List (ℝ × ℝ) := leaves.map fun l => (l.1.1, l.2.1)

theorem secondMoment_nonneg {mv : ℝ} (h0 : 0 ≤ mv) (leaves : List (ℝ × ℝ)) : 0 ≤ secondMoment mv leaves := by
  refine div_nonneg (List.sum_nonneg fun y hy => ?_) (Nat.cast_nonneg _)
  obtain ⟨l, _, rfl⟩ := List.mem_map.1 hy
  exact add_nonneg (h0.trans (le_max_right _ _)) (sq_nonneg _)

/-- The mean of the squares, as computed. -/
theorem moment_rounded (hp : 1 ≤ p) (mv : Bin p) (leaves : List (Bin p × Bin p)) (h0 : 0 ≤ mv.1) (hne : leaves ≠ [])
    (hn : leaves.length ≤ 2 ^ p) :
    |((binArith p).div (leaves.foldl (fun s l => (binArith p).add s ((binArith p).add (if l.1 < mv then mv else l.1)
        ((binArith p).mul l.2 l.2))) ((binArith p).ofInt 0)) ((binArith p).ofInt leaves.length)).1 -
      secondMoment mv.1 (leafVals leaves)| ≤
    ((1 + 1 / 2 ^ p) ^ (leaves.length + 3) - 1) * secondMoment mv.1 (leafVals leaves) := by
  obtain ⟨u0, u1⟩ := unit_le_half hp
  have hq := secondMoment_nonneg h0 (leafVals leaves)
  set T : List (Bin p) := leaves.map fun l => (binArith p).add (if l.1 < mv then mv else l.1) ((binArith p).mul l.2 l.2)
    with hT
  have hfold : leaves.foldl (fun s l => (binArith p).add s ((binArith p).add (if l.1 < mv then mv else l.1)
        ((binArith p).mul l.2 l.2))) ((binArith p).ofInt 0) = T.foldl (binArith p).add ((binArith p).ofInt 0) := by
    rw [hT, List.foldl_map]
  rw [hfold]
  have hnn : ∀ x ∈ T, 0 ≤ x.1 := by
    intro x hx
    obtain ⟨l, _, rfl⟩ := List.mem_map.1 hx
    refine le_trans ?_ (leaf_term hp mv l h0).1
    exact mul_nonneg (sq_nonneg _) (add_nonneg (h0.trans (le_max_right _ _)) (sq_nonneg _))
  obtain ⟨f1, f2⟩ := bin_foldl_rel hp T ((binArith p).ofInt 0) (bin_zero p).ge hnn
  obtain ⟨g1, -⟩ := bin_foldl_ge hp T ((binArith p).ofInt 0) (bin_zero p).ge hnn
  rw [bin_zero] at g1
  rw [bin_zero, zero_add] at f1 f2
  have hlen : T.length = leaves.length := by rw [hT, List.length_map]
  rw [hlen] at f1 f2
  have hN : ((binArith p).ofInt (leaves.length : ℤ)).1 = (leaves.length : ℝ) := by
    rw [bin_ofInt hp (by rw [abs_of_nonneg (by positivity)]; exact_mod_cast hn)]; simp
  have hn0 : (0 : ℝ) < leaves.length := by exact_mod_cast List.length_pos_iff.2 hne
  have hsm : secondMoment mv.1 (leafVals leaves) * leaves.length =
      (leaves.map fun l => max l.1.1 mv.1 + l.2.1 ^ 2).sum := by
    unfold secondMoment meanOf leafVals
    rw [List.length_map, List.length_map, List.map_map, div_mul_cancel₀ _ hn0.ne']
    rfl
  have s1 : (1 - 1 / 2 ^ p) ^ 2 * (secondMoment mv.1 (leafVals leaves) * leaves.length) ≤ (T.map Subtype.val).sum := by
    rw [hsm, hT, List.map_map, ← List.sum_map_mul_left]
    exact sum_map_le_sum _ _ _ fun l _ => (leaf_term hp mv l h0).1
  have s2 : (T.map Subtype.val).sum ≤ (1 + 1 / 2 ^ p) ^ 2 * (secondMoment mv.1 (leafVals leaves) * leaves.length) := by
    rw [hsm, hT, List.map_map, ← List.sum_map_mul_left]
    exact sum_map_le_sum _ _ _ fun l _ => (leaf_term hp mv l h0).2
  have hd : ((binArith p).div (T.foldl (binArith p).add ((binArith p).ofInt 0)) ((binArith p).ofInt leaves.length)).1 =
      rnd p ((T.foldl (binArith p).add ((binArith p).ofInt 0)).1 / leaves.length) := by
    rw [← hN]; rfl
  rw [hd]
  obtain ⟨d1, d2⟩ := rnd_rel (p := p) (div_nonneg g1 hn0.le)
  have hpow := one_sub_pow_ge u0.le (by linarith) (leaves.length + 3)
  generalize rnd p ((T.foldl (binArith p).add ((binArith p).ofInt 0)).1 / leaves.length) = D at *
  generalize (T.foldl (binArith p).add ((binArith p).ofInt 0)).1 = S at *
  generalize secondMoment mv.1 (leafVals leaves) = q at *
  generalize (T.map Subtype.val).sum = B at *
  generalize leaves.length = n at *
  generalize (1 : ℝ) / 2 ^ p = w at *
  have a1 : 0 ≤ (1 - w) ^ n := pow_nonneg (by linarith) _
  have a2 : 0 ≤ (1 + w) ^ n := pow_nonneg (by linarith) _
  have lo : (1 - w) ^ (n + 3) * q ≤ D := by
    have e1 : (1 - w) ^ n * ((1 - w) ^ 2 * (q * n)) ≤ S := (mul_le_mul_of_nonneg_left s1 a1).trans f1
    have e2 : (1 - w) ^ n * (1 - w) ^ 2 * q ≤ S / n := by
      rw [le_div_iff₀ hn0]; linarith
    have e3 := (mul_le_mul_of_nonneg_left e2 (show 0 ≤ 1 - w by linarith)).trans d1
    calc _ = (1 - w) * ((1 - w) ^ n * (1 - w) ^ 2 * q) := by ring
      _ ≤ D := e3
  have hi : D ≤ (1 + w) ^ (n + 3) * q := by
    have e1 : S ≤ (1 + w) ^ n * ((1 + w) ^ 2 * (q * n)) := f2.trans (mul_le_mul_of_nonneg_left s2 a2)
    have e2 : S / n ≤ (1 + w) ^ n * (1 + w) ^ 2 * q := by
      rw [div_le_iff₀ hn0]; linarith
    have e3 := d2.trans (mul_le_mul_of_nonneg_left e2 (show 0 ≤ 1 + w by linarith))
    calc D ≤ (1 + w) * ((1 + w) ^ n * (1 + w) ^ 2 * q) := e3
      _ = _ := by ring
  rw [abs_le]
  constructor
  · nlinarith
  · nlinarith

/-- The error of the difference of two nearly known numbers, cut off at zero. -/
theorem cut_difference {w e q P S Q D : ℝ} (w0 : 0 ≤ w) (w1 : w ≤ 1) (hwe : w ≤ e) (hq : 0 ≤ q) (hP : 0 ≤ P)
    (hS : |S - q| ≤ e * q) (hQ : |Q - P| ≤ w * P) (hD : |D - (S - Q)| ≤ w * |S - Q|) :
    |max D 0 - max (q - P) 0| ≤ 3 * e * (q + P) := by
  refine (abs_max_sub_max_le_abs _ _ _).trans ?_
  have h1 : |(S - Q) - (q - P)| ≤ e * q + w * P := by
    have := abs_sub (S - q) (Q - P)
    rw [show S - q - (Q - P) = (S - Q) - (q - P) by ring] at this
    linarith
  have h2 : |S - Q| ≤ (q + P) + (e * q + w * P) := by
    have a := abs_add_le ((S - Q) - (q - P)) (q - P)
    rw [sub_add_cancel] at a
    have b := abs_sub q P
    rw [abs_of_nonneg hq, abs_of_nonneg hP] at b
    linarith
  have h3 : |D - (q - P)| ≤ |D - (S - Q)| + |(S - Q) - (q - P)| := by
    have := abs_add_le (D - (S - Q)) ((S - Q) - (q - P))
    rwa [show D - (S - Q) + ((S - Q) - (q - P)) = D - (q - P) by ring] at this
  have h4 : w * |S - Q| ≤ w * ((q + P) + (e * q + w * P)) := mul_le_mul_of_nonneg_left h2 w0
  have h5 : e * q + w * P ≤ e * (q + P) := by nlinarith
  have h6 : w * (e * q + w * P) ≤ e * (q + P) :=
    (mul_le_of_le_one_left (by nlinarith) w1).trans h5
  have h7 : w * (q + P) ≤ e * (q + P) := mul_le_mul_of_nonneg_right hwe (by linarith)
  calc |D - (q - P)| ≤ w * ((q + P) + (e * q + w * P)) + (e * q + w * P) := by linarith
    _ ≤ 3 * e * (q + P) := by linarith

/-- The prediction of the forest, as computed. -/
theorem mean_rounded (hp : 1 ≤ p) (ms : List (Bin p)) (hne : ms ≠ []) (hn : ms.length ≤ 2 ^ p) :
    |(forestMeanAt (binArith p) ms).1 - meanOf (ms.map Subtype.val)| ≤
      ((1 + 1 / 2 ^ p) ^ (ms.length + 1) - 1) * meanOf (ms.map fun m => |m.1|) := by
  obtain ⟨u0, u1⟩ := unit_le_half hp
  have h := bin_foldl_abs hp ms ((binArith p).ofInt 0)
  rw [bin_zero, abs_zero, zero_add, zero_add] at h
  have hN : ((binArith p).ofInt (ms.length : ℤ)).1 = (ms.length : ℝ) := by
    rw [bin_ofInt hp (by rw [abs_of_nonneg (by positivity)]; exact_mod_cast hn)]; simp
  have hn0 : (0 : ℝ) < ms.length := by exact_mod_cast List.length_pos_iff.2 hne
  have hd : (forestMeanAt (binArith p) ms).1 =
      rnd p ((ms.foldl (binArith p).add ((binArith p).ofInt 0)).1 / ms.length) := by
    rw [← hN]; rfl
  rw [hd]
  have he := rnd_err p ((ms.foldl (binArith p).add ((binArith p).ofInt 0)).1 / ms.length)
  have hμ : |(ms.map Subtype.val).sum| ≤ (ms.map fun m => |m.1|).sum := by
    clear hd he h hN hn0 hn hne
    induction ms with
    | nil => simp
    | cons m ms ih =>
      simp only [List.map_cons, List.sum_cons]
      exact (abs_add_le _ _).trans (by linarith)
  simp only [meanOf, List.length_map]
  have hK : 1 ≤ (1 + 1 / 2 ^ p : ℝ) ^ ms.length := one_le_pow₀ (by linarith)
  rw [pow_succ]
  generalize rnd p _ = R at *
  generalize (ms.foldl (binArith p).add ((binArith p).ofInt 0)).1 = S at *
  generalize (ms.map Subtype.val).sum = T at *
  generalize (ms.map fun m => |m.1|).sum = B at *
  generalize (1 + 1 / 2 ^ p : ℝ) ^ ms.length = K at *
  generalize (ms.length : ℝ) = n at *
  generalize (1 : ℝ) / 2 ^ p = w at *
  have e1 : |S / n - T / n| ≤ (K - 1) * (B / n) := by
    rw [← sub_div, abs_div, abs_of_pos hn0, ← mul_div_assoc]
    exact div_le_div_of_nonneg_right h hn0.le
  have e2 : |T / n| ≤ B / n := by
    rw [abs_div, abs_of_pos hn0]
    exact div_le_div_of_nonneg_right hμ hn0.le
  have e3 : |S / n| ≤ K * (B / n) := by
    have := abs_add_le (S / n - T / n) (T / n)
    rw [sub_add_cancel] at this
    linarith
  have e4 : |R - T / n| ≤ |R - S / n| + |S / n - T / n| := by
    have := abs_add_le (R - S / n) (S / n - T / n)
    rwa [sub_add_sub_cancel] at this
  have e5 := mul_le_mul_of_nonneg_left e3 u0.le
  nlinarith

/-- The square of the mean size is at most the second moment. -/
theorem sq_mean_abs_le {mv : ℝ} (h0 : 0 ≤ mv) (leaves : List (ℝ × ℝ)) (hne : leaves ≠ []) :
    meanOf (leaves.map fun l => |l.2|) ^ 2 ≤ secondMoment mv leaves := by
  have hn : (0 : ℝ) < leaves.length := by exact_mod_cast List.length_pos_iff.2 hne
  have h := sum_sq_dev (leaves.map fun l => |l.2|) (by simpa using hne)
  have h1 : 0 ≤ ((leaves.map fun l => |l.2|).map fun m =>
      (m - (leaves.map fun l => |l.2|).sum / (leaves.map fun l => |l.2|).length) ^ 2).sum :=
    List.sum_nonneg fun y hy => by obtain ⟨z, _, rfl⟩ := List.mem_map.1 hy; exact sq_nonneg _
  rw [h, List.map_map, List.length_map] at h1
  have h2 : (leaves.map ((fun m => m ^ 2) ∘ fun l : ℝ × ℝ => |l.2|)).sum ≤
      (leaves.map fun l => max l.1 mv + l.2 ^ 2).sum :=
    sum_map_le_sum _ _ _ fun l _ => by
      have := h0.trans (le_max_right l.1 mv)
      simp only [Function.comp, sq_abs]; linarith
  simp only [meanOf, secondMoment, List.length_map]
  rw [le_div_iff₀ hn]
  linarith

/-- The law of total variance, as computed. -/
theorem variance_rounded (hp : 1 ≤ p) (mv : Bin p) (leaves : List (Bin p × Bin p)) (h0 : 0 ≤ mv.1) (hne : leaves ≠ [])
    (hn : leaves.length ≤ 2 ^ p) (he : ((1 : ℝ) + 1 / 2 ^ p) ^ (leaves.length + 3) ≤ 2) :
    |(forestVarianceAt (binArith p) mv leaves (forestMeanAt (binArith p) (leaves.map Prod.snd))).1 -
        totalVariance mv.1 (leafVals leaves)| ≤
      18 * ((1 + 1 / 2 ^ p) ^ (leaves.length + 3) - 1) * secondMoment mv.1 (leafVals leaves) := by
  obtain ⟨u0, u1⟩ := unit_le_half hp
  have hne' : leafVals leaves ≠ [] := by simpa [leafVals] using hne
  have hS := moment_rounded hp mv leaves h0 hne hn
  have hM := mean_rounded hp (leaves.map Prod.snd) (by simpa using hne) (by simpa using hn)
  have hA := sq_mean_abs_le h0 (leafVals leaves) hne'
  have hq := secondMoment_nonneg h0 (leafVals leaves)
  rw [totalVariance_eq hne']
  have em : (leaves.map Prod.snd).map Subtype.val = (leafVals leaves).map Prod.snd := by simp [leafVals]
  have ea : ((leaves.map Prod.snd).map fun m => |m.1|) = (leafVals leaves).map fun l => |l.2| := by simp [leafVals]
  rw [em, ea, List.length_map] at hM
  have hμ : |meanOf ((leafVals leaves).map Prod.snd)| ≤ meanOf ((leafVals leaves).map fun l => |l.2|) := by
    unfold meanOf
    rw [abs_div, List.length_map, List.length_map, Nat.abs_cast]
    refine div_le_div_of_nonneg_right ?_ (Nat.cast_nonneg _)
    clear * -
    induction leafVals leaves with
    | nil => simp
    | cons m ms ih =>
      simp only [List.map_cons, List.sum_cons]
      exact (abs_add_le _ _).trans (by linarith)
  set P := forestMeanAt (binArith p) (leaves.map Prod.snd) with hP
  set S := (binArith p).div (leaves.foldl (fun s l => (binArith p).add s ((binArith p).add (if l.1 < mv then mv else l.1)
        ((binArith p).mul l.2 l.2))) ((binArith p).ofInt 0)) ((binArith p).ofInt leaves.length) with hSdef
  have hv : (forestVarianceAt (binArith p) mv leaves P).1 =
      max ((binArith p).sub S ((binArith p).mul P P)).1 0 := by
    rw [forestVarianceAt, ← hSdef]
    split
    · next h =>
      have h' : ((binArith p).sub S ((binArith p).mul P P)).1 < ((binArith p).ofInt 0).1 := h
      rw [bin_zero] at h' ⊢
      exact (max_eq_right h'.le).symm
    · next h =>
      have h' : ¬ ((binArith p).sub S ((binArith p).mul P P)).1 < ((binArith p).ofInt 0).1 := h
      rw [bin_zero] at h'
      exact (max_eq_left (not_lt.1 h')).symm
  have hQ : |((binArith p).mul P P).1 - P.1 ^ 2| ≤ 1 / 2 ^ p * P.1 ^ 2 := by
    have := rnd_err p (P.1 * P.1)
    rw [abs_mul_self] at this
    rw [pow_two]; exact this
  have hD : |((binArith p).sub S ((binArith p).mul P P)).1 - (S.1 - ((binArith p).mul P P).1)| ≤
      1 / 2 ^ p * |S.1 - ((binArith p).mul P P).1| := rnd_err p _
  rw [hv]
  have hpow1 : (1 + 1 / 2 ^ p : ℝ) ^ 1 ≤ (1 + 1 / 2 ^ p) ^ (leaves.length + 3) :=
    pow_le_pow_right₀ (by linarith) (by omega)
  have hpow2 : (1 + 1 / 2 ^ p : ℝ) ^ (leaves.length + 1) ≤ (1 + 1 / 2 ^ p) ^ (leaves.length + 3) :=
    pow_le_pow_right₀ (by linarith) (by omega)
  rw [pow_one] at hpow1
  have hcut := cut_difference u0.le (by linarith) (show 1 / 2 ^ p ≤ (1 + 1 / 2 ^ p : ℝ) ^ (leaves.length + 3) - 1 by linarith)
    hq (sq_nonneg P.1) hS hQ hD
  have ha0 := (abs_nonneg _).trans hμ
  generalize ((binArith p).sub S ((binArith p).mul P P)).1 = D at *
  have hM' : |P.1 - meanOf ((leafVals leaves).map Prod.snd)| ≤
      ((1 + 1 / 2 ^ p) ^ (leaves.length + 3) - 1) * meanOf ((leafVals leaves).map fun l => |l.2|) :=
    hM.trans (mul_le_mul_of_nonneg_right (by linarith) ha0)
  have hvar0 : 0 ≤ secondMoment mv.1 (leafVals leaves) - meanOf ((leafVals leaves).map Prod.snd) ^ 2 := by
    have := sq_le_sq' (by linarith [abs_le.1 hμ]) (abs_le.1 hμ).2
    linarith
  have he1 : 0 ≤ (1 + 1 / 2 ^ p : ℝ) ^ (leaves.length + 3) - 1 := by linarith
  have he2 : (1 + 1 / 2 ^ p : ℝ) ^ (leaves.length + 3) - 1 ≤ 1 := by linarith
  clear hM hpow1 hpow2 he hv hQ hD hS
  generalize (1 + 1 / 2 ^ p : ℝ) ^ (leaves.length + 3) - 1 = e at *
  generalize secondMoment mv.1 (leafVals leaves) = q at *
  generalize meanOf ((leafVals leaves).map Prod.snd) = μ at *
  generalize meanOf ((leafVals leaves).map fun l => |l.2|) = a at *
  generalize P.1 = x at *
  have hx : |x| ≤ 2 * a := by
    have := abs_add_le (x - μ) μ
    rw [sub_add_cancel] at this
    nlinarith
  have hx2 : x ^ 2 ≤ 4 * q := by
    have := sq_le_sq' (by linarith [abs_le.1 hx]) (abs_le.1 hx).2
    nlinarith
  have hxm : |x ^ 2 - μ ^ 2| ≤ 3 * e * q := by
    rw [show x ^ 2 - μ ^ 2 = (x - μ) * (x + μ) by ring, abs_mul]
    have h1 : |x + μ| ≤ 3 * a := (abs_add_le _ _).trans (by linarith)
    calc |x - μ| * |x + μ| ≤ (e * a) * (3 * a) := mul_le_mul hM' h1 (abs_nonneg _) (by positivity)
      _ = 3 * e * a ^ 2 := by ring
      _ ≤ 3 * e * q := mul_le_mul_of_nonneg_left hA (by positivity)
  have h3 : |max (q - x ^ 2) 0 - (q - μ ^ 2)| ≤ 3 * e * q := by
    have := abs_max_sub_max_le_abs (q - x ^ 2) (q - μ ^ 2) 0
    rw [max_eq_left hvar0, show q - x ^ 2 - (q - μ ^ 2) = -(x ^ 2 - μ ^ 2) by ring, abs_neg] at this
    exact this.trans hxm
  have h4 : |max D 0 - (q - μ ^ 2)| ≤ |max D 0 - max (q - x ^ 2) 0| + |max (q - x ^ 2) 0 - (q - μ ^ 2)| := by
    have := abs_add_le (max D 0 - max (q - x ^ 2) 0) (max (q - x ^ 2) 0 - (q - μ ^ 2))
    rwa [sub_add_sub_cancel] at this
  have h5 : 3 * e * (q + x ^ 2) ≤ 3 * e * (5 * q) := mul_le_mul_of_nonneg_left (by linarith) (by positivity)
  calc _ ≤ 3 * e * (5 * q) + 3 * e * q := by linarith
    _ = _ := by ring

/-- `n` roundings change a number by a factor of at most `1 + 2 n / 2 ^ p`. -/
theorem pow_le_two_mul {u : ℝ} (h0 : 0 ≤ u) (h1 : u ≤ 1) {n : ℕ} (h : n * u ≤ 1 / 2) : (1 + u) ^ n ≤ 1 + 2 * (n * u) := by
  have a := one_add_mul_le_pow (a := -u) (by linarith) n
  have b : (1 + u) ^ n * (1 + -u) ^ n ≤ 1 := by
    rw [← mul_pow]
    exact pow_le_one₀ (by nlinarith) (by nlinarith)
  have c : 0 ≤ (1 + u) ^ n := pow_nonneg (by linarith) _
  have d : (1 + u) ^ n * (1 - n * u) ≤ 1 :=
    (mul_le_mul_of_nonneg_left (by linarith) c).trans b
  nlinarith [mul_nonneg (show 0 ≤ (n : ℝ) * u by positivity) (show 0 ≤ 1 - 2 * (n * u) by linarith)]

/-- Doubles between `2 ** 60` and `2 ** 61` are 256 apart. -/
theorem rnd_coarse {x : ℝ} (k : ℤ) (h1 : 2 ^ 60 ≤ x) (h2 : x < 2 ^ 61) (h3 : k * 2 ^ 8 ≤ x) (h4 : x < k * 2 ^ 8 + 2 ^ 7) :
    rnd 53 x = k * 2 ^ 8 := by
  have h0 : 0 < x := lt_of_lt_of_le (by positivity) h1
  have hl : Int.log 2 |x| = 60 := by
    rw [abs_of_pos h0]
    refine le_antisymm ?_ ?_
    · have : Int.log 2 x < 61 := by
        rw [← Int.lt_zpow_iff_log_lt (b := 2) (by norm_num) h0]
        exact_mod_cast h2
      omega
    · rw [← Int.zpow_le_iff_le_log (b := 2) (by norm_num) h0]
      exact_mod_cast h1
  have hu : ulp 53 x = 2 ^ 8 := by
    unfold ulp
    rw [hl]
    norm_num
  have hfl : ⌊x / 2 ^ 8⌋ = k := by
    rw [Int.floor_eq_iff, le_div_iff₀ (by positivity), div_lt_iff₀ (by positivity)]
    exact ⟨h3, by linarith⟩
  have hfr : Int.fract (x / 2 ^ 8) < 1 / 2 := by
    rw [← Int.self_sub_floor, hfl, sub_lt_iff_lt_add, div_lt_iff₀ (by positivity)]
    linarith
  unfold rnd
  rw [hu]
  unfold roundHalfEven
  rw [hfl, if_pos hfr]

/-! ## Properties -/

/-- **C149, no square root of a negative number.** Whatever the arithmetic rounds, the number whose square root is the reported
standard deviation is not negative, so no standard deviation is NaN. -/
theorem C149_never_negative {F : Type} [LinearOrder F] (A : Arith F) (minVariance : F) (leaves : List (F × F)) (pred : F) :
    A.ofInt 0 ≤ forestVarianceAt A minVariance leaves pred := by
  unfold forestVarianceAt
  dsimp only
  split
  · exact le_rfl
  · next h => exact not_lt.1 h

/-- Trees predicting 1 and 3, a prediction of 5: the difference would be -20. -/
example : forestVarianceAt exact 0 [(0, 1), (0, 3)] 5 = 0 := by
  norm_num [forestVarianceAt, exact]

/-- **C149, link to C58.** In exact arithmetic the two functions are, row by row, what `predict(X, return_std=True)` returns
(before the root). -/
theorem C149_exact (f : Forest) (X : List (List ℝ)) (hc : f.criterion = "mse") (hne : f.trees ≠ []) (hX : LeavesExist f X) :
    ∃ mean std, f.predictStd X = .ok (mean, std) ∧ mean.length = X.length ∧ std.length = X.length ∧
      ∀ (i : ℕ) (x : List ℝ), X[i]? = some x →
        mean[i]? = some (forestMeanAt exact (f.trees.map fun t => t.predict x)) ∧
        std[i]? = some (√(forestVarianceAt exact f.minVariance
          (f.trees.map fun t => (t.impurity[t.apply x]?.getD 0, t.predict x))
          (forestMeanAt exact (f.trees.map fun t => t.predict x)))) := by
  refine ⟨_, _, predictStd_ok hc hne hX, by simp, by simp, fun i x hx => ?_⟩
  have hsum : ∀ (l : List ℝ) (a : ℝ), l.foldl exact.add a = a + l.sum := by
    intro l
    induction l with
    | nil => intro a; simp
    | cons y l ih => intro a; rw [List.foldl_cons, ih]; simp [exact, add_assoc]
  have hmean : forestMeanAt exact (f.trees.map fun t => t.predict x) =
      (f.trees.map fun t => t.predict x).sum / f.trees.length := by
    unfold forestMeanAt
    rw [hsum]
    simp [exact]
  have hvar : forestVarianceAt exact f.minVariance (f.trees.map fun t => (t.impurity[t.apply x]?.getD 0, t.predict x))
      ((f.trees.map fun t => t.predict x).sum / f.trees.length) = max 0 (forestVar f x) := by
    unfold forestVarianceAt
    rw [List.foldl_map]
    have hterm : (fun (s : ℝ) (t : RegTree) => exact.add s (exact.add
          (if (t.impurity[t.apply x]?.getD 0, t.predict x).1 < f.minVariance then f.minVariance
            else (t.impurity[t.apply x]?.getD 0, t.predict x).1)
          (exact.mul (t.impurity[t.apply x]?.getD 0, t.predict x).2 (t.impurity[t.apply x]?.getD 0, t.predict x).2))) =
        fun s t => exact.add s (floorVar f.minVariance t x + t.predict x ^ 2) := by
      funext s t
      have : (if (t.impurity[t.apply x]?.getD 0) < f.minVariance then f.minVariance else t.impurity[t.apply x]?.getD 0) =
          floorVar f.minVariance t x := by
        unfold floorVar
        split
        · next h => exact (max_eq_right h.le).symm
        · next h => exact (max_eq_left (not_lt.1 h)).symm
      simp only [this, exact]
      ring
    rw [hterm]
    have hfold := hsum (f.trees.map fun t => floorVar f.minVariance t x + t.predict x ^ 2) (exact.ofInt 0)
    rw [List.foldl_map] at hfold
    rw [hfold]
    have h0 : exact.ofInt 0 = 0 := by simp [exact]
    have hv : exact.sub (exact.div (exact.ofInt 0 +
          (f.trees.map fun t => floorVar f.minVariance t x + t.predict x ^ 2).sum)
          (exact.ofInt (f.trees.map fun t => (t.impurity[t.apply x]?.getD 0, t.predict x)).length))
        (exact.mul ((f.trees.map fun t => t.predict x).sum / f.trees.length)
          ((f.trees.map fun t => t.predict x).sum / f.trees.length)) = forestVar f x := by
      rw [h0]
      simp only [exact, forestVar, List.length_map, zero_add, pow_two]
      simp
    dsimp only
    rw [hv, h0]
    split
    · next h => exact (max_eq_left h.le).symm
    · next h => exact (max_eq_right (not_lt.1 h)).symm
  rw [hmean]
  simp [hx, hvar]

example : ∃ f : Forest, ∃ X : List (List ℝ), f.criterion = "mse" ∧ f.trees ≠ [] ∧ LeavesExist f X ∧ X ≠ [] :=
  ⟨twoStumps, [[-1], [2]], rfl, by simp [twoStumps], twoStumps_leaves, by simp⟩

/-- **C149, the prediction.** The prediction of a forest in floating-point arithmetic is the mean of the predictions of its trees,
up to one rounding per tree and one more, relative to the mean size of the predictions. -/
theorem C149_prediction (hp : 1 ≤ p) (ms : List (Bin p)) (hne : ms ≠ []) (hn : 2 * (ms.length + 1) ≤ 2 ^ p) :
    |(forestMeanAt (binArith p) ms).1 - meanOf (ms.map Subtype.val)| ≤
      2 * (ms.length + 1) / 2 ^ p * meanOf (ms.map fun m => |m.1|) := by
  obtain ⟨u0, u1⟩ := unit_le_half hp
  refine (mean_rounded hp ms hne (by omega)).trans (mul_le_mul_of_nonneg_right ?_ ?_)
  · have h2 : ((ms.length + 1 : ℕ) : ℝ) * (1 / 2 ^ p) ≤ 1 / 2 := by
      rw [mul_one_div, div_le_div_iff₀ (by positivity) (by norm_num)]
      have : ((2 * (ms.length + 1) : ℕ) : ℝ) ≤ ((2 ^ p : ℕ) : ℝ) := by exact_mod_cast hn
      push_cast at this ⊢
      linarith
    have := pow_le_two_mul u0.le (by linarith) h2
    push_cast at this
    calc _ ≤ 2 * (((ms.length : ℝ) + 1) * (1 / 2 ^ p)) := by linarith
      _ = _ := by ring
  · refine div_nonneg (List.sum_nonneg fun y hy => ?_) (Nat.cast_nonneg _)
    obtain ⟨z, _, rfl⟩ := List.mem_map.1 hy
    exact abs_nonneg _

/-- A hundred trees. -/
example : ∃ ms : List (Bin 53), ms ≠ [] ∧ 2 * (ms.length + 1) ≤ 2 ^ 53 ∧ ms.length = 100 :=
  ⟨List.replicate 50 ((binArith 53).ofInt 1) ++ List.replicate 50 ((binArith 53).ofInt 2), by simp, by simp, by simp⟩

/-- **C149, the variance (partial).** In floating-point arithmetic the square of the reported standard deviation (before the root)
differs from the law of total variance by at most `36 (n + 3) / 2 ^ p` times the second moment, `n` being the number of trees: for
a hundred trees and doubles less than `10 ** -12` times the second moment.

Missing: an error relative to the variance itself.  That is false: see `C149_refuted_disagreement` and `C149_refuted_floor`. -/
theorem C149_variance_partial (hp : 1 ≤ p) (minVariance : Bin p) (leaves : List (Bin p × Bin p)) (h0 : 0 ≤ minVariance.1)
    (hne : leaves ≠ []) (hn : 2 * (leaves.length + 3) ≤ 2 ^ p) :
    |(forestVarianceAt (binArith p) minVariance leaves (forestMeanAt (binArith p) (leaves.map Prod.snd))).1 -
        totalVariance minVariance.1 (leaves.map fun l => (l.1.1, l.2.1))| ≤
      36 * (leaves.length + 3) / 2 ^ p * secondMoment minVariance.1 (leaves.map fun l => (l.1.1, l.2.1)) := by
  obtain ⟨u0, u1⟩ := unit_le_half hp
  have h2 : ((leaves.length + 3 : ℕ) : ℝ) * (1 / 2 ^ p) ≤ 1 / 2 := by
    rw [mul_one_div, div_le_div_iff₀ (by positivity) (by norm_num)]
    have : ((2 * (leaves.length + 3) : ℕ) : ℝ) ≤ ((2 ^ p : ℕ) : ℝ) := by exact_mod_cast hn
    push_cast at this ⊢
    linarith
  have h3 := pow_le_two_mul u0.le (by linarith) h2
  refine (variance_rounded hp minVariance leaves h0 hne (by omega) (by linarith)).trans
    (mul_le_mul_of_nonneg_right ?_ (secondMoment_nonneg h0 _))
  push_cast at h3
  calc _ ≤ 18 * (2 * (((leaves.length : ℝ) + 3) * (1 / 2 ^ p))) := by linarith
    _ = _ := by ring

/-- Two trees with leaves of variance 1 predicting 3 and 5, `min_variance` 0. -/
example : ∃ leaves : List (Bin 53 × Bin 53), leaves ≠ [] ∧ 2 * (leaves.length + 3) ≤ 2 ^ 53 ∧
    0 ≤ ((binArith 53).ofInt 0).1 ∧ totalVariance ((binArith 53).ofInt 0).1 (leaves.map fun l => (l.1.1, l.2.1)) = 2 := by
  refine ⟨[((binArith 53).ofInt 1, (binArith 53).ofInt 3), ((binArith 53).ofInt 1, (binArith 53).ofInt 5)], by simp,
    by norm_num, (bin_zero 53).ge, ?_⟩
  have h1 : ((binArith 53).ofInt 1).1 = 1 := by rw [bin_ofInt (by norm_num) (by norm_num)]; norm_num
  have h3 : ((binArith 53).ofInt 3).1 = 3 := by rw [bin_ofInt (by norm_num) (by norm_num)]; norm_num
  have h5 : ((binArith 53).ofInt 5).1 = 5 := by rw [bin_ofInt (by norm_num) (by norm_num)]; norm_num
  simp only [totalVariance, meanOf, List.map_cons, List.map_nil, List.length_cons, List.length_nil, List.sum_cons, List.sum_nil,
    bin_zero, h1, h3, h5]
  norm_num

/-- **C149, the standard deviation (partial).** The reported standard deviation, a rounded square root, differs from the standard
deviation of the mixture of the trees by at most the root of the error of the variance and a rounding: for a hundred trees and
doubles by less than two millionths of the root mean square of the predictions.

Missing: an error relative to the standard deviation itself, see `C149_refuted_disagreement` and `C149_refuted_floor`. -/
theorem C149_std_partial (hp : 1 ≤ p) (minVariance : Bin p) (leaves : List (Bin p × Bin p)) (h0 : 0 ≤ minVariance.1)
    (hne : leaves ≠ []) (hn : 2 * (leaves.length + 3) ≤ 2 ^ p) :
    |rnd p (√(forestVarianceAt (binArith p) minVariance leaves (forestMeanAt (binArith p) (leaves.map Prod.snd))).1) -
        √(totalVariance minVariance.1 (leaves.map fun l => (l.1.1, l.2.1)))| ≤
      2 * √(36 * (leaves.length + 3) / 2 ^ p * secondMoment minVariance.1 (leaves.map fun l => (l.1.1, l.2.1))) +
        1 / 2 ^ p * √(totalVariance minVariance.1 (leaves.map fun l => (l.1.1, l.2.1))) := by
  obtain ⟨u0, u1⟩ := unit_le_half hp
  have h := C149_variance_partial hp minVariance leaves h0 hne hn
  have hr := rnd_err p (√(forestVarianceAt (binArith p) minVariance leaves
    (forestMeanAt (binArith p) (leaves.map Prod.snd))).1)
  generalize (forestVarianceAt (binArith p) minVariance leaves (forestMeanAt (binArith p) (leaves.map Prod.snd))).1 = v at *
  generalize totalVariance minVariance.1 (leaves.map fun l => (l.1.1, l.2.1)) = t at *
  have step : ∀ a b : ℝ, √a ≤ √b + √|a - b| := by
    intro a b
    rcases le_or_gt a b with hab | hab
    · exact (Real.sqrt_le_sqrt hab).trans (le_add_of_nonneg_right (Real.sqrt_nonneg _))
    · rcases le_or_gt b 0 with hb | hb
      · refine (Real.sqrt_le_sqrt ?_).trans (le_add_of_nonneg_left (Real.sqrt_nonneg _))
        exact (show a ≤ a - b by linarith).trans (le_abs_self _)
      · refine Real.sqrt_le_iff.2 ⟨by positivity, ?_⟩
        have h1 := Real.sq_sqrt hb.le
        have h2 := Real.sq_sqrt (abs_nonneg (a - b))
        have h3 := le_abs_self (a - b)
        nlinarith [mul_nonneg (Real.sqrt_nonneg b) (Real.sqrt_nonneg |a - b|)]
  have hd : √|v - t| ≤ √(36 * (leaves.length + 3) / 2 ^ p * secondMoment minVariance.1
    (leaves.map fun l => (l.1.1, l.2.1))) := Real.sqrt_le_sqrt h
  have h1 := step v t
  have h2 := step t v
  rw [abs_sub_comm] at h2
  rw [abs_of_nonneg (Real.sqrt_nonneg _)] at hr
  generalize √(36 * (leaves.length + 3) / 2 ^ p * secondMoment minVariance.1 (leaves.map fun l => (l.1.1, l.2.1))) = δ at *
  have hv : |√v - √t| ≤ √|v - t| := abs_le.2 ⟨by linarith, by linarith⟩
  have h3 := abs_add_le (rnd p √v - √v) (√v - √t)
  rw [sub_add_sub_cancel] at h3
  have hδ : 0 ≤ δ := (Real.sqrt_nonneg _).trans hd
  nlinarith [Real.sqrt_nonneg v, Real.sqrt_nonneg t]

/-- One tree. -/
example : ∃ (minVariance : Bin 53) (leaves : List (Bin 53 × Bin 53)), 0 ≤ minVariance.1 ∧ leaves ≠ [] ∧
    2 * (leaves.length + 3) ≤ 2 ^ 53 :=
  ⟨(binArith 53).ofInt 0, [((binArith 53).ofInt 1, (binArith 53).ofInt 3)], (bin_zero 53).ge, by simp, by norm_num⟩

/-- **C149 is false of `min_variance`.** One tree predicting `2 ** 30` and `min_variance = 1` in doubles: the reported standard
deviation is 0, although every smaller variance of a leaf is replaced by `min_variance` and so, in exact arithmetic, the reported standard deviation is
at least 1 (C58):
`1 + 2 ** 60` is rounded to `2 ** 60`. -/
theorem C149_refuted_floor : ∃ (minVariance : Bin 53) (leaves : List (Bin 53 × Bin 53)),
    minVariance.1 = 1 ∧ leaves.map (fun l => (l.1.1, l.2.1)) = [(0, 2 ^ 30)] ∧
    totalVariance minVariance.1 (leaves.map fun l => (l.1.1, l.2.1)) = 1 ∧
    (forestVarianceAt (binArith 53) minVariance leaves (forestMeanAt (binArith 53) (leaves.map Prod.snd))).1 = 0 := by
  have h30 : ((binArith 53).ofInt (2 ^ 30)).1 = 2 ^ 30 := by
    rw [bin_ofInt (by norm_num) (by norm_num)]; norm_num
  have h1 : ((binArith 53).ofInt 1).1 = 1 := by rw [bin_ofInt (by norm_num) (by norm_num)]; norm_num
  refine ⟨(binArith 53).ofInt 1, [((binArith 53).ofInt 0, (binArith 53).ofInt (2 ^ 30))], h1, ?_, ?_, ?_⟩
  · simp only [List.map_cons, List.map_nil, bin_zero, h30]
  · simp only [totalVariance, meanOf, List.map_cons, List.map_nil, List.length_cons, List.length_nil, List.sum_cons,
      List.sum_nil, bin_zero, h1, h30]
    norm_num
  · have e30 : IsBinary 53 ((2 : ℝ) ^ 30) := ⟨1, 30, by norm_num, by norm_num⟩
    have e60 : IsBinary 53 ((2 : ℝ) ^ 60) := ⟨1, 60, by norm_num, by norm_num⟩
    have rp : (1 : ℕ) ≤ 53 := by norm_num
    have hP : forestMeanAt (binArith 53) [(binArith 53).ofInt (2 ^ 30)] = ⟨2 ^ 30, e30⟩ := by
      apply Subtype.ext
      show rnd 53 (rnd 53 (((binArith 53).ofInt 0).1 + ((binArith 53).ofInt (2 ^ 30)).1) / ((binArith 53).ofInt 1).1) = 2 ^ 30
      rw [bin_zero, h30, h1, zero_add, rnd_of_isBinary rp e30, div_one, rnd_of_isBinary rp e30]
    have hlt : ((binArith 53).ofInt 0) < ((binArith 53).ofInt 1) := by
      show ((binArith 53).ofInt 0).1 < ((binArith 53).ofInt 1).1
      rw [bin_zero, h1]; norm_num
    have hS : (binArith 53).div ((binArith 53).add ((binArith 53).ofInt 0) ((binArith 53).add ((binArith 53).ofInt 1)
        ((binArith 53).mul ((binArith 53).ofInt (2 ^ 30)) ((binArith 53).ofInt (2 ^ 30))))) ((binArith 53).ofInt 1) =
        ⟨2 ^ 60, e60⟩ := by
      apply Subtype.ext
      show rnd 53 (rnd 53 (((binArith 53).ofInt 0).1 + rnd 53 (((binArith 53).ofInt 1).1 +
        rnd 53 (((binArith 53).ofInt (2 ^ 30)).1 * ((binArith 53).ofInt (2 ^ 30)).1))) / ((binArith 53).ofInt 1).1) = 2 ^ 60
      rw [bin_zero, h30, h1, show ((2 : ℝ) ^ 30 * 2 ^ 30) = 2 ^ 60 by norm_num, rnd_of_isBinary rp e60,
        rnd_coarse (x := 1 + (2 : ℝ) ^ 60) (2 ^ 52) (by norm_num) (by norm_num) (by norm_num) (by norm_num),
        show ((2 ^ 52 : ℤ) : ℝ) * 2 ^ 8 = 2 ^ 60 by norm_num, zero_add, rnd_of_isBinary rp e60, div_one,
        rnd_of_isBinary rp e60]
    have hsub : (binArith 53).sub ⟨2 ^ 60, e60⟩ ((binArith 53).mul ⟨2 ^ 30, e30⟩ ⟨2 ^ 30, e30⟩) = (binArith 53).ofInt 0 := by
      apply Subtype.ext
      rw [bin_zero]
      show rnd 53 (2 ^ 60 - rnd 53 ((2 : ℝ) ^ 30 * 2 ^ 30)) = 0
      rw [show ((2 : ℝ) ^ 30 * 2 ^ 30) = 2 ^ 60 by norm_num, rnd_of_isBinary rp e60, sub_self, rnd_zero]
    rw [List.map_cons, List.map_nil, hP]
    unfold forestVarianceAt
    simp only [List.foldl_cons, List.foldl_nil, if_pos hlt, List.length_cons, List.length_nil]
    have hone : ((0 + 1 : ℕ) : ℤ) = 1 := by norm_num
    rw [hone, hS, hsub, if_neg (lt_irrefl _), bin_zero]

/-- **C149 is false of disagreeing trees.** Two trees with pure leaves predicting `2 ** 30` and `2 ** 30 + 1` in doubles: the
variance of a forest of the two is 1/4, but the reported standard deviation is 0, so the acquisition functions take the point for
perfectly known. -/
theorem C149_refuted_disagreement : ∃ (minVariance : Bin 53) (leaves : List (Bin 53 × Bin 53)),
    minVariance.1 = 0 ∧ leaves.map (fun l => (l.1.1, l.2.1)) = [(0, 2 ^ 30), (0, 2 ^ 30 + 1)] ∧
    totalVariance minVariance.1 (leaves.map fun l => (l.1.1, l.2.1)) = 1 / 4 ∧
    (forestVarianceAt (binArith 53) minVariance leaves (forestMeanAt (binArith 53) (leaves.map Prod.snd))).1 = 0 := by
  have h30 : ((binArith 53).ofInt (2 ^ 30)).1 = 2 ^ 30 := by
    rw [bin_ofInt (by norm_num) (by norm_num)]; norm_num
  have h31 : ((binArith 53).ofInt (2 ^ 30 + 1)).1 = 2 ^ 30 + 1 := by
    rw [bin_ofInt (by norm_num) (by norm_num)]; norm_num
  have h2 : ((binArith 53).ofInt 2).1 = 2 := by rw [bin_ofInt (by norm_num) (by norm_num)]; norm_num
  refine ⟨(binArith 53).ofInt 0, [((binArith 53).ofInt 0, (binArith 53).ofInt (2 ^ 30)),
    ((binArith 53).ofInt 0, (binArith 53).ofInt (2 ^ 30 + 1))], bin_zero 53, ?_, ?_, ?_⟩
  · simp only [List.map_cons, List.map_nil, bin_zero, h30, h31]
  · simp only [totalVariance, meanOf, List.map_cons, List.map_nil, List.length_cons, List.length_nil, List.sum_cons,
      List.sum_nil, bin_zero, h30, h31]
    norm_num
  · have rp : (1 : ℕ) ≤ 53 := by norm_num
    have e30 : IsBinary 53 ((2 : ℝ) ^ 30) := ⟨1, 30, by norm_num, by norm_num⟩
    have e60 : IsBinary 53 ((2 : ℝ) ^ 60) := ⟨1, 60, by norm_num, by norm_num⟩
    have eA : IsBinary 53 ((2 : ℝ) ^ 60 + 2 ^ 31) := ⟨2 ^ 29 + 1, 31, by norm_num, by norm_num⟩
    have eB : IsBinary 53 ((2 : ℝ) ^ 60 + 2 ^ 30) := ⟨2 ^ 30 + 1, 30, by norm_num, by norm_num⟩
    have eC : IsBinary 53 ((2 : ℝ) ^ 61 + 2 ^ 31) := ⟨2 ^ 30 + 1, 31, by norm_num, by norm_num⟩
    have eD : IsBinary 53 ((2 : ℝ) ^ 31 + 1) := ⟨2 ^ 31 + 1, 0, by norm_num, by norm_num⟩
    have eM : IsBinary 53 ((2 : ℝ) ^ 30 + 1 / 2) := ⟨2 ^ 31 + 1, -1, by norm_num, by norm_num⟩
    have hP : forestMeanAt (binArith 53) [(binArith 53).ofInt (2 ^ 30), (binArith 53).ofInt (2 ^ 30 + 1)] =
        ⟨2 ^ 30 + 1 / 2, eM⟩ := by
      apply Subtype.ext
      show rnd 53 (rnd 53 (rnd 53 (((binArith 53).ofInt 0).1 + ((binArith 53).ofInt (2 ^ 30)).1) +
        ((binArith 53).ofInt (2 ^ 30 + 1)).1) / ((binArith 53).ofInt 2).1) = 2 ^ 30 + 1 / 2
      rw [bin_zero, h30, h31, h2, zero_add, rnd_of_isBinary rp e30,
        show (2 : ℝ) ^ 30 + (2 ^ 30 + 1) = 2 ^ 31 + 1 by norm_num, rnd_of_isBinary rp eD,
        show ((2 : ℝ) ^ 31 + 1) / 2 = 2 ^ 30 + 1 / 2 by norm_num, rnd_of_isBinary rp eM]
    have hS : (binArith 53).div ((binArith 53).add ((binArith 53).add ((binArith 53).ofInt 0) ((binArith 53).add
        ((binArith 53).ofInt 0) ((binArith 53).mul ((binArith 53).ofInt (2 ^ 30)) ((binArith 53).ofInt (2 ^ 30)))))
        ((binArith 53).add ((binArith 53).ofInt 0) ((binArith 53).mul ((binArith 53).ofInt (2 ^ 30 + 1))
          ((binArith 53).ofInt (2 ^ 30 + 1))))) ((binArith 53).ofInt 2) = ⟨2 ^ 60 + 2 ^ 30, eB⟩ := by
      apply Subtype.ext
      show rnd 53 (rnd 53 (rnd 53 (((binArith 53).ofInt 0).1 + rnd 53 (((binArith 53).ofInt 0).1 +
        rnd 53 (((binArith 53).ofInt (2 ^ 30)).1 * ((binArith 53).ofInt (2 ^ 30)).1))) +
        rnd 53 (((binArith 53).ofInt 0).1 +
        rnd 53 (((binArith 53).ofInt (2 ^ 30 + 1)).1 * ((binArith 53).ofInt (2 ^ 30 + 1)).1))) / ((binArith 53).ofInt 2).1) =
          2 ^ 60 + 2 ^ 30
      rw [bin_zero, h30, h31, h2, show ((2 : ℝ) ^ 30 * 2 ^ 30) = 2 ^ 60 by norm_num, rnd_of_isBinary rp e60,
        rnd_coarse (x := ((2 : ℝ) ^ 30 + 1) * (2 ^ 30 + 1)) (2 ^ 52 + 2 ^ 23) (by norm_num) (by norm_num) (by norm_num)
          (by norm_num),
        show ((2 ^ 52 + 2 ^ 23 : ℤ) : ℝ) * 2 ^ 8 = 2 ^ 60 + 2 ^ 31 by norm_num]
      simp only [zero_add]
      rw [rnd_of_isBinary rp e60, rnd_of_isBinary rp e60, rnd_of_isBinary rp eA,
        show (2 : ℝ) ^ 60 + (2 ^ 60 + 2 ^ 31) = 2 ^ 61 + 2 ^ 31 by norm_num, rnd_of_isBinary rp eC,
        show ((2 : ℝ) ^ 61 + 2 ^ 31) / 2 = 2 ^ 60 + 2 ^ 30 by norm_num, rnd_of_isBinary rp eB]
    have hsub : (binArith 53).sub ⟨2 ^ 60 + 2 ^ 30, eB⟩ ((binArith 53).mul ⟨2 ^ 30 + 1 / 2, eM⟩ ⟨2 ^ 30 + 1 / 2, eM⟩) =
        (binArith 53).ofInt 0 := by
      apply Subtype.ext
      rw [bin_zero]
      show rnd 53 (2 ^ 60 + 2 ^ 30 - rnd 53 (((2 : ℝ) ^ 30 + 1 / 2) * (2 ^ 30 + 1 / 2))) = 0
      rw [rnd_coarse (x := ((2 : ℝ) ^ 30 + 1 / 2) * (2 ^ 30 + 1 / 2)) (2 ^ 52 + 2 ^ 22) (by norm_num) (by norm_num)
          (by norm_num) (by norm_num),
        show ((2 ^ 52 + 2 ^ 22 : ℤ) : ℝ) * 2 ^ 8 = 2 ^ 60 + 2 ^ 30 by norm_num, sub_self, rnd_zero]
    rw [List.map_cons, List.map_cons, List.map_nil, hP]
    unfold forestVarianceAt
    simp only [List.foldl_cons, List.foldl_nil, lt_irrefl, if_false, List.length_cons, List.length_nil]
    have htwo : ((0 + 1 + 1 : ℕ) : ℤ) = 2 := by norm_num
    rw [htwo, hS, hsub, if_neg (lt_irrefl _), bin_zero]

end Skopt

import Verif.Props.Sobol
import Verif.Props.Rounding
import Verif.Lemmas.Halton
import Verif.Lemmas.UnitCube
import Verif.Props.SearchRate

/-!
# C144: what rounding does to the low-discrepancy designs
-/

namespace Skopt

theorem rnd_nonneg {p : ℕ} (hp : 1 ≤ p) {x : ℝ} (hx : 0 ≤ x) : 0 ≤ rnd p x := by
  have := rnd_mono hp hx
  rwa [rnd_zero] at this

/-- One step of the loop: the error of the quotient is relative to it, the error of the sum is at most two units. -/
theorem vdcLoop_rounding {p b : ℕ} (hp : 1 ≤ p) (hb : 1 < b) (i B : ℕ) (base out : Bin p)
    (hbase : base.1 = B) (hbB : b ≤ B) (hB : B * i ≤ 2 ^ p) (h0 : 0 ≤ out.1)
    (h2 : out.1 + radicalInverse b i * (b / B) +
      (2 * ((Nat.digits b i).length : ℝ) + radicalInverse b i * (b / B)) * (1 / 2 ^ p) ≤ 2) :
    |(vdcLoop (binArith p) b (i : ℤ) base out).1 - (out.1 + radicalInverse b i * (b / B))| ≤
      (2 * ((Nat.digits b i).length : ℝ) + radicalInverse b i * (b / B)) * (1 / 2 ^ p) := by
  induction i using Nat.strong_induction_on generalizing B base out with
  | _ i ih =>
  have hb0 : (0 : ℝ) < b := by exact_mod_cast (by omega : 0 < b)
  have hB0 : (0 : ℝ) < B := by exact_mod_cast (by omega : 0 < B)
  have hu : (0 : ℝ) < 1 / 2 ^ p := by positivity
  set u : ℝ := 1 / 2 ^ p with hud
  rw [vdcLoop]
  have hdiv : (i : ℤ) / (b : ℤ) = ((i / b : Nat) : ℤ) := by simp
  have hmod : (i : ℤ) % (b : ℤ) = ((i % b : Nat) : ℤ) := by simp
  rw [hdiv, hmod]
  rcases Nat.eq_zero_or_pos i with rfl | hi
  · have e : ((binArith p).add out ((binArith p).div ((binArith p).ofInt (((0 : ℕ) % b : ℕ) : ℤ)) base)).1 = out.1 := by
      show rnd p (out.1 + rnd p (rnd p (((0 % b : ℕ) : ℤ) : ℝ) / base.1)) = out.1
      rw [Nat.zero_mod]
      simp only [Nat.cast_zero, Int.cast_zero, rnd_zero, zero_div, add_zero]
      exact rnd_of_isBinary hp out.2
    rw [dif_neg (by simp)]
    simp only [radicalInverse_zero, zero_mul, add_zero, Nat.digits_zero, List.length_nil, Nat.cast_zero,
      mul_zero, zero_mul]
    rw [e]; simp
  · have hBi : B ≤ 2 ^ p := le_trans (Nat.le_mul_of_pos_right B hi) hB
    have hd : (((binArith p).ofInt ((i % b : ℕ) : ℤ)).1 : ℝ) = ((i % b : ℕ) : ℝ) := by
      rw [bin_ofInt hp]
      · exact Int.cast_natCast _
      · rw [abs_of_nonneg (by positivity)]
        have := Nat.mod_lt i (by omega : 0 < b)
        exact_mod_cast (by omega : i % b ≤ 2 ^ p)
    have hlen : ((Nat.digits b i).length : ℝ) = (Nat.digits b (i / b)).length + 1 := by
      rw [Nat.digits_def' hb hi]; simp
    set t : ℝ := ((i % b : ℕ) : ℝ) / B with ht
    have ht0 : 0 ≤ t := by positivity
    have hr : radicalInverse b i * (b / B) = t + radicalInverse b (i / b) * (b / ((B * b : ℕ) : ℝ)) := by
      rw [radicalInverse_step hb i, ht]; push_cast; field_simp
    have hr0 : 0 ≤ radicalInverse b (i / b) * (b / ((B * b : ℕ) : ℝ)) :=
      mul_nonneg (radicalInverse_range hb _).1 (by positivity)
    set r : ℝ := radicalInverse b (i / b) * (b / ((B * b : ℕ) : ℝ)) with hrd
    set k : ℝ := ((Nat.digits b (i / b)).length : ℝ) with hk
    have hk0 : 0 ≤ k := by positivity
    rw [hr, hlen] at h2 ⊢
    set q := (binArith p).div ((binArith p).ofInt ((i % b : ℕ) : ℤ)) base with hq
    have q1 : |q.1 - t| ≤ u * t := by
      have : q.1 = rnd p t := by
        show rnd p (((binArith p).ofInt ((i % b : ℕ) : ℤ)).1 / base.1) = _
        rw [hd, hbase]
      rw [this]
      have := rnd_err p t
      rwa [abs_of_nonneg ht0] at this
    have q0 : 0 ≤ q.1 := by
      show 0 ≤ rnd p (((binArith p).ofInt ((i % b : ℕ) : ℤ)).1 / base.1)
      rw [hd, hbase]
      exact rnd_nonneg hp ht0
    have s1 : |((binArith p).add out q).1 - (out.1 + q.1)| ≤ u * (out.1 + q.1) := by
      have := rnd_err p (out.1 + q.1)
      rwa [abs_of_nonneg (a := out.1 + q.1) (by linarith)] at this
    have s0 : 0 ≤ ((binArith p).add out q).1 := rnd_nonneg hp (by linarith)
    set o := (binArith p).add out q with ho
    rw [abs_le] at q1 s1
    have z1 : 0 ≤ (2 * k + r) * u := by positivity
    have z2 : out.1 + q.1 ≤ 2 := by linarith [q1.2]
    have z3 : u * (out.1 + q.1) ≤ u * 2 := by gcongr
    by_cases hgo : 1 < b ∧ (0 : ℤ) < ((i / b : Nat) : ℤ)
    · rw [dif_pos hgo]
      have hib : 0 < i / b := by exact_mod_cast hgo.2
      have hBb : B * b * (i / b) ≤ 2 ^ p := by
        rw [Nat.mul_assoc]
        exact le_trans (Nat.mul_le_mul le_rfl (Nat.mul_div_le i b)) hB
      have hBb' : B * b ≤ 2 ^ p := le_trans (Nat.le_mul_of_pos_right _ hib) hBb
      have hnb : ((binArith p).mul base ((binArith p).ofInt (b : ℤ))).1 = ((B * b : ℕ) : ℝ) := by
        show rnd p (base.1 * ((binArith p).ofInt (b : ℤ)).1) = _
        rw [bin_ofInt hp (by rw [abs_of_nonneg (by positivity)]; exact_mod_cast (by omega : b ≤ 2 ^ p)), hbase]
        have : (B : ℝ) * ((b : ℤ) : ℝ) = ((((B * b : ℕ) : ℤ)) : ℝ) := by push_cast; ring
        rw [this, rnd_of_isBinary hp (intCast_isBinary (by
          rw [abs_of_nonneg (by positivity)]; exact_mod_cast hBb'))]
        simp
      have := ih (i / b) (Nat.div_lt_self hi hb) (B * b) _ o hnb
        (le_trans hbB (Nat.le_mul_of_pos_right B (by omega))) hBb s0 (by
          rw [← hrd, ← hk]
          linarith [q1.2, s1.2])
      rw [← hrd, ← hk, abs_le] at this
      rw [abs_le]
      constructor <;> linarith [q1.1, q1.2, s1.1, s1.2, this.1, this.2]
    · rw [dif_neg hgo]
      have hib : i / b = 0 := by
        have : ¬ (0 : ℤ) < ((i / b : Nat) : ℤ) := fun h => hgo ⟨hb, h⟩
        exact Nat.eq_zero_of_not_pos fun h => this (by exact_mod_cast h)
      have hr' : r = 0 := by rw [hrd, hib, radicalInverse_zero, zero_mul]
      have hk' : k = 0 := by rw [hk, hib]; simp
      rw [abs_le, hr', hk']
      constructor <;> linarith [q1.1, q1.2, s1.1, s1.2]


theorem vdcLoop_nonneg {p b : ℕ} (hp : 1 ≤ p) (hb : 1 < b) (i : ℕ) (base out : Bin p) (hbase : 0 ≤ base.1)
    (h0 : 0 ≤ out.1) : 0 ≤ (vdcLoop (binArith p) b (i : ℤ) base out).1 := by
  induction i using Nat.strong_induction_on generalizing base out with
  | _ i ih =>
  rw [vdcLoop]
  have hdiv : (i : ℤ) / (b : ℤ) = ((i / b : Nat) : ℤ) := by simp
  have hmod : (i : ℤ) % (b : ℤ) = ((i % b : Nat) : ℤ) := by simp
  rw [hdiv, hmod]
  have hz : ∀ k : ℕ, 0 ≤ ((binArith p).ofInt (k : ℤ)).1 := fun k => rnd_nonneg hp (by positivity)
  have ho : 0 ≤ ((binArith p).add out ((binArith p).div ((binArith p).ofInt ((i % b : ℕ) : ℤ)) base)).1 :=
    rnd_nonneg hp (add_nonneg h0 (rnd_nonneg hp (div_nonneg (hz _) hbase)))
  split
  · next h =>
    have hib : 0 < i / b := by exact_mod_cast h.2
    exact ih (i / b) (Nat.div_lt_self (by
      rcases Nat.eq_zero_or_pos i with rfl | h'
      · simp at hib
      · exact h') hb) _ _ (rnd_nonneg hp (mul_nonneg hbase (hz b))) ho
  · exact ho

theorem two_mul_add_le_two_pow {p : ℕ} (hp : 10 ≤ p) : 2 * p + 2 ≤ 2 ^ p := by
  induction p, hp using Nat.le_induction with
  | base => norm_num
  | succ p hp ih => rw [pow_succ]; omega

theorem digits_length_le_prec {p b i : ℕ} (hb : 1 < b) (hi : b * i ≤ 2 ^ p) : (Nat.digits b i).length ≤ p := by
  rw [Nat.digits_length_le_iff hb]
  rcases Nat.eq_zero_or_pos i with rfl | h
  · positivity
  · calc i < b * i := by nlinarith
      _ ≤ 2 ^ p := hi
      _ ≤ b ^ p := Nat.pow_le_pow_left hb p

/-- The `i`-th van der Corput number in base `b`, computed in binary floating point of precision `p`, is within
`2 · digits + 1` units of rounding of the exact radical inverse, as long as `b · i ≤ 2 ^ p`. -/
theorem vanDerCorput_rounding {p b : ℕ} (hp : 10 ≤ p) (hb : 1 < b) (i : ℕ) (hbp : b ≤ 2 ^ p) (hi : b * i ≤ 2 ^ p) :
    ∃ x, vanDerCorput (binArith p) b (i : ℤ) = .ok x ∧ 0 ≤ x.1 ∧
      |x.1 - radicalInverse b i| ≤ (2 * ((Nat.digits b i).length : ℝ) + 1) * (1 / 2 ^ p) := by
  have hb0 : (0 : ℝ) < b := by exact_mod_cast (by omega : 0 < b)
  have hu : (0 : ℝ) < 1 / 2 ^ p := by positivity
  have hbase : ((binArith p).ofInt (b : ℤ)).1 = ((b : ℕ) : ℝ) := by
    rw [bin_ofInt (by omega) (by rw [abs_of_nonneg (by positivity)]; exact_mod_cast hbp)]
    exact Int.cast_natCast _
  unfold vanDerCorput
  rw [if_pos hb]
  refine ⟨_, rfl, vdcLoop_nonneg (by omega) hb i _ _ (by rw [hbase]; positivity) (by rw [bin_zero]), ?_⟩
  obtain ⟨r0, r1⟩ := radicalInverse_range hb i
  have e1 : radicalInverse b i * ((b : ℝ) / b) = radicalInverse b i := by rw [div_self hb0.ne', mul_one]
  have hk : ((Nat.digits b i).length : ℝ) ≤ p := by exact_mod_cast digits_length_le_prec hb hi
  have hk2 : (2 * ((Nat.digits b i).length : ℝ) + 1) * (1 / 2 ^ p) ≤ 1 := by
    rw [mul_one_div, div_le_one (by positivity)]
    have : (2 * (p : ℝ) + 2) ≤ 2 ^ p := by exact_mod_cast two_mul_add_le_two_pow hp
    linarith
  have hmul : (2 * ((Nat.digits b i).length : ℝ) + radicalInverse b i) * (1 / 2 ^ p) ≤
      (2 * ((Nat.digits b i).length : ℝ) + 1) * (1 / 2 ^ p) := by gcongr
  have := vdcLoop_rounding (p := p) (by omega) hb i b _ ((binArith p).ofInt 0) hbase le_rfl hi
    (by rw [bin_zero]) (by rw [bin_zero, e1]; linarith)
  rw [bin_zero, e1, zero_add] at this
  exact this.trans hmul

/-- Numbers with at most `k` digits have radical inverses that are multiples of `b ^ -k`. -/
theorem radicalInverse_lattice {b : Nat} (hb : 1 < b) (k i : Nat) (hi : i < b ^ k) :
    radicalInverse b i * (b : ℝ) ^ k = revDigits b k i := by
  have hb' : (b : ℝ) ≠ 0 := by exact_mod_cast (by omega : b ≠ 0)
  induction k generalizing i with
  | zero =>
    have : i = 0 := by simpa using hi
    subst this
    simp [radicalInverse_zero, revDigits]
  | succ k ih =>
    have h := ih (i / b) (Nat.div_lt_of_lt_mul (by rwa [pow_succ, mul_comm] at hi))
    rw [radicalInverse_step hb i, revDigits]
    have e : (((i % b : Nat) : ℝ) + radicalInverse b (i / b)) / b * (b : ℝ) ^ (k + 1) =
        (b : ℝ) ^ k * ((i % b : Nat) : ℝ) + radicalInverse b (i / b) * (b : ℝ) ^ k := by
      rw [pow_succ]; field_simp
    rw [e, h]
    push_cast
    ring

/-- **C144 (order).** The computed coordinates are in the same strict order as the exact ones, in particular distinct, and
below one, when `(4 · digits + 2) · b · n < 2 ^ p` for the largest index `n`. -/
theorem C144_halton_order {p b n : ℕ} (hp : 10 ≤ p) (hb : 1 < b) (hn : 1 ≤ n)
    (hsmall : (4 * (Nat.digits b n).length + 2) * (b * n) < 2 ^ p) :
    ∃ x : ℕ → Bin p, ∀ i ≤ n, vanDerCorput (binArith p) b (i : ℤ) = .ok (x i) ∧ 0 ≤ (x i).1 ∧ (x i).1 < 1 ∧
      ∀ j ≤ n, radicalInverse b i < radicalInverse b j → x i < x j := by
  set k := (Nat.digits b n).length with hk
  have hb0 : (0 : ℝ) < b := by exact_mod_cast (by omega : 0 < b)
  have hbn : b * n ≤ 2 ^ p := (Nat.le_mul_of_pos_left (b * n) (by omega)).trans hsmall.le
  have hbp : b ≤ 2 ^ p := le_trans (Nat.le_mul_of_pos_right b hn) hbn
  have hmain : ∀ i, ∃ x, i ≤ n → vanDerCorput (binArith p) b (i : ℤ) = .ok x ∧ 0 ≤ x.1 ∧
      |x.1 - radicalInverse b i| ≤ (2 * (k : ℝ) + 1) * (1 / 2 ^ p) := by
    intro i
    by_cases hi : i ≤ n
    · obtain ⟨x, h1, h2, h3⟩ := vanDerCorput_rounding hp hb i hbp (le_trans (Nat.mul_le_mul le_rfl hi) hbn)
      refine ⟨x, fun _ => ⟨h1, h2, h3.trans ?_⟩⟩
      have : ((Nat.digits b i).length : ℝ) ≤ k := by
        exact_mod_cast Nat.le_length_digits_le b i n hi
      gcongr
    · exact ⟨(binArith p).ofInt 0, fun h => absurd h hi⟩
  choose x hx using hmain
  have hlt : ∀ i ≤ n, i < b ^ k := fun i hi => lt_of_le_of_lt hi
    ((Nat.digits_length_le_iff hb n).1 (le_of_eq hk.symm))
  have hpow : (b : ℝ) ^ k ≤ b * n := by
    have h1 : b ^ (k - 1) ≤ n := by
      by_contra hc
      have h2 := (Nat.digits_length_le_iff (k := k - 1) hb n).2 (not_le.1 hc)
      have h3 : 0 < k := by
        rw [hk, List.length_pos_iff]
        exact Nat.digits_ne_nil_iff_ne_zero.2 (by omega)
      omega
    have h3 : 0 < k := by
      rw [hk, List.length_pos_iff]
      exact Nat.digits_ne_nil_iff_ne_zero.2 (by omega)
    have : b ^ k ≤ b * n := by
      obtain ⟨m, hm⟩ : ∃ m, k = m + 1 := ⟨k - 1, by omega⟩
      rw [hm, pow_succ, mul_comm]
      rw [hm] at h1
      exact Nat.mul_le_mul le_rfl (by simpa using h1)
    exact_mod_cast this
  have hgap : (4 * (k : ℝ) + 2) * (1 / 2 ^ p) * (b : ℝ) ^ k < 1 := by
    have h1 : (4 * (k : ℝ) + 2) * (b * n) < 2 ^ p := by exact_mod_cast hsmall
    rw [mul_one_div, div_mul_eq_mul_div, div_lt_one (by positivity)]
    refine lt_of_le_of_lt ?_ h1
    gcongr
  have hbk : (0 : ℝ) < (b : ℝ) ^ k := by positivity
  refine ⟨x, fun i hi => ?_⟩
  obtain ⟨h1, h2, h3⟩ := hx i hi
  rw [abs_le] at h3
  have hl := radicalInverse_lattice hb k i (hlt i hi)
  refine ⟨h1, h2, ?_, ?_⟩
  · have hr : (revDigits b k i : ℝ) + 1 ≤ (b : ℝ) ^ k := by exact_mod_cast revDigits_lt hb k i
    by_contra hc
    have h4 : 1 - radicalInverse b i ≤ (2 * (k : ℝ) + 1) * (1 / 2 ^ p) := by linarith [h3.2]
    have h5 : (1 - radicalInverse b i) * (b : ℝ) ^ k ≤ (2 * (k : ℝ) + 1) * (1 / 2 ^ p) * (b : ℝ) ^ k := by gcongr
    have h6 : (0 : ℝ) ≤ (2 * (k : ℝ) + 1) * (1 / 2 ^ p) * (b : ℝ) ^ k := by positivity
    linarith
  · intro j hj hij
    obtain ⟨g1, g2, g3⟩ := hx j hj
    rw [abs_le] at g3
    have gl := radicalInverse_lattice hb k j (hlt j hj)
    have hlt' : (revDigits b k i : ℝ) < revDigits b k j := by
      rw [← hl, ← gl]; gcongr
    have hlt'' : (revDigits b k i : ℝ) + 1 ≤ revDigits b k j := by
      have : revDigits b k i < revDigits b k j := by exact_mod_cast hlt'
      exact_mod_cast this
    show (x i).1 < (x j).1
    by_contra hc
    have h4 : radicalInverse b j - radicalInverse b i ≤ (4 * (k : ℝ) + 2) * (1 / 2 ^ p) := by
      linarith [h3.2, g3.1]
    have h5 : (radicalInverse b j - radicalInverse b i) * (b : ℝ) ^ k ≤
        (4 * (k : ℝ) + 2) * (1 / 2 ^ p) * (b : ℝ) ^ k := by gcongr
    linarith

/-- A million points in base 97 at double precision meet the hypothesis. -/
example : (4 * (Nat.digits 97 1000000).length + 2) * (97 * 1000000) < 2 ^ 53 := by norm_num

/-- The loop in base two keeps a fraction with a power of two as denominator, so that nothing is rounded. -/
theorem vdcLoop_two {p : ℕ} (hp : 1 ≤ p) (i j m : ℕ) (base out : Bin p) (hbase : base.1 = 2 ^ (j + 1))
    (hout : out.1 = m / 2 ^ j) (hm : m < 2 ^ j) (hi : 2 ^ j * i < 2 ^ p) (hj : 2 ^ (j + 1) ≤ 2 ^ p) :
    (vdcLoop (binArith p) 2 (i : ℤ) base out).1 = out.1 + radicalInverse 2 i * (2 / 2 ^ (j + 1)) := by
  induction i using Nat.strong_induction_on generalizing j m base out with
  | _ i ih =>
  rw [vdcLoop]
  have hdiv : (i : ℤ) / ((2 : ℕ) : ℤ) = ((i / 2 : Nat) : ℤ) := by simp
  have hmod : (i : ℤ) % ((2 : ℕ) : ℤ) = ((i % 2 : Nat) : ℤ) := by simp
  rw [hdiv, hmod]
  have hbin : ∀ (a e : ℕ), a ≤ 2 ^ p → rnd p ((a : ℝ) / 2 ^ e) = (a : ℝ) / 2 ^ e := by
    intro a e ha
    refine rnd_of_isBinary hp ⟨a, -e, ?_, ?_⟩
    · rw [abs_of_nonneg (by positivity)]; exact_mod_cast ha
    · rw [zpow_neg, zpow_natCast, Int.cast_natCast, div_eq_mul_inv]
  have hd2 : i % 2 < 2 := Nat.mod_lt i (by norm_num)
  have hp2 : 2 ≤ 2 ^ p := le_trans (by rw [pow_succ]; exact Nat.le_mul_of_pos_left 2 (by positivity)) hj
  have hd : ((binArith p).ofInt ((i % 2 : ℕ) : ℤ)).1 = ((i % 2 : ℕ) : ℝ) := by
    rw [bin_ofInt hp]
    · exact Int.cast_natCast _
    · rw [abs_of_nonneg (by positivity)]
      exact_mod_cast (by omega : i % 2 ≤ 2 ^ p)
  have hsum : out.1 + ((i % 2 : ℕ) : ℝ) / 2 ^ (j + 1) = ((2 * m + i % 2 : ℕ) : ℝ) / 2 ^ (j + 1) := by
    rw [hout, pow_succ]; push_cast; field_simp
  have hm' : 2 * m + i % 2 < 2 ^ (j + 1) := by rw [pow_succ]; omega
  have ho : ((binArith p).add out ((binArith p).div ((binArith p).ofInt ((i % 2 : ℕ) : ℤ)) base)).1 =
      ((2 * m + i % 2 : ℕ) : ℝ) / 2 ^ (j + 1) := by
    show rnd p (out.1 + rnd p (((binArith p).ofInt ((i % 2 : ℕ) : ℤ)).1 / base.1)) = _
    rw [hd, hbase, hbin _ _ (by omega), hsum, hbin _ _ (by omega)]
  have hgoal : radicalInverse 2 i * (2 / 2 ^ (j + 1)) =
      ((i % 2 : ℕ) : ℝ) / 2 ^ (j + 1) + radicalInverse 2 (i / 2) * (2 / 2 ^ (j + 1 + 1)) := by
    rw [radicalInverse_step (by norm_num) i, pow_succ _ (j + 1)]; push_cast; field_simp
  split
  · next h =>
    have hib : 0 < i / 2 := by exact_mod_cast h.2
    have hle : 2 * (i / 2) ≤ i := Nat.mul_div_le i 2
    have hnext : 2 ^ (j + 1) * (i / 2) < 2 ^ p := by
      refine lt_of_le_of_lt ?_ hi
      rw [pow_succ, Nat.mul_assoc]
      exact Nat.mul_le_mul le_rfl hle
    have hnb : ((binArith p).mul base ((binArith p).ofInt ((2 : ℕ) : ℤ))).1 = 2 ^ (j + 1 + 1) := by
      show rnd p (base.1 * ((binArith p).ofInt ((2 : ℕ) : ℤ)).1) = _
      rw [bin_ofInt hp (by rw [abs_of_nonneg (by positivity)]; exact_mod_cast hp2), hbase]
      have : (2 : ℝ) ^ (j + 1) * (((2 : ℕ) : ℤ) : ℝ) = 2 ^ (j + 1 + 1) := by push_cast; rw [pow_succ _ (j + 1)]
      rw [this]
      refine rnd_of_isBinary hp ⟨1, ((j + 1 + 1 : ℕ) : ℤ), ?_, ?_⟩
      · rw [abs_one]; exact one_le_pow₀ (by norm_num)
      · rw [zpow_natCast]; simp
    have hj2 : 2 ^ (j + 1 + 1) ≤ 2 ^ p := by
      have : 2 ^ (j + 1) < 2 ^ p := lt_of_le_of_lt (Nat.le_mul_of_pos_right _ hib) hnext
      exact Nat.pow_le_pow_right (by norm_num) ((Nat.pow_lt_pow_iff_right (by norm_num)).1 this)
    rw [ih (i / 2) (by omega) (j + 1) (2 * m + i % 2) _ _ hnb ho hm' hnext hj2, hgoal, ho, ← hsum]
    ring
  · next h =>
    have hib : i / 2 = 0 := Nat.eq_zero_of_not_pos fun h' => h ⟨by norm_num, by exact_mod_cast h'⟩
    rw [ho, hgoal, hib, radicalInverse_zero, ← hsum]
    ring

/-- **C144 (base two).** The first coordinate of a Halton design (base two) is computed without any rounding error, for
indices below `2 ^ p`. -/
theorem C144_base_two_exact {p : ℕ} (hp : 1 ≤ p) (i : ℕ) (hi : i < 2 ^ p) :
    ∃ x, vanDerCorput (binArith p) 2 (i : ℤ) = .ok x ∧ x.1 = radicalInverse 2 i := by
  unfold vanDerCorput
  rw [if_pos (by norm_num)]
  refine ⟨_, rfl, ?_⟩
  have h2 : 2 ≤ 2 ^ p := by
    calc 2 = 2 ^ 1 := rfl
      _ ≤ 2 ^ p := Nat.pow_le_pow_right (by norm_num) hp
  have hbase : ((binArith p).ofInt ((2 : ℕ) : ℤ)).1 = 2 ^ (0 + 1) := by
    rw [bin_ofInt hp (by rw [abs_of_nonneg (by positivity)]; exact_mod_cast h2)]
    norm_num
  rw [vdcLoop_two hp i 0 0 _ _ hbase (by rw [bin_zero]; simp) (by norm_num) (by simpa using hi) (by simpa using h2),
    bin_zero]
  norm_num

/-- A billion points at double precision meet the hypothesis. -/
example : ∃ x, vanDerCorput (binArith 53) 2 ((10 ^ 9 : ℕ) : ℤ) = .ok x ∧ x.1 = radicalInverse 2 (10 ^ 9) :=
  C144_base_two_exact (by norm_num) _ (by norm_num)

/-! ## From the unit cube into the space -/

/-- A `Real` dimension with uniform prior over floating-point numbers.  (skopt/space/space.py:212-391) -/
def FloatReal {p : ℕ} (d : RealDim (Bin p)) : Prop :=
  d.low < d.high ∧ d.prior = .uniform ∧ d.cast = id ∧ (d.transform = .identity ∨ d.transform = .normalize)

/-- The same dimension over the real numbers.  (skopt/space/space.py:212-391) -/
def idealDim {p : ℕ} (d : RealDim (Bin p)) : RealDim ℝ :=
  ⟨d.low.1, d.high.1, .uniform, d.base.1, d.transform, d.name, id⟩

theorem FloatReal.ideal {p : ℕ} {d : RealDim (Bin p)} (h : FloatReal d) : PlainReal (idealDim d) :=
  ⟨h.1, rfl, rfl, h.2.2.2⟩

theorem FloatReal.valid {p : ℕ} {d : RealDim (Bin p)} (h : FloatReal d) : ValidDim (binArith p) (.real d) := by
  obtain ⟨h1, h2, h3, h4⟩ := h
  refine ⟨h1, h4, fun x a b => ?_⟩
  rw [h3]; exact ⟨a, b⟩

/-- The values that `Normalize.inverse_transform` accepts.  (skopt/space/transformers.py:267-276) -/
def InTolerance {p : ℕ} (x : Bin p) : Prop :=
  (binArith p).sub ((binArith p).ofInt 0) (binArith p).eps ≤ x ∧ x ≤ (binArith p).add ((binArith p).ofInt 1) (binArith p).eps

/-- The value of dimension `d` that belongs to the unit coordinate `x`, as computed.
(skopt/space/transformers.py:267-276, skopt/space/space.py:337-351) -/
noncomputable def floatCoord {p : ℕ} (d : RealDim (Bin p)) (x : Bin p) : Bin p :=
  npClip d.low d.high ((binArith p).add ((binArith p).mul x ((binArith p).sub d.high d.low)) d.low)

theorem FloatReal.inverse {p : ℕ} {d : RealDim (Bin p)} (h : FloatReal d) {x : Bin p} (hx : InTolerance x) :
    (Dim.real d).normalized.inverse (binArith p) [[.num x]] = .ok [.num (floatCoord d x)] := by
  obtain ⟨h1, h2, h3, -⟩ := h
  have hn : Normalize.inverse (binArith p) ⟨d.low, d.high, false⟩ [x] =
      .ok [(binArith p).add ((binArith p).mul x ((binArith p).sub d.high d.low)) d.low] := by
    unfold Normalize.inverse
    rw [if_neg, if_neg]
    · simp
    · simpa using hx.1
    · simpa using hx.2
  have hcol : mapE scalarRow [[(.num x : Val (Bin p))]] = .ok [.num x] := scalar_rows_col [(.num x : Val (Bin p))]
  have htn : ∀ y : Bin p, mapE Val.toNum [(.num y : Val (Bin p))] = .ok [y] := fun y => mapE_toNum_map [y]
  simp only [Dim.normalized, Dim.inverse, RealDim.inverse, RealDim.transformer, h2, Transformer.inverse, hcol,
    ok_bind, pipelineInverse, List.reverse_cons, List.reverse_nil, List.nil_append, List.cons_append,
    pipelineInverseLoop, Stage.inverse, htn, hn]
  simp only [List.map_cons, List.map_nil, htn, ok_bind, h3, id, floatCoord]

/-- The point of the space that belongs to a point of the unit cube, as computed. -/
noncomputable def floatPoint {p : ℕ} (ds : List (RealDim (Bin p))) (r : List (Bin p)) : List (Bin p) :=
  List.zipWith floatCoord ds r

theorem inverseCols_float {p : ℕ} : ∀ (ds : List (RealDim (Bin p))) (pre r : List (Bin p)), (∀ d ∈ ds, FloatReal d) →
    r.length = ds.length → (∀ x ∈ r, InTolerance x) →
    Space.inverseCols (binArith p) ((ds.map Dim.real).map Dim.normalized) pre.length [(pre ++ r).map Val.num] =
      .ok ((floatPoint ds r).map fun x => [.num x])
  | [], _, r, _, hl, _ => by
      have : r = [] := List.length_eq_zero_iff.1 (by simpa using hl)
      subst this
      rfl
  | d :: ds, pre, r, hd, hl, hu => by
      cases r with
      | nil => simp at hl
      | cons u r =>
        have hb : Space.block (F := Bin p) pre.length 1 [(pre ++ u :: r).map Val.num] = .ok [[.num u]] := by
          have hg : pyGet ((pre ++ u :: r).map (Val.num : Bin p → Val (Bin p))) pre.length = .ok (.num u) := by
            rw [pyGet_lt (by simp)]
            simp
          unfold Space.block
          rw [if_pos rfl]
          simp only [mapE, hg, ok_bind]
        have ih := inverseCols_float ds (pre ++ [u]) r (fun x hx => hd x (by simp [hx])) (by simpa using hl)
          (fun x hx => hu x (by simp [hx]))
        have hpre : pre ++ [u] ++ r = pre ++ u :: r := by simp
        rw [hpre, List.length_append, List.length_singleton] at ih
        have e : Space.inverseCols (binArith p) (((d :: ds).map Dim.real).map Dim.normalized) pre.length
            [(pre ++ u :: r).map Val.num] = (do
              let b ← Space.block pre.length 1 [(pre ++ u :: r).map Val.num]
              let c ← (Dim.real d).normalized.inverse (binArith p) b
              let cs ← Space.inverseCols (binArith p) ((ds.map Dim.real).map Dim.normalized)
                (pre.length + 1) [(pre ++ u :: r).map Val.num]
              .ok (c :: cs)) := rfl
        rw [e, hb, ok_bind, (hd d (by simp)).inverse (hu u (by simp)), ok_bind, ih, ok_bind]
        rfl

theorem inverse_float {p : ℕ} {ds : List (RealDim (Bin p))} (hne : ds ≠ []) (hd : ∀ d ∈ ds, FloatReal d)
    {M : List (List (Bin p))} (hM : M ≠ []) (hl : ∀ r ∈ M, r.length = ds.length)
    (hu : ∀ r ∈ M, ∀ x ∈ r, InTolerance x) :
    Space.inverseTransform (binArith p) ((ds.map Dim.real).map Dim.normalized) (numRows M) =
      .ok (M.map fun r => (floatPoint ds r).map Val.num) := by
  have hval : ∀ d ∈ (ds.map Dim.real).map Dim.normalized, ValidDim (binArith p) d := by
    intro d h
    obtain ⟨d', h', rfl⟩ := List.mem_map.1 h
    obtain ⟨d'', h'', rfl⟩ := List.mem_map.1 h'
    exact (hd d'' h'').valid.normalized
  refine (C67_inverse_pointwise_partial (binArith p) _ (by simpa using hne) hval ?_ _
    (by simpa [numRows] using hM) _).2 ?_
  · intro c hc
    obtain ⟨d', h', e⟩ := List.mem_map.1 hc
    obtain ⟨d'', h'', rfl⟩ := List.mem_map.1 h'
    cases e
  · unfold numRows
    rw [List.forall₂_map_left_iff, List.forall₂_map_right_iff, List.forall₂_same]
    intro r hr
    have h := inverseCols_float ds [] r hd (hl r hr) (hu r hr)
    simp only [List.nil_append, List.length_nil] at h
    unfold Space.inverseTransform
    rw [h, ok_bind]
    simp only [List.isEmpty_cons, Bool.false_and, Bool.false_eq_true, if_false]
    have hcl : floatPoint ds r ≠ [] := by
      intro h0
      have hlen : (floatPoint ds r).length = ds.length := by simp [floatPoint, hl r hr]
      rw [h0] at hlen
      exact hne (List.length_eq_zero_iff.1 hlen.symm)
    generalize floatPoint ds r = xs at hcl
    cases xs with
    | nil => exact absurd rfl hcl
    | cons x xs =>
      have hcols : ∀ xs : List (Bin p), mapE (fun col => pyGet col 0) (xs.map fun x => [(.num x : Val (Bin p))]) =
          .ok (xs.map Val.num) := fun xs => by
        rw [mapE_map]
        exact mapE_ok_of_forall fun x _ => rfl
      have e : transposeListArray ((x :: xs).map fun x => [(.num x : Val (Bin p))]) =
          mapE (fun i => mapE (fun col => pyGet col i) ((x :: xs).map fun x => [(.num x : Val (Bin p))])) [0] := rfl
      rw [e]
      exact mapE_ok_of_forall (g := fun _ => (x :: xs).map Val.num) fun i hi => by
        rw [List.mem_singleton.1 hi]; exact hcols _

theorem affine_err {u a b x z e w m s : ℝ} (hu : 0 ≤ u) (hu' : u ≤ 1 / 1000) (hab : a < b) (hz : 0 ≤ z ∧ z ≤ 1)
    (hx0 : 0 ≤ x) (he : |x - z| ≤ e) (he1 : e ≤ 1) (w1 : |w - (b - a)| ≤ u * |b - a|)
    (m1 : |m - x * w| ≤ u * |x * w|) (s1 : |s - (m + a)| ≤ u * |m + a|) :
    |s - (z * (b - a) + a)| ≤ (3 * e + 8 * u) * max |a| |b| := by
  set S := max |a| |b| with hS
  have hSa : |a| ≤ S := le_max_left _ _
  have hSb : |b| ≤ S := le_max_right _ _
  clear_value S
  rw [abs_le] at hSa hSb
  have he0 : 0 ≤ e := (abs_nonneg _).trans he
  obtain ⟨z0, z1⟩ := hz
  obtain ⟨D, hD⟩ : ∃ D, D = b - a := ⟨_, rfl⟩
  rw [← hD] at w1 ⊢
  have hD0 : 0 < D := by linarith
  have hDS : D ≤ 2 * S := by linarith
  have hS0 : 0 ≤ S := by linarith
  rw [abs_le] at he
  rw [abs_of_pos hD0, abs_le] at w1
  have uD : u * D ≤ 1 / 1000 * D := by gcongr
  have w0 : 0 ≤ w := by linarith [w1.1]
  have xw0 : 0 ≤ x * w := mul_nonneg hx0 w0
  rw [abs_of_nonneg xw0, abs_le] at m1
  have hwD : w ≤ 1001 / 1000 * D := by linarith [w1.2]
  have hx2 : x ≤ 2 := by linarith [he.2]
  have hxw : x * w ≤ 2 * (1001 / 1000 * D) := by gcongr
  have huxw : u * (x * w) ≤ u * (2 * (1001 / 1000 * D)) := by gcongr
  have e1 : (x - z) * w ≤ e * (1001 / 1000 * D) := by
    calc (x - z) * w ≤ e * w := mul_le_mul_of_nonneg_right he.2 w0
      _ ≤ _ := by gcongr
  have e2 : -(e * (1001 / 1000 * D)) ≤ (x - z) * w := by
    calc -(e * (1001 / 1000 * D)) ≤ -(e * w) := by gcongr
      _ = (-e) * w := by ring
      _ ≤ _ := mul_le_mul_of_nonneg_right he.1 w0
  have huD0 : 0 ≤ u * D := by positivity
  have h2 : z * (u * D) ≤ 1 * (u * D) := mul_le_mul_of_nonneg_right z1 huD0
  have e3 : z * (w - D) ≤ u * D := by
    have := mul_le_mul_of_nonneg_left w1.2 z0
    linarith only [this, h2]
  have e4 : -(u * D) ≤ z * (w - D) := by
    have := mul_le_mul_of_nonneg_left w1.1 z0
    linarith only [this, h2]
  obtain ⟨E, hE⟩ : ∃ E, E = 1001 / 1000 * (e * D) + u * D + u * (2 * (1001 / 1000 * D)) := ⟨_, rfl⟩
  have f1 : m - z * D ≤ E := by linarith only [m1.2, huxw, e1, e3, hE]
  have f2 : -E ≤ m - z * D := by linarith only [m1.1, huxw, e2, e4, hE]
  have y1 : 0 ≤ z * D := mul_nonneg z0 hD0.le
  have y2 : z * D ≤ 1 * D := mul_le_mul_of_nonneg_right z1 hD0.le
  have g : |m + a| ≤ S + E := by
    rw [abs_le]
    constructor
    · linarith only [f2, y1, hSa.1]
    · linarith only [f1, y2, hSb.2, hD]
  have s2 : |s - (m + a)| ≤ u * (S + E) := s1.trans (by gcongr)
  rw [abs_le] at s2
  have hE0 : 0 ≤ E := by rw [hE]; positivity
  have huE : u * E ≤ 1 / 1000 * E := by gcongr
  have heD : e * D ≤ e * (2 * S) := by gcongr
  have huD : u * D ≤ u * (2 * S) := by gcongr
  have h3 : 0 ≤ e * S := by positivity
  have h4 : 0 ≤ u * S := by positivity
  have htot : E + u * (S + E) ≤ (3 * e + 8 * u) * S := by
    have h1 : E ≤ 2002 / 1000 * (e * S) + 6004 / 1000 * (u * S) := by
      rw [hE]; linarith only [heD, huD]
    linarith only [h1, huE, h3, h4]
  rw [abs_le]
  constructor
  · linarith only [s2.1, f2, htot]
  · linarith only [s2.2, f1, htot]

/-- The error of one coordinate: three times that of the unit coordinate and eight units of rounding, relative to the
larger bound. -/
theorem floatCoord_err {p : ℕ} (hp : 10 ≤ p) {d : RealDim (Bin p)} (hd : d.low < d.high) {x : Bin p} {z e : ℝ}
    (hz : 0 ≤ z ∧ z ≤ 1) (hx0 : 0 ≤ x.1) (he : |x.1 - z| ≤ e) (he1 : e ≤ 1) :
    |(floatCoord d x).1 - (z * (d.high.1 - d.low.1) + d.low.1)| ≤
      (3 * e + 8 * (1 / 2 ^ p)) * max |d.low.1| |d.high.1| := by
  have hF := binArith_floatLike hp
  have hab : d.low.1 < d.high.1 := hd
  have t := affine_err (u := 1 / 2 ^ p) (a := d.low.1) (b := d.high.1) (x := x.1) (z := z) (e := e)
    (w := ((binArith p).sub d.high d.low).1) (m := ((binArith p).mul x ((binArith p).sub d.high d.low)).1)
    (s := ((binArith p).add ((binArith p).mul x ((binArith p).sub d.high d.low)) d.low).1)
    hF.u_nonneg hF.u_small hab hz hx0 he he1 (rnd_err p _) (rnd_err p _) (rnd_err p _)
  generalize (3 * e + 8 * (1 / 2 ^ p)) * max |d.low.1| |d.high.1| = R at t ⊢
  unfold floatCoord
  generalize (binArith p).add ((binArith p).mul x ((binArith p).sub d.high d.low)) d.low = s at t ⊢
  have hy1 : 0 ≤ z * (d.high.1 - d.low.1) := mul_nonneg hz.1 (by linarith)
  have hy2 : z * (d.high.1 - d.low.1) ≤ 1 * (d.high.1 - d.low.1) := mul_le_mul_of_nonneg_right hz.2 (by linarith)
  have hR : 0 ≤ R := (abs_nonneg _).trans t
  rw [abs_le] at t
  unfold npClip
  rcases le_total s d.low with h | h
  · rw [max_eq_right h, min_eq_left hd.le, abs_le]
    have h' : s.1 ≤ d.low.1 := h
    constructor <;> linarith [t.1, t.2]
  · rw [max_eq_left h]
    rcases le_total s d.high with h' | h'
    · rw [min_eq_left h', abs_le]; exact t
    · rw [min_eq_right h', abs_le]
      have h'' : d.high.1 ≤ s.1 := h'
      constructor <;> linarith [t.1, t.2]

/-- Each coordinate of the computed point `P` is within `ε`, relative to the larger bound of its dimension, of that of the
ideal point `Q`. -/
def NearPoint {p : ℕ} (ε : ℝ) : List (RealDim (Bin p)) → Point (Bin p) → Point ℝ → Prop
  | [], [], [] => True
  | d :: ds, .num x :: P, .num y :: Q =>
      |x.1 - y| ≤ ε * max |d.low.1| |d.high.1| ∧ NearPoint ε ds P Q
  | _, _, _ => False

/-- Unit coordinates are nearly the same. -/
def NearUnit {p : ℕ} (e : ℝ) (x : Bin p) (z : ℝ) : Prop := 0 ≤ x.1 ∧ |x.1 - z| ≤ e ∧ 0 ≤ z ∧ z ≤ 1

theorem floatPoint_near {p : ℕ} (hp : 10 ≤ p) {e : ℝ} (he1 : e ≤ 1) :
    ∀ {ds : List (RealDim (Bin p))} {r : List (Bin p)} {z : List ℝ}, (∀ d ∈ ds, FloatReal d) → r.length = ds.length →
      List.Forall₂ (NearUnit e) r z →
      NearPoint (3 * e + 8 * (1 / 2 ^ p)) ds ((floatPoint ds r).map Val.num)
        ((cubePoint (ds.map idealDim) z).map Val.num)
  | [], r, z, _, hl, h => by
      have : r = [] := List.length_eq_zero_iff.1 (by simpa using hl)
      subst this
      cases h
      trivial
  | d :: ds, r, z, hd, hl, h => by
      cases h with
      | nil => simp at hl
      | cons h1 h2 =>
        obtain ⟨a1, a2, a3, a4⟩ := h1
        exact ⟨floatCoord_err hp (hd d (by simp)).1 ⟨a3, a4⟩ a1 a2 he1,
          floatPoint_near hp he1 (fun x hx => hd x (by simp [hx])) (by simpa using hl) h2⟩

theorem inTolerance_of {p : ℕ} (hp : 10 ≤ p) {e : ℝ} (he : e ≤ 1 / 10 ^ 8 - 3 * (1 / 2 ^ p) ∨ e = 0) {x : Bin p} {z : ℝ}
    (h : NearUnit e x z) : InTolerance x := by
  obtain ⟨h1, h2, h3, h4⟩ := h
  have hF := binArith_floatLike hp
  rw [abs_le] at h2
  refine ⟨?_, ?_⟩
  · refine (hF.sub_le _ _ hF.eps_nonneg).trans ?_
    show ((binArith p).ofInt 0).1 ≤ x.1
    rw [bin_zero]; exact h1
  · rcases he with he | he
    · have hu : (0 : ℝ) ≤ 1 / 2 ^ p := hF.u_nonneg
      have hu' : (1 : ℝ) / 2 ^ p ≤ 1 / 1000 := hF.u_small
      have a1 := rnd_err p (1 / 10 ^ 8)
      have a2 := rnd_err p (((binArith p).ofInt 1).1 + (rnd p (1 / 10 ^ 8)))
      rw [bin_one (by omega)] at a2
      rw [abs_of_pos (by positivity : (0 : ℝ) < 1 / 10 ^ 8), abs_le] at a1
      have a0 : 0 ≤ rnd p (1 / 10 ^ 8) := rnd_nonneg (by omega) (by positivity)
      rw [abs_of_nonneg (by linarith : (0 : ℝ) ≤ 1 + rnd p (1 / 10 ^ 8)), abs_le] at a2
      show x.1 ≤ rnd p (((binArith p).ofInt 1).1 + (rnd p (1 / 10 ^ 8)))
      rw [bin_one (by omega)]
      generalize rnd p (1 / 10 ^ 8) = ep at *
      generalize (1 : ℝ) / 2 ^ p = u at *
      have b1 : u * (1 / 10 ^ 8) ≤ u * (1 / 2) := by gcongr; norm_num
      have b2 : u * ep ≤ u * 1 := by
        have : u * (1 / 10 ^ 8) ≤ 1 / 1000 * (1 / 10 ^ 8) := by gcongr
        gcongr
        linarith [a1.2]
      linarith [a1.1, a2.1, h2.2]
    · refine le_trans ?_ (hF.add_ge _ _ hF.eps_nonneg)
      show x.1 ≤ ((binArith p).ofInt 1).1
      rw [bin_one (by omega)]
      linarith [h2.2]

/-- From unit coordinates that are nearly the same to points that are nearly the same. -/
theorem designs_near {p : ℕ} (hp : 10 ≤ p) {e : ℝ} (he1 : e ≤ 1) (he : e ≤ 1 / 10 ^ 8 - 3 * (1 / 2 ^ p) ∨ e = 0)
    {ds : List (RealDim (Bin p))} (hne : ds ≠ []) (hd : ∀ d ∈ ds, FloatReal d) {M : List (List (Bin p))}
    {M' : List (List ℝ)} (hM : M ≠ []) (hl : ∀ r ∈ M, r.length = ds.length)
    (h : List.Forall₂ (List.Forall₂ (NearUnit e)) M M') :
    ∃ P Q, Space.inverseTransform (binArith p) ((ds.map Dim.real).map Dim.normalized) (numRows M) = .ok P ∧
      Space.inverseTransform exact (((ds.map idealDim).map Dim.real).map Dim.normalized) (numRows M') = .ok Q ∧
      P.length = M.length ∧ List.Forall₂ (NearPoint (3 * e + 8 * (1 / 2 ^ p)) ds) P Q := by
  have hleft : ∀ r ∈ M, ∃ z ∈ M', List.Forall₂ (NearUnit e) r z := by
    intro r hr
    obtain ⟨i, hi, rfl⟩ := List.getElem_of_mem hr
    have hi' : i < M'.length := by rw [← h.length_eq]; exact hi
    exact ⟨M'[i], List.getElem_mem hi', h.get hi hi'⟩
  have hright : ∀ z ∈ M', ∃ r ∈ M, List.Forall₂ (NearUnit e) r z := by
    intro z hz
    obtain ⟨i, hi, rfl⟩ := List.getElem_of_mem hz
    have hi' : i < M.length := by rw [h.length_eq]; exact hi
    exact ⟨M[i], List.getElem_mem hi', h.get hi' hi⟩
  refine ⟨_, _, inverse_float hne hd hM hl ?_, inverse_cube (by simpa using hne) ?_ ?_ ?_ ?_, by simp, ?_⟩
  · intro r hr x hx
    obtain ⟨z, -, hz⟩ := hleft r hr
    obtain ⟨j, hj, rfl⟩ := List.getElem_of_mem hx
    exact inTolerance_of hp he (hz.get hj (by rw [← hz.length_eq]; exact hj))
  · intro d h'
    obtain ⟨d', h'', rfl⟩ := List.mem_map.1 h'
    exact (hd d' h'').ideal
  · intro h0
    rw [h0] at h
    exact hM (List.forall₂_nil_right_iff.1 h)
  · intro z hz
    obtain ⟨r, hr, hrz⟩ := hright z hz
    rw [← hrz.length_eq, hl r hr, List.length_map]
  · intro z hz x hx
    obtain ⟨r, hr, hrz⟩ := hright z hz
    obtain ⟨j, hj, rfl⟩ := List.getElem_of_mem hx
    have := hrz.get (by rw [hrz.length_eq]; exact hj) hj
    exact ⟨this.2.2.1, this.2.2.2⟩
  · rw [List.forall₂_map_left_iff, List.forall₂_map_right_iff]
    have : List.Forall₂ (fun r z => r ∈ M ∧ List.Forall₂ (NearUnit e) r z) M M' := by
      rw [List.forall₂_iff_get] at h ⊢
      exact ⟨h.1, fun i h1 h2 => ⟨List.get_mem _ _, h.2 i h1 h2⟩⟩
    refine this.imp fun r z h' => floatPoint_near hp he1 hd (hl r h'.1) h'.2

theorem floatReal_legal {p : ℕ} {ds : List (RealDim (Bin p))} (hd : ∀ d ∈ ds, FloatReal d) :
    ∀ d ∈ ds.map Dim.real, HasLegalTransform d := by
  intro d h
  obtain ⟨d', h', rfl⟩ := List.mem_map.1 h
  exact (hd d' h').2.2.2

theorem ideal_legal {p : ℕ} {ds : List (RealDim (Bin p))} (hd : ∀ d ∈ ds, FloatReal d) :
    ∀ d ∈ (ds.map idealDim).map Dim.real, HasLegalTransform d := by
  intro d h
  obtain ⟨d', h', rfl⟩ := List.mem_map.1 h
  obtain ⟨d'', h'', rfl⟩ := List.mem_map.1 h'
  exact (hd d'' h'').2.2.2

/-! ## Sobol -/

theorem sobolVec_float {p : ℕ} (hp : 30 ≤ p) {dim s : Nat} (hdim : dim ≤ 40) (hs : s < 2 ^ 30) :
    (sobolVec (binArith p) dim s).map Subtype.val = sobolVec exact dim s := by
  unfold sobolVec
  rw [List.map_map]
  refine List.map_congr_left fun x hx => ?_
  have hx' : x < 2 ^ 30 := by
    unfold sobolPoint at hx
    obtain ⟨d, hd, rfl⟩ := List.mem_map.1 hx
    exact sobolT_lt (by have := List.mem_range.1 hd; omega) s hs
  have hpow : 2 ^ 30 ≤ 2 ^ p := Nat.pow_le_pow_right (by norm_num) hp
  have e1 : ((binArith p).ofInt (x : ℤ)).1 = (x : ℝ) := by
    rw [bin_ofInt (by omega) (by rw [abs_of_nonneg (by positivity)]; exact_mod_cast (by omega : x ≤ 2 ^ p))]
    exact Int.cast_natCast _
  have e2 : ((binArith p).ofInt (2 ^ 30 : ℤ)).1 = (2 : ℝ) ^ 30 := by
    rw [bin_ofInt (by omega) (by rw [abs_of_nonneg (by positivity)]; exact_mod_cast hpow)]
    norm_num
  have hb : ∀ k : ℕ, k ≤ 2 ^ p → rnd p ((k : ℝ) * (1 / 2 ^ 30)) = (k : ℝ) * (1 / 2 ^ 30) := by
    intro k hk
    refine rnd_of_isBinary (by omega) ⟨k, -30, ?_, ?_⟩
    · rw [abs_of_nonneg (by positivity)]; exact_mod_cast hk
    · rw [Int.cast_natCast]; norm_num
  have e3 : ((binArith p).div ((binArith p).ofInt 1) ((binArith p).ofInt (2 ^ 30))).1 = 1 / (2 : ℝ) ^ 30 := by
    show rnd p (((binArith p).ofInt 1).1 / ((binArith p).ofInt (2 ^ 30)).1) = _
    rw [bin_one (by omega), e2]
    have := hb 1 (Nat.one_le_two_pow)
    simpa using this
  show rnd p (((binArith p).ofInt (x : ℤ)).1 * ((binArith p).div ((binArith p).ofInt 1) ((binArith p).ofInt (2 ^ 30))).1) =
    exact.mul (exact.ofInt (x : ℤ)) (exact.div (exact.ofInt 1) (exact.ofInt (2 ^ 30)))
  rw [e1, e3, hb x (by omega)]
  norm_num [exact]

/-- **C144 (Sobol, unit cube).** Whatever the generator did before, the rows of the unit cube are computed without any
rounding error when the precision is at least 30 bits. -/
theorem C144_sobol_exact {p : ℕ} (hp : 30 ≤ p) {skip dim n : Nat} {s : Sobol} (h : Between skip s) (h1 : 1 ≤ dim)
    (h40 : dim ≤ 40) (hn : 1 ≤ n) (hs : skip + n ≤ 2 ^ 30 - 1) :
    ∃ M, (s.rows (binArith p) dim n skip).2 = .ok M ∧
      (s.rows exact dim n skip).2 = .ok (M.map fun r => r.map Subtype.val) := by
  obtain ⟨s1, e1, -⟩ := Sobol.rows_eq (A := binArith p) h h1 h40 hn hs
  obtain ⟨s2, e2, -⟩ := Sobol.rows_eq (A := exact) h h1 h40 hn hs
  refine ⟨_, by rw [e1], ?_⟩
  rw [e2]
  simp only [List.map_map]
  congr 1
  refine List.map_congr_left fun i hi => ?_
  have := List.mem_range.1 hi
  exact (sobolVec_float hp h40 (by omega)).symm

/-- New generators are in such a state. -/
example : Between 0 ({} : Sobol) := (Sobol.new_between (skip := 0) (randomize := true) (s := {}) rfl).1

/-- **C144 (Sobol).** The points of `Sobol(skip, randomize=False)`, computed in floating point, are within eight units of
rounding, relative to the larger bound of each dimension, of the ideal points. -/
theorem C144_sobol {p : ℕ} (hp : 30 ≤ p) (mod1 : Bin p → Bin p) (mod1' : ℝ → ℝ) (skip : Nat) (s : Sobol)
    (hs : Sobol.new skip false = .ok s) (ds : List (RealDim (Bin p))) (hne : ds ≠ []) (h40 : ds.length ≤ 40)
    (hd : ∀ d ∈ ds, FloatReal d) (n : Nat) (hn : 1 ≤ n) (shift : List (Bin p)) (shift' : List ℝ)
    (hmax : skip + n ≤ 2 ^ 30 - 1) (hbud : skip ≠ 0 → n ≤ skip) :
    ∃ P Q, (s.generate (binArith p) mod1 (ds.map Dim.real) n shift).2.2 = .ok P ∧
      (s.generate exact mod1' ((ds.map idealDim).map Dim.real) n shift').2.2 = .ok Q ∧ P.length = n ∧
      List.Forall₂ (NearPoint (8 * (1 / 2 ^ p)) ds) P Q := by
  obtain ⟨hb, hk, hr, hg⟩ := Sobol.new_between hs
  have hc : ¬(s.skip ≠ 0 ∧ s.numGenerated + n > s.skip) := by
    rw [hk, hg]
    rintro ⟨h1, h2⟩
    have := hbud h1
    omega
  have hlen : 1 ≤ ds.length := List.length_pos_iff.2 hne
  obtain ⟨M, e1, e2⟩ := C144_sobol_exact hp hb hlen h40 hn hmax
  have hrange : ∀ r ∈ M, r.length = ds.length ∧ ∀ x ∈ r, 0 ≤ x.1 ∧ x.1 < 1 := by
    obtain ⟨s2, e3, -⟩ := Sobol.rows_eq (A := exact) hb hlen h40 hn hmax
    rw [e3] at e2
    injection e2 with e2
    intro r hr
    have : r.map Subtype.val ∈ (List.range n).map fun i => sobolVec exact ds.length (skip + i) := by
      rw [e2]; exact List.mem_map_of_mem hr
    obtain ⟨i, hi, e⟩ := List.mem_map.1 this
    have hi' := List.mem_range.1 hi
    obtain ⟨g1, g2⟩ := sobolVec_range (dim := ds.length) (s := skip + i) h40 (by omega)
    rw [e] at g1 g2
    refine ⟨by simpa using g1, fun x hx => g2 _ (List.mem_map_of_mem hx)⟩
  have hMn : M.length = n := by
    obtain ⟨s1, e3, -⟩ := Sobol.rows_eq (A := binArith p) hb hlen h40 hn hmax
    rw [e3] at e1
    injection e1 with e1
    rw [← e1]; simp
  have hM : M ≠ [] := by
    intro h0; rw [h0] at hMn; simp at hMn; omega
  obtain ⟨P, Q, g1, g2, g3, g4⟩ := designs_near (M := M) (M' := M.map fun r => r.map Subtype.val) (e := 0) (by omega)
    (by norm_num) (Or.inr rfl) hne hd hM (fun r hr => (hrange r hr).1) (by
      rw [List.forall₂_map_right_iff, List.forall₂_same]
      intro r hr
      rw [List.forall₂_map_right_iff, List.forall₂_same]
      intro x hx
      have := (hrange r hr).2 x hx
      exact ⟨this.1, by simp, this.1, this.2.le⟩)
  refine ⟨P, Q, ?_, ?_, g3.trans hMn, ?_⟩
  · rw [Sobol.generate_snd _ _ _ _ _ _ hc, withNormalized_snd _ (floatReal_legal hd), List.length_map, hk, e1, hr, ok_bind]
    exact g1
  · rw [Sobol.generate_snd _ _ _ _ _ _ hc, withNormalized_snd _ (ideal_legal hd), List.length_map, List.length_map, hk, e2,
      hr, ok_bind]
    exact g2
  · simpa using g4

/-! ## Halton -/

theorem vanDerCorput_near {p b i N : ℕ} (hp : 10 ≤ p) (hb : 1 < b) (hbp : b ≤ 2 ^ p) (hi : b * i ≤ 2 ^ p) (hiN : i ≤ N) :
    ∃ x z, vanDerCorput (binArith p) b (i : ℤ) = .ok x ∧ vanDerCorput exact b (i : ℤ) = .ok z ∧
      NearUnit ((2 * (Nat.log 2 N : ℝ) + 3) * (1 / 2 ^ p)) x z := by
  obtain ⟨x, h1, h2, h3⟩ := vanDerCorput_rounding hp hb i hbp hi
  obtain ⟨r0, r1⟩ := radicalInverse_range hb i
  refine ⟨x, _, h1, vanDerCorput_exact hb i, h2, h3.trans ?_, r0, r1.le⟩
  have hk : (Nat.digits b i).length ≤ Nat.log 2 N + 1 := by
    rw [Nat.digits_length_le_iff hb]
    calc i ≤ N := hiN
      _ < 2 ^ (Nat.log 2 N + 1) := Nat.lt_pow_succ_log_self (by norm_num) N
      _ ≤ b ^ (Nat.log 2 N + 1) := Nat.pow_le_pow_left hb _
  have hk' : ((Nat.digits b i).length : ℝ) ≤ Nat.log 2 N + 1 := by exact_mod_cast hk
  exact mul_le_mul_of_nonneg_right (by linarith) (by positivity)

theorem mapE_pairs {α β γ : Type} {f : α → Except PyErr β} {g : α → Except PyErr γ} {R : β → γ → Prop} :
    ∀ {l : List α}, (∀ a ∈ l, ∃ x z, f a = .ok x ∧ g a = .ok z ∧ R x z) →
      ∃ xs zs, mapE f l = .ok xs ∧ mapE g l = .ok zs ∧ xs.length = l.length ∧ List.Forall₂ R xs zs
  | [], _ => ⟨[], [], rfl, rfl, rfl, .nil⟩
  | a :: l, h => by
      obtain ⟨x, z, h1, h2, h3⟩ := h a (by simp)
      obtain ⟨xs, zs, g1, g2, g3, g4⟩ := mapE_pairs (l := l) fun a' ha => h a' (by simp [ha])
      exact ⟨x :: xs, z :: zs, by simp only [mapE, h1, g1], by simp only [mapE, h2, g2],
        by simp [g3], .cons h3 g4⟩

theorem linear_le_two_pow {p : ℕ} (hp : 40 ≤ p) : (2 * p + 4) * 1073741824 ≤ 2 ^ p := by
  induction p, hp using Nat.le_induction with
  | base => norm_num
  | succ p hp ih =>
    have h1 : 2 ^ (p + 1) = 2 ^ p * 2 := pow_succ 2 p
    rw [h1]
    linarith

theorem Halton.bases_length {h : Halton} {n : Nat} {bases : List Nat} (hb : h.bases n = .ok bases) :
    bases.length = n := by
  unfold Halton.bases at hb
  simp only at hb
  split at hb
  · rw [bind_eq_ok] at hb
    obtain ⟨r, -, hb⟩ := hb
    rw [ok_bind] at hb
    split at hb
    · next h' => injection hb with hb; rw [← hb]; exact h'
    · cases hb
  · rw [ok_bind] at hb
    split at hb
    · next h' => injection hb with hb; rw [← hb]; exact h'
    · cases hb

/-- **C144 (Halton).** The points of `Halton`, computed in floating point of at least 40 bits, are within
`6 · log₂(skip + n) + 17` units of rounding, relative to the larger bound of each dimension, of the ideal points, as long
as the largest base times the largest index is at most `2 ^ p`. -/
theorem C144_halton {p : ℕ} (hp : 40 ≤ p) (h : Halton) (ds : List (RealDim (Bin p))) (hne : ds ≠ [])
    (hd : ∀ d ∈ ds, FloatReal d) (n : Nat) (hn : 1 ≤ n) (draw : ℤ) (bases : List Nat) (skip : Nat)
    (hbases : h.bases ds.length = .ok bases) (hskip : h.skip bases draw = .ok (skip : ℤ))
    (hb : ∀ b ∈ bases, 1 < b ∧ b * (skip + n) ≤ 2 ^ p) :
    ∃ P Q, (h.generate (binArith p) (ds.map Dim.real) n draw).2 = .ok P ∧
      (h.generate exact ((ds.map idealDim).map Dim.real) n draw).2 = .ok Q ∧ P.length = n ∧
      List.Forall₂ (NearPoint ((6 * (Nat.log 2 (skip + n) : ℝ) + 17) * (1 / 2 ^ p)) ds) P Q := by
  have hlenb : bases.length = ds.length := Halton.bases_length hbases
  have hbne : bases ≠ [] := by
    intro h0; rw [h0] at hlenb; exact hne (List.length_eq_zero_iff.1 hlenb.symm)
  -- the error of the unit coordinates is far below the tolerance of the range check
  have hlog : Nat.log 2 (skip + n) + 1 ≤ p := by
    obtain ⟨b, hbm⟩ := List.exists_mem_of_ne_nil _ hbne
    obtain ⟨h1, h2⟩ := hb b hbm
    have h3 : 2 * (skip + n) ≤ 2 ^ p := le_trans (Nat.mul_le_mul h1 le_rfl) h2
    have h4 : 2 ^ Nat.log 2 (skip + n) ≤ skip + n := Nat.pow_log_le_self 2 (by omega)
    have h5 : 2 ^ (Nat.log 2 (skip + n) + 1) ≤ 2 ^ p := by rw [pow_succ]; omega
    exact (Nat.pow_le_pow_iff_right (by norm_num)).1 h5
  have hbig := linear_le_two_pow hp
  set e : ℝ := (2 * (Nat.log 2 (skip + n) : ℝ) + 3) * (1 / 2 ^ p) with he
  have hp0 : (0 : ℝ) < 2 ^ p := by positivity
  have hbig' : (2 * (p : ℝ) + 4) * 1073741824 ≤ 2 ^ p := by exact_mod_cast hbig
  have hlog' : (Nat.log 2 (skip + n) : ℝ) + 1 ≤ p := by exact_mod_cast hlog
  have hsum : e + 3 * (1 / 2 ^ p) ≤ 1 / 2 ^ 30 := by
    have : e + 3 * (1 / 2 ^ p) = (2 * (Nat.log 2 (skip + n) : ℝ) + 6) / 2 ^ p := by rw [he]; ring
    rw [this, div_le_div_iff₀ hp0 (by positivity), one_mul]
    norm_num
    linarith
  have h30 : (1 : ℝ) / 2 ^ 30 ≤ 1 / 10 ^ 8 := by norm_num
  have hu0 : (0 : ℝ) ≤ 1 / 2 ^ p := by positivity
  have hrow : ∀ i ∈ List.range n, ∃ x z,
      mapE (fun b => vanDerCorput (binArith p) b ((i : ℤ) + skip)) bases = .ok x ∧
      mapE (fun b => vanDerCorput exact b ((i : ℤ) + skip)) bases = .ok z ∧
      (x.length = ds.length ∧ List.Forall₂ (NearUnit e) x z) := by
    intro i hi
    have hi' := List.mem_range.1 hi
    obtain ⟨xs, zs, g1, g2, g3, g4⟩ := mapE_pairs (l := bases)
      (f := fun b => vanDerCorput (binArith p) b ((i : ℤ) + skip))
      (g := fun b => vanDerCorput exact b ((i : ℤ) + skip)) (R := NearUnit e) (by
        intro b hbm
        obtain ⟨h1, h2⟩ := hb b hbm
        have := vanDerCorput_near (p := p) (b := b) (i := i + skip) (N := skip + n) (by omega) h1
          (le_trans (Nat.le_mul_of_pos_right b (by omega)) h2)
          (le_trans (Nat.mul_le_mul le_rfl (by omega)) h2) (by omega)
        push_cast at this
        exact this)
    exact ⟨xs, zs, g1, g2, g3.trans hlenb, g4⟩
  obtain ⟨M, M', m1, m2, m3, m4⟩ := mapE_pairs hrow
  have hunit : h.unit (binArith p) ds.length n draw = .ok M := by
    unfold Halton.unit haltonRows
    rw [hbases, ok_bind, hskip, ok_bind, m1]
  have hunit' : h.unit exact ds.length n draw = .ok M' := by
    unfold Halton.unit haltonRows
    rw [hbases, ok_bind, hskip, ok_bind, m2]
  have hMn : M.length = n := by rw [m3]; simp
  have hM : M ≠ [] := by
    intro h0; rw [h0] at hMn; simp at hMn; omega
  obtain ⟨P, Q, g1, g2, g3, g4⟩ := designs_near (M := M) (M' := M') (e := e) (by omega)
    (by linarith [show (1 : ℝ) / 10 ^ 8 ≤ 1 by norm_num]) (Or.inl (by linarith)) hne hd hM (fun r hr => by
      obtain ⟨i, hi, rfl⟩ := List.getElem_of_mem hr
      exact (m4.get hi (by rw [← m4.length_eq]; exact hi)).1) (m4.imp fun _ _ h => h.2)
  refine ⟨P, Q, ?_, ?_, g3.trans hMn, ?_⟩
  · unfold Halton.generate
    rw [withNormalized_snd _ (floatReal_legal hd), List.length_map, hunit, ok_bind]
    exact g1
  · unfold Halton.generate
    rw [withNormalized_snd _ (ideal_legal hd), List.length_map, List.length_map, hunit', ok_bind]
    exact g2
  · have : 3 * e + 8 * (1 / 2 ^ p) = (6 * (Nat.log 2 (skip + n) : ℝ) + 17) * (1 / 2 ^ p) := by rw [he]; ring
    rw [← this]
    exact g4

/-- `Real(0.0, 1.0)` and `Real(-5.0, 10.0)` in double precision. -/
noncomputable def twoDoubles : List (RealDim (Bin 53)) :=
  [⟨(binArith 53).ofInt 0, (binArith 53).ofInt 1, .uniform, (binArith 53).ofInt 10, .identity, none, id⟩,
   ⟨(binArith 53).ofInt (-5), (binArith 53).ofInt 10, .uniform, (binArith 53).ofInt 10, .identity, none, id⟩]

theorem twoDoubles_float : ∀ d ∈ twoDoubles, FloatReal d := by
  intro d hd
  simp only [twoDoubles, List.mem_cons, List.not_mem_nil, or_false] at hd
  rcases hd with rfl | rfl
  · refine ⟨?_, rfl, rfl, Or.inl rfl⟩
    show ((binArith 53).ofInt 0).1 < ((binArith 53).ofInt 1).1
    rw [dbl_val (by norm_num), dbl_val (by norm_num)]; norm_num
  · refine ⟨?_, rfl, rfl, Or.inl rfl⟩
    show ((binArith 53).ofInt (-5)).1 < ((binArith 53).ofInt 10).1
    rw [dbl_val (by norm_num), dbl_val (by norm_num)]; norm_num

/-- A thousand Halton points in these two dimensions (bases 2 and 3) are accurate to `6 · 9 + 17 = 71` units. -/
example : ∃ P Q, (({} : Halton).generate (binArith 53) (twoDoubles.map Dim.real) 1000 0).2 = .ok P ∧
    (({} : Halton).generate exact ((twoDoubles.map idealDim).map Dim.real) 1000 0).2 = .ok Q ∧ P.length = 1000 ∧
    List.Forall₂ (NearPoint ((6 * (Nat.log 2 (0 + 1000) : ℝ) + 17) * (1 / 2 ^ 53)) twoDoubles) P Q :=
  C144_halton (by norm_num) {} twoDoubles (by simp [twoDoubles]) twoDoubles_float 1000 (by norm_num) 0 [2, 3] 0
    (by show ({} : Halton).bases 2 = _; decide +kernel) (by decide +kernel)
    (by intro b hb; simp only [List.mem_cons, List.not_mem_nil, or_false] at hb; rcases hb with rfl | rfl <;> norm_num)

/-- A thousand Sobol points are accurate to eight units. -/
example : ∃ P Q, (({ randomize := false } : Sobol).generate (binArith 53) id (twoDoubles.map Dim.real) 1000 []).2.2 = .ok P ∧
    (({ randomize := false } : Sobol).generate exact id ((twoDoubles.map idealDim).map Dim.real) 1000 []).2.2 = .ok Q ∧
    P.length = 1000 ∧ List.Forall₂ (NearPoint (8 * (1 / 2 ^ 53)) twoDoubles) P Q :=
  C144_sobol (by norm_num) id id 0 _ rfl twoDoubles (by simp [twoDoubles]) (by simp [twoDoubles]) twoDoubles_float 1000
    (by norm_num) [] [] (by norm_num) (by simp)

end Skopt

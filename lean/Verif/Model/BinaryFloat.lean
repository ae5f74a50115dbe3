import Verif.Model.Exact
import Mathlib.Data.Int.Log

/-!
# Binary floating-point numbers

The numbers `m · 2^e` with `|m| ≤ 2^p`, and the arithmetic that rounds every exact result to the nearest of them, ties
to even.  `p = 53` is the arithmetic of `np.float64` and of Python's `float`.  Exponents are unbounded: overflow to
`inf` and subnormal numbers are not modelled.  `log10` and `pow` are correctly rounded, which real math libraries
only approximate.
-/

namespace Skopt

/-- The distance between neighbouring floating-point numbers of precision `p` around `x`.
(the `np.float64` arithmetic of skopt/space/transformers.py:85-276) -/
noncomputable def ulp (p : ℕ) (x : ℝ) : ℝ := (2 : ℝ) ^ (Int.log 2 |x| + 1 - (p : ℤ))

/-- Rounding to the nearest floating-point number of precision `p`, ties to even.
(the `np.float64` arithmetic of skopt/space/transformers.py:85-276) -/
noncomputable def rnd (p : ℕ) (x : ℝ) : ℝ := roundHalfEven (x / ulp p x) * ulp p x

/-- The real numbers that are floating-point numbers of precision `p`.
(the `np.float64` values of skopt/space/space.py:212-574) -/
def IsBinary (p : ℕ) (x : ℝ) : Prop := ∃ m e : ℤ, |m| ≤ 2 ^ p ∧ x = m * (2 : ℝ) ^ e

/-- Floating-point numbers of precision `p`.  (the `np.float64` values of skopt/space/space.py:212-574) -/
abbrev Bin (p : ℕ) := {x : ℝ // IsBinary p x}

theorem ulp_pos (p : ℕ) (x : ℝ) : 0 < ulp p x := by unfold ulp; positivity

theorem ulp_spec {p : ℕ} {x : ℝ} (hx : x ≠ 0) :
    (2 : ℝ) ^ ((p : ℤ) - 1) ≤ |x| / ulp p x ∧ |x| / ulp p x < (2 : ℝ) ^ (p : ℤ) := by
  have h1 := Int.zpow_log_le_self (R := ℝ) (b := 2) (r := |x|) (by norm_num) (abs_pos.2 hx)
  have h2 := Int.lt_zpow_succ_log_self (R := ℝ) (b := 2) (by norm_num) |x|
  push_cast at h1 h2
  rw [le_div_iff₀ (ulp_pos p x), div_lt_iff₀ (ulp_pos p x)]
  unfold ulp
  rw [← zpow_add₀ (by norm_num), ← zpow_add₀ (by norm_num)]
  constructor
  · convert h1 using 2; ring
  · convert h2 using 2; ring

theorem rnd_isBinary (p : ℕ) (x : ℝ) : IsBinary p (rnd p x) := by
  by_cases hx : x = 0
  · refine ⟨0, 0, by simp, ?_⟩
    subst hx
    have := roundHalfEven_intCast (K := ℝ) 0
    unfold rnd
    rw [zero_div]
    simp only [Int.cast_zero] at this
    rw [this]
    simp
  · refine ⟨roundHalfEven (x / ulp p x), Int.log 2 |x| + 1 - (p : ℤ), ?_, rfl⟩
    have h := (ulp_spec (p := p) hx).2
    have e : |x| / ulp p x = |x / ulp p x| := by rw [abs_div, abs_of_pos (ulp_pos p x)]
    rw [e, abs_lt, zpow_natCast] at h
    have c : ((2 : ℝ) ^ p) = ((2 ^ p : ℤ) : ℝ) := by push_cast; rfl
    rw [abs_le]
    constructor
    · have := roundHalfEven_mono h.1.le
      rw [c, ← Int.cast_neg, roundHalfEven_intCast] at this
      exact this
    · have := roundHalfEven_mono h.2.le
      rw [c, roundHalfEven_intCast] at this
      exact this

theorem rnd_zero (p : ℕ) : rnd p 0 = 0 := by
  have := roundHalfEven_intCast (K := ℝ) 0
  unfold rnd
  rw [zero_div]
  simp only [Int.cast_zero] at this
  rw [this]
  simp

theorem rnd_err (p : ℕ) (x : ℝ) : |rnd p x - x| ≤ (1 / 2 ^ p) * |x| := by
  by_cases hx : x = 0
  · subst hx; simp [rnd_zero]
  · have hs := ulp_pos p x
    have h1 := roundHalfEven_le (x / ulp p x)
    have h2 := le_roundHalfEven (x / ulp p x)
    have e : rnd p x - x = (roundHalfEven (x / ulp p x) - x / ulp p x) * ulp p x := by
      unfold rnd
      rw [sub_mul, div_mul_cancel₀ _ hs.ne']
    have h3 : |(roundHalfEven (x / ulp p x) : ℝ) - x / ulp p x| ≤ 1 / 2 := by
      rw [abs_le]; constructor <;> linarith
    rw [e, abs_mul, abs_of_pos hs]
    have h4 := (ulp_spec (p := p) hx).1
    rw [le_div_iff₀ hs, zpow_sub₀ (by norm_num), zpow_natCast, zpow_one] at h4
    calc _ ≤ 1 / 2 * ulp p x := by gcongr
      _ = 1 / 2 ^ p * (2 ^ p / 2 * ulp p x) := by field_simp
      _ ≤ _ := by gcongr

theorem rnd_of_isBinary {p : ℕ} (hp : 1 ≤ p) {x : ℝ} (h : IsBinary p x) : rnd p x = x := by
  by_cases hx : x = 0
  · subst hx; exact rnd_zero p
  suffices ∃ k : ℤ, x / ulp p x = k by
    obtain ⟨k, hk⟩ := this
    unfold rnd
    rw [hk, roundHalfEven_intCast, ← hk, div_mul_cancel₀ _ (ulp_pos p x).ne']
  obtain ⟨m, e, hm, rfl⟩ := h
  set x : ℝ := m * (2 : ℝ) ^ e with hxd
  by_cases he : Int.log 2 |x| + 1 - (p : ℤ) ≤ e
  · refine ⟨m * 2 ^ (e - (Int.log 2 |x| + 1 - (p : ℤ))).toNat, ?_⟩
    push_cast
    rw [← zpow_natCast, Int.toNat_of_nonneg (by omega), zpow_sub₀ (by norm_num)]
    unfold ulp
    rw [hxd, ← mul_div_assoc]
  · have h1 := Int.zpow_log_le_self (R := ℝ) (b := 2) (r := |x|) (by norm_num) (abs_pos.2 hx)
    push_cast at h1
    have h2 : |x| ≤ (2 : ℝ) ^ (p : ℤ) * (2 : ℝ) ^ e := by
      rw [hxd, abs_mul, abs_of_pos (a := (2 : ℝ) ^ e) (by positivity), zpow_natCast]
      have : |(m : ℝ)| ≤ (2 : ℝ) ^ p := by exact_mod_cast hm
      gcongr
    rw [← zpow_add₀ (by norm_num)] at h2
    have h3 : (2 : ℝ) ^ ((p : ℤ) + e) ≤ (2 : ℝ) ^ (Int.log 2 |x|) := zpow_le_zpow_right₀ (by norm_num) (by omega)
    have h4 : |x| = (2 : ℝ) ^ (Int.log 2 |x|) := le_antisymm (h2.trans h3) h1
    have h5 : |x| / ulp p x = ((2 ^ (p - 1) : ℤ) : ℝ) := by
      unfold ulp
      generalize Int.log 2 |x| = L at h4 ⊢
      rw [h4, ← zpow_sub₀ (by norm_num)]
      push_cast
      rw [← zpow_natCast]
      congr 1
      omega
    rcases abs_choice x with ha | ha
    · rw [ha] at h5; exact ⟨_, h5⟩
    · refine ⟨-2 ^ (p - 1), ?_⟩
      rw [ha, neg_div] at h5
      rw [Int.cast_neg, ← h5, neg_neg]

theorem rnd_pos_bounds {p : ℕ} (hp : 1 ≤ p) {x : ℝ} (hx : 0 < x) :
    (2 : ℝ) ^ (Int.log 2 |x|) ≤ rnd p x ∧ rnd p x ≤ (2 : ℝ) ^ (Int.log 2 |x| + 1) := by
  obtain ⟨h1, h2⟩ := ulp_spec (p := p) hx.ne'
  rw [abs_of_pos hx] at h1 h2
  have c1 : ((2 : ℝ) ^ ((p : ℤ) - 1)) = ((2 ^ (p - 1) : ℤ) : ℝ) := by
    push_cast; rw [← zpow_natCast]; congr 1; omega
  have c2 : ((2 : ℝ) ^ (p : ℤ)) = ((2 ^ p : ℤ) : ℝ) := by push_cast; rw [zpow_natCast]
  have g1 := roundHalfEven_mono h1
  have g2 := roundHalfEven_mono h2.le
  rw [c1, roundHalfEven_intCast] at g1
  rw [c2, roundHalfEven_intCast] at g2
  have g1' : ((2 : ℝ) ^ ((p : ℤ) - 1)) ≤ (roundHalfEven (x / ulp p x) : ℝ) := by rw [c1]; exact_mod_cast g1
  have g2' : (roundHalfEven (x / ulp p x) : ℝ) ≤ ((2 : ℝ) ^ (p : ℤ)) := by rw [c2]; exact_mod_cast g2
  have hs := ulp_pos p x
  unfold rnd
  constructor
  · refine le_trans (le_of_eq ?_) (mul_le_mul_of_nonneg_right g1' hs.le)
    unfold ulp
    rw [← zpow_add₀ (by norm_num)]; congr 1; ring
  · refine le_trans (mul_le_mul_of_nonneg_right g2' hs.le) (le_of_eq ?_)
    unfold ulp
    rw [← zpow_add₀ (by norm_num)]; congr 1; ring

theorem rnd_neg_bounds {p : ℕ} (hp : 1 ≤ p) {x : ℝ} (hx : x < 0) :
    -(2 : ℝ) ^ (Int.log 2 |x| + 1) ≤ rnd p x ∧ rnd p x ≤ -(2 : ℝ) ^ (Int.log 2 |x|) := by
  obtain ⟨h1, h2⟩ := ulp_spec (p := p) hx.ne
  rw [abs_of_neg hx, neg_div] at h1 h2
  have c1 : ((2 : ℝ) ^ ((p : ℤ) - 1)) = ((2 ^ (p - 1) : ℤ) : ℝ) := by
    push_cast; rw [← zpow_natCast]; congr 1; omega
  have c2 : ((2 : ℝ) ^ (p : ℤ)) = ((2 ^ p : ℤ) : ℝ) := by push_cast; rw [zpow_natCast]
  have g1 := roundHalfEven_mono (le_neg.1 h1)
  have g2 := roundHalfEven_mono (neg_lt.1 h2).le
  rw [c1, ← Int.cast_neg, roundHalfEven_intCast] at g1
  rw [c2, ← Int.cast_neg, roundHalfEven_intCast] at g2
  have g1' : (roundHalfEven (x / ulp p x) : ℝ) ≤ -((2 : ℝ) ^ ((p : ℤ) - 1)) := by
    rw [c1, ← Int.cast_neg]; exact_mod_cast g1
  have g2' : -((2 : ℝ) ^ (p : ℤ)) ≤ (roundHalfEven (x / ulp p x) : ℝ) := by
    rw [c2, ← Int.cast_neg]; exact_mod_cast g2
  have hs := ulp_pos p x
  unfold rnd
  constructor
  · refine le_trans (le_of_eq ?_) (mul_le_mul_of_nonneg_right g2' hs.le)
    unfold ulp
    rw [neg_mul, ← zpow_add₀ (by norm_num)]; congr 2; ring
  · refine le_trans (mul_le_mul_of_nonneg_right g1' hs.le) (le_of_eq ?_)
    unfold ulp
    rw [neg_mul, ← zpow_add₀ (by norm_num)]; congr 2; ring

theorem rnd_mono {p : ℕ} (hp : 1 ≤ p) : Monotone (rnd p) := by
  intro x y hxy
  have same : Int.log 2 |x| = Int.log 2 |y| → rnd p x ≤ rnd p y := by
    intro he
    have : ulp p x = ulp p y := by unfold ulp; rw [he]
    unfold rnd
    rw [this]
    refine mul_le_mul_of_nonneg_right ?_ (ulp_pos p y).le
    exact_mod_cast roundHalfEven_mono (div_le_div_of_nonneg_right hxy (ulp_pos p y).le)
  rcases lt_trichotomy x 0 with hx | rfl | hx
  · have hb := rnd_neg_bounds hp hx
    have hneg : rnd p x ≤ 0 := hb.2.trans (neg_nonpos.2 (by positivity))
    rcases lt_or_ge y 0 with hy | hy
    · by_cases he : Int.log 2 |x| = Int.log 2 |y|
      · exact same he
      · have hle : Int.log 2 |y| ≤ Int.log 2 |x| :=
          Int.log_mono_right (abs_pos.2 hy.ne) (by rw [abs_of_neg hx, abs_of_neg hy]; linarith)
        refine hb.2.trans (le_trans (neg_le_neg ?_) (rnd_neg_bounds hp hy).1)
        exact zpow_le_zpow_right₀ (by norm_num) (by omega)
    · refine hneg.trans ?_
      rcases eq_or_lt_of_le hy with rfl | hy
      · rw [rnd_zero]
      · exact le_trans (by positivity) (rnd_pos_bounds hp hy).1
  · rw [rnd_zero]
    rcases eq_or_lt_of_le hxy with rfl | hy
    · rw [rnd_zero]
    · exact le_trans (by positivity) (rnd_pos_bounds hp hy).1
  · have hy := lt_of_lt_of_le hx hxy
    by_cases he : Int.log 2 |x| = Int.log 2 |y|
    · exact same he
    · have hle : Int.log 2 |x| ≤ Int.log 2 |y| :=
        Int.log_mono_right (abs_pos.2 hx.ne') (by rw [abs_of_pos hx, abs_of_pos hy]; linarith)
      refine (rnd_pos_bounds hp hx).2.trans (le_trans ?_ (rnd_pos_bounds hp hy).1)
      exact zpow_le_zpow_right₀ (by norm_num) (by omega)

/-- The floating-point number nearest to `x`.  (the `np.float64` arithmetic of skopt/space/transformers.py:85-276) -/
noncomputable def Bin.near (p : ℕ) (x : ℝ) : Bin p := ⟨rnd p x, rnd_isBinary p x⟩

/-- Floating-point arithmetic of precision `p`: every operation returns the number nearest to the exact result.
(the `np.float64` arithmetic of skopt/space/transformers.py:85-276; `str` is not used by numeric dimensions) -/
noncomputable def binArith (p : ℕ) : Arith (Bin p) where
  add := fun x y => .near p (x.1 + y.1)
  sub := fun x y => .near p (x.1 - y.1)
  mul := fun x y => .near p (x.1 * y.1)
  div := fun x y => .near p (x.1 / y.1)
  pow := fun b x => .near p (b.1 ^ x.1)
  log10 := fun x => .near p (Real.logb 10 x.1)
  round := fun x => roundHalfEven x.1
  ofInt := fun k => .near p k
  eps := .near p (1 / 10 ^ 8)
  half := .near p (1 / 2)
  str := fun _ => ""

end Skopt

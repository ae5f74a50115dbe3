import Verif.Basic
import Mathlib.Analysis.SpecialFunctions.Log.Base
import Mathlib.Analysis.SpecialFunctions.Pow.Real
import Mathlib.Algebra.Order.Floor.Ring
import Mathlib.Data.Rat.Floor

/-!
# Exact arithmetic

`exact : Arith ℝ` interprets the floating point primitives by the real functions they approximate;
round trip and metric laws are stated for it.  `ratArith : Arith ℚ` is the computable counterpart
(used to evaluate concrete examples; it has no logarithm, so only uniform priors are evaluated
with it).
-/

namespace Skopt

/-- `np.round` / Python 3 `round`: nearest integer, ties to even.
(skopt/space/space.py:535-538 and transformers.py:217, 262, 275) -/
def roundHalfEven {K : Type} [Field K] [LinearOrder K] [FloorRing K] (x : K) : ℤ :=
  if Int.fract x < 1 / 2 then ⌊x⌋
  else if 1 / 2 < Int.fract x then ⌊x⌋ + 1
  else if ⌊x⌋ % 2 = 0 then ⌊x⌋ else ⌊x⌋ + 1

/-- Exact real arithmetic.  (the arithmetic used throughout skopt/space/transformers.py:85-276) -/
noncomputable def exact : Arith ℝ where
  add := (· + ·)
  sub := (· - ·)
  mul := (· * ·)
  div := (· / ·)
  pow := fun b x => b ^ x
  log10 := Real.logb 10
  round := roundHalfEven
  ofInt := fun k => (k : ℝ)
  eps := 1 / 10 ^ 8
  half := 1 / 2
  str := fun _ => ""

/-- Exact rational arithmetic, for evaluating examples (no logarithms: `log10`, `pow` are not
used by them).  (used for skopt/space/transformers.py:221-276) -/
def ratArith : Arith ℚ where
  add := (· + ·)
  sub := (· - ·)
  mul := (· * ·)
  div := (· / ·)
  pow := fun b _ => b
  log10 := fun x => x
  round := roundHalfEven
  ofInt := fun k => (k : ℚ)
  eps := 1 / 10 ^ 8
  half := 1 / 2
  str := fun x => toString x.num ++ "/" ++ toString x.den

section
variable {K : Type} [Field K] [LinearOrder K] [IsStrictOrderedRing K] [FloorRing K]

theorem roundHalfEven_intCast (k : ℤ) : roundHalfEven (k : K) = k := by
  have h : (0 : K) < 1 / 2 := by positivity
  simp [roundHalfEven]

theorem roundHalfEven_le (x : K) : (roundHalfEven x : K) ≤ x + 1 / 2 := by
  have h1 := Int.self_sub_floor x
  unfold roundHalfEven
  split
  · have := Int.floor_le x
    have : (0 : K) < 1 / 2 := by positivity
    linarith
  · rename_i h
    have h := not_lt.1 h
    split
    · push_cast; rw [← Int.self_sub_floor] at h; linarith [h]
    · split
      · have := Int.floor_le x
        have : (0 : K) < 1 / 2 := by positivity
        linarith
      · push_cast; rw [← Int.self_sub_floor] at h; linarith [h]

theorem le_roundHalfEven (x : K) : x - 1 / 2 ≤ (roundHalfEven x : K) := by
  have hlt := Int.fract_lt_one x
  unfold roundHalfEven
  split
  · rename_i h
    rw [← Int.self_sub_floor] at h; linarith [h]
  · split
    · push_cast; rw [← Int.self_sub_floor] at hlt
      have : (0 : K) < 1 / 2 := by positivity
      linarith
    · rename_i h
      have h := not_lt.1 h
      rw [← Int.self_sub_floor] at h hlt
      have : (0 : K) < 1 / 2 := by positivity
      split
      · linarith
      · push_cast; linarith

/-- An integer closer than one half is what rounding returns. -/
theorem roundHalfEven_of_abs_lt {x : K} {k : ℤ} (h : |x - k| < 1 / 2) : roundHalfEven x = k := by
  rw [abs_lt] at h
  have h1 := roundHalfEven_le x
  have h2 := le_roundHalfEven x
  have e : (1 : K) / 2 + 1 / 2 = 1 := by ring
  have a : (roundHalfEven x : K) < ((k + 1 : ℤ) : K) := by push_cast; linarith [h.1, h.2]
  have b : ((k - 1 : ℤ) : K) < (roundHalfEven x : K) := by push_cast; linarith [h.1, h.2]
  have a' := Int.cast_lt.1 a
  have b' := Int.cast_lt.1 b
  omega

theorem roundHalfEven_mono : Monotone (roundHalfEven : K → ℤ) := by
  intro x y hxy
  rcases eq_or_lt_of_le hxy with rfl | hlt
  · exact le_rfl
  by_contra hcon
  push Not at hcon
  have h1 := roundHalfEven_le x
  have h2 := le_roundHalfEven y
  have e : (1 : K) / 2 + 1 / 2 = 1 := by ring
  have h3 : ((roundHalfEven y + 1 : ℤ) : K) ≤ (roundHalfEven x : K) := Int.cast_le.2 hcon
  push_cast at h3
  linarith

end

end Skopt

import Verif.Props.SobolNet
import Verif.Props.SobolBudget

/-!
# C113: the warning of the Sobol generator about unbalanced designs
-/

namespace Skopt

variable {F : Type}

theorem and_pred_eq_zero (m : Nat) : m &&& (m - 1) = 0 ↔ m = 0 ∨ ∃ k, m = 2 ^ k := by
  by_cases h0 : m = 0
  · subst h0; simp
  · rw [Nat.and_sub_one_eq_zero_iff_isPowerOfTwo h0]
    unfold Nat.isPowerOfTwo
    tauto

theorem Sobol.run_counts [LinearOrder F] (A : Arith F) (mod1 : F → F) (history : List (List (Dim F) × Nat × List F)) :
    ∀ s : Sobol, (s.run A mod1 history).numGenerated = s.numGenerated + handedOut A mod1 s history := by
  induction history with
  | nil => intro s; rfl
  | cons c cs ih =>
    intro s
    have h1 := (Sobol.generate_counts A mod1 s c.1 c.2.1 c.2.2).1
    have h2 := ih (s.generate A mod1 c.1 c.2.1 c.2.2).1
    rw [h1] at h2
    rw [handedOut, ← Nat.add_assoc]
    exact h2

/-- **C113, when the code warns.**  After any history of calls, `generate(…, n)` warns exactly when the number of points
handed out so far together with `n` is neither zero nor a power of two.  For the first call this is the documented
criterion. -/
theorem C113_warning_partial [LinearOrder F] (A : Arith F) (mod1 : F → F) (skip : Nat) (randomize : Bool) (s : Sobol)
    (hs : Sobol.new skip randomize = .ok s) (history : List (List (Dim F) × Nat × List F)) (n : Nat) :
    ((s.run A mod1 history).warns n = false ↔
      handedOut A mod1 s history + n = 0 ∨ ∃ k, handedOut A mod1 s history + n = 2 ^ k) ∧
    (1 ≤ n → (s.warns n = false ↔ ∃ k, n = 2 ^ k)) := by
  have h0 : s.numGenerated = 0 := (Sobol.new_between hs).2.2.2
  have key : ∀ t : Sobol, t.warns n = false ↔ t.numGenerated + n = 0 ∨ ∃ k, t.numGenerated + n = 2 ^ k := by
    intro t
    rw [← and_pred_eq_zero]
    simp [Sobol.warns]
  refine ⟨?_, fun hn => ?_⟩
  · rw [key, Sobol.run_counts, h0, Nat.zero_add]
  · rw [key, h0, Nat.zero_add]
    constructor
    · rintro (h | h)
      · omega
      · exact h
    · exact Or.inr

/-- Meets the hypotheses of `C113_warning_partial`: with skip 16, a first call for eight points does not warn. -/
example : (({ skip := 16, randomize := false } : Sobol).warns 8 = false) :=
  ((C113_warning_partial ratArith id 16 false _ rfl [] 8).2 (by norm_num)).2 ⟨3, rfl⟩

/-- **C113, no warning, balanced design.**  If the first call of a generator without random shift does not warn, its `n`
points are balanced: with the first dimension cut into `2^a` and the second into `2^b` equal parts, at most `n` boxes,
each box holds exactly `n / 2^(a+b)` points. -/
theorem C113_balanced_partial (skip : Nat) (s : Sobol) (hs : Sobol.new skip false = .ok s) (ds : List (RealDim ℝ))
    (h2 : 2 ≤ ds.length) (h40 : ds.length ≤ 40) (hd : ∀ d ∈ ds, PlainReal d) (n : Nat) (shift : List ℝ) (hn : 1 ≤ n)
    (hmax : skip + n ≤ 2 ^ 30 - 1) (hbud : skip ≠ 0 → n ≤ skip) (hw : s.warns n = false) (a b i j : Nat)
    (hab : 2 ^ (a + b) ≤ n) (hi : i < 2 ^ a) (hj : j < 2 ^ b) :
    ∃ pts, (s.generate exact Int.fract (ds.map Dim.real) n shift).2.2 = .ok pts ∧ pts.length = n ∧
      spaceBoxCount ds ((2 ^ a, i) :: (2 ^ b, j) :: List.replicate (ds.length - 2) (1, 0)) pts * 2 ^ (a + b) = n := by
  obtain ⟨k, rfl⟩ := ((C113_warning_partial exact Int.fract skip false s hs [] n).2 hn).1 hw
  have hk : k ≤ 30 := by
    by_contra hc
    have : 2 ^ 31 ≤ 2 ^ k := Nat.pow_le_pow_right (by norm_num) (by omega)
    omega
  have hle : a + b ≤ k := (Nat.pow_le_pow_iff_right (by norm_num)).1 hab
  obtain ⟨pts, h1, h2, h3, h4⟩ := C98_sobol_boxes skip s hs ds h2 h40 hd (2 ^ k) shift hn hmax hbud a b i j (by omega) hi hj
  refine ⟨pts, h1, h2, ?_⟩
  obtain ⟨m, rfl⟩ := Nat.exists_eq_add_of_le hle
  have hp : 0 < 2 ^ (a + b) := by positivity
  have e1 : 2 ^ (a + b + m) / 2 ^ (a + b) = 2 ^ m := by rw [pow_add, Nat.mul_div_cancel_left _ hp]
  have e2 : (2 ^ (a + b + m) + 2 ^ (a + b) - 1) / 2 ^ (a + b) = 2 ^ m := by
    rw [pow_add _ (a + b) m, Nat.add_sub_assoc hp, Nat.mul_add_div hp, Nat.div_eq_of_lt (by omega), add_zero]
  rw [e1] at h3
  rw [e2] at h4
  rw [le_antisymm h4 h3, pow_add _ (a + b) m, mul_comm]

/-- Meets the hypotheses of `C113_balanced_partial`: sixteen points after a skip of sixteen, `4 × 2` boxes. -/
example : ∃ (s : Sobol) (ds : List (RealDim ℝ)), Sobol.new 16 false = .ok s ∧ 2 ≤ ds.length ∧ ds.length ≤ 40 ∧
    (∀ d ∈ ds, PlainReal d) ∧ s.warns 16 = false ∧ 2 ^ (2 + 1) ≤ 16 := by
  refine ⟨{ skip := 16, randomize := false }, List.replicate 3 ⟨-1, 3, .uniform, 10, .normalize, none, id⟩, rfl,
    by decide, by decide, ?_, by decide, by decide⟩
  intro d hd
  rw [List.eq_of_mem_replicate hd]
  exact ⟨by norm_num, rfl, rfl, Or.inr rfl⟩

/-- `Real(0, 8)`. -/
def eightDims : List (Dim ℚ) := [.real ⟨0, 8, .uniform, 10, .identity, none, id⟩]

/-- **C113 is false from the second call on**: every call starts the sequence again, but points of earlier calls are
counted.  After three points five are handed out without a warning although three of them are below 4 and two are not;
after one point four are handed out with a warning although there is one in every quarter. -/
theorem C113_refuted_later_calls :
    let s : Sobol := { skip := 0, randomize := false }
    let s3 := s.run ratArith id [(eightDims, 3, [])]
    let s1 := s.run ratArith id [(eightDims, 1, [])]
    (s3.warns 5 = false ∧
      (s3.generate ratArith id eightDims 5 []).2.2 = .ok [[.num 0], [.num 4], [.num 6], [.num 2], [.num 3]]) ∧
    s1.warns 4 = true ∧
      (s1.generate ratArith id eightDims 4 []).2.2 = .ok [[.num 0], [.num 4], [.num 6], [.num 2]] := by
  decide +kernel

end Skopt

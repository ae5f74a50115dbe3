import Verif.Lemmas.Sieve
import Verif.Spec.Sampler
import Verif.Model.Exact
import Mathlib.Algebra.Order.Floor.Semiring
import Mathlib.Data.Fintype.EquivFin

/-!
# Lemmas about van der Corput samples
-/

namespace Skopt

theorem radicalInverse_zero (b : Nat) : radicalInverse b 0 = 0 := by
  simp [radicalInverse]

theorem radicalInverse_step {b : Nat} (hb : 1 < b) (i : Nat) :
    radicalInverse b i = (((i % b : Nat) : ℝ) + radicalInverse b (i / b)) / b := by
  rcases Nat.eq_zero_or_pos i with rfl | hi
  · simp [radicalInverse]
  · unfold radicalInverse
    rw [Nat.digits_def' hb hi]
    rfl

theorem radicalInverse_range {b : Nat} (hb : 1 < b) (i : Nat) :
    0 ≤ radicalInverse b i ∧ radicalInverse b i < 1 := by
  have hb' : (1 : ℝ) < b := by exact_mod_cast hb
  induction i using Nat.strong_induction_on with
  | _ i ih =>
  rcases Nat.eq_zero_or_pos i with rfl | hi
  · rw [radicalInverse_zero]; norm_num
  · rw [radicalInverse_step hb]
    obtain ⟨h1, h2⟩ := ih (i / b) (Nat.div_lt_self hi hb)
    have hm : ((i % b : Nat) : ℝ) + 1 ≤ b := by
      have := Nat.mod_lt i (by omega : 0 < b)
      exact_mod_cast this
    constructor
    · positivity
    · rw [div_lt_one (by linarith)]
      linarith

/-- The loop computes `out + radicalInverse(idx) * b / base`. -/
theorem vdcLoop_exact {b : Nat} (hb : 1 < b) (i : Nat) (base out : ℝ) (hbase : base ≠ 0) :
    vdcLoop exact b (i : ℤ) base out = out + radicalInverse b i * (b / base) := by
  have hb' : (1 : ℝ) < b := by exact_mod_cast hb
  induction i using Nat.strong_induction_on generalizing base out with
  | _ i ih =>
  rw [vdcLoop]
  have hdiv : (i : ℤ) / (b : ℤ) = ((i / b : Nat) : ℤ) := by simp
  have hmod : (i : ℤ) % (b : ℤ) = ((i % b : Nat) : ℤ) := by simp
  rw [hdiv, hmod]
  by_cases h : 1 < b ∧ 0 < ((i / b : Nat) : ℤ)
  · rw [dif_pos h]
    have hpos : 0 < i / b := by exact_mod_cast h.2
    have hi : 0 < i := by
      rcases Nat.eq_zero_or_pos i with rfl | hi
      · simp at hpos
      · exact hi
    rw [ih (i / b) (Nat.div_lt_self hi hb) _ _ (by
      show base * _ ≠ 0
      refine mul_ne_zero hbase ?_
      show ((b : ℤ) : ℝ) ≠ 0
      exact_mod_cast (by omega : b ≠ 0))]
    rw [radicalInverse_step hb i]
    show out + (((i % b : Nat) : ℤ) : ℝ) / base + _ * (_ / (base * ((b : ℤ) : ℝ))) = _
    simp only [Int.cast_natCast]
    field_simp
    ring
  · rw [dif_neg h]
    have hz : i / b = 0 := by
      by_contra hne
      exact h ⟨hb, by exact_mod_cast Nat.pos_of_ne_zero hne⟩
    rw [radicalInverse_step hb i, hz, radicalInverse_zero]
    show out + (((i % b : Nat) : ℤ) : ℝ) / base = _
    simp only [Int.cast_natCast]
    field_simp
    ring

theorem vanDerCorput_exact {b : Nat} (hb : 1 < b) (i : Nat) :
    vanDerCorput exact b (i : ℤ) = .ok (radicalInverse b i) := by
  have hb' : (b : ℝ) ≠ 0 := by exact_mod_cast (by omega : b ≠ 0)
  unfold vanDerCorput
  rw [if_pos hb, vdcLoop_exact hb]
  · show Except.ok (((0 : ℤ) : ℝ) + radicalInverse b i * ((b : ℝ) / ((b : ℤ) : ℝ))) = _
    simp [hb']
  · show ((b : ℤ) : ℝ) ≠ 0
    exact_mod_cast hb'

/-- The integer formed by the `k` lowest digits of `i` in reversed order. -/
def revDigits (b : Nat) : Nat → Nat → Nat
  | 0, _ => 0
  | k + 1, i => b ^ k * (i % b) + revDigits b k (i / b)

theorem revDigits_lt {b : Nat} (hb : 1 < b) (k i : Nat) : revDigits b k i < b ^ k := by
  induction k generalizing i with
  | zero => simp [revDigits]
  | succ k ih =>
    have h1 := ih (i / b)
    have h2 : i % b + 1 ≤ b := Nat.mod_lt i (by omega)
    have h3 : b ^ k * (i % b + 1) ≤ b ^ k * b := Nat.mul_le_mul_left _ h2
    rw [revDigits, pow_succ]
    rw [Nat.mul_add] at h3
    omega

/-- The sample lies in the stratum given by the reversed digits. -/
theorem radicalInverse_stratum {b : Nat} (hb : 1 < b) (k i : Nat) :
    (revDigits b k i : ℝ) ≤ radicalInverse b i * (b : ℝ) ^ k ∧
      radicalInverse b i * (b : ℝ) ^ k < revDigits b k i + 1 := by
  have hb' : (b : ℝ) ≠ 0 := by exact_mod_cast (by omega : b ≠ 0)
  induction k generalizing i with
  | zero =>
    have := radicalInverse_range hb i
    simpa [revDigits] using this
  | succ k ih =>
    obtain ⟨h1, h2⟩ := ih (i / b)
    rw [radicalInverse_step hb i, revDigits]
    have e : (((i % b : Nat) : ℝ) + radicalInverse b (i / b)) / b * (b : ℝ) ^ (k + 1) =
        (b : ℝ) ^ k * ((i % b : Nat) : ℝ) + radicalInverse b (i / b) * (b : ℝ) ^ k := by
      rw [pow_succ]; field_simp
    rw [e]
    push_cast
    constructor <;> linarith

theorem revDigits_inj {b : Nat} (hb : 1 < b) (k i i' : Nat) (h : revDigits b k i = revDigits b k i') :
    i % b ^ k = i' % b ^ k := by
  induction k generalizing i i' with
  | zero => simp [Nat.mod_one]
  | succ k ih =>
    rw [revDigits, revDigits] at h
    have h1 := revDigits_lt hb k (i / b)
    have h2 := revDigits_lt hb k (i' / b)
    have hpos : 0 < b ^ k := by positivity
    have hq : i % b = i' % b := by
      have a := congrArg (· / b ^ k) h
      simpa [Nat.mul_add_div hpos, Nat.div_eq_of_lt h1, Nat.div_eq_of_lt h2] using a
    have hr : revDigits b k (i / b) = revDigits b k (i' / b) := by rw [hq] at h; omega
    have := ih _ _ hr
    rw [pow_succ, mul_comm, Nat.mod_mul, Nat.mod_mul, hq, this]

theorem radicalInverse_injective {b : Nat} (hb : 1 < b) {i i' : Nat}
    (h : radicalInverse b i = radicalInverse b i') : i = i' := by
  have hk : ∀ k, revDigits b k i = revDigits b k i' := by
    intro k
    obtain ⟨a1, a2⟩ := radicalInverse_stratum hb k i
    obtain ⟨b1, b2⟩ := radicalInverse_stratum hb k i'
    rw [← h] at b1 b2
    have c1 : (revDigits b k i : ℝ) < revDigits b k i' + 1 := by linarith
    have c2 : (revDigits b k i' : ℝ) < revDigits b k i + 1 := by linarith
    have c1' : revDigits b k i < revDigits b k i' + 1 := by exact_mod_cast c1
    have c2' : revDigits b k i' < revDigits b k i + 1 := by exact_mod_cast c2
    omega
  have := revDigits_inj hb (i + i' + 1) i i' (hk _)
  have hlt : i + i' + 1 < b ^ (i + i' + 1) := Nat.lt_pow_self hb
  rwa [Nat.mod_eq_of_lt (by omega), Nat.mod_eq_of_lt (by omega)] at this

/-- `b ^ k` consecutive indices hit every stratum exactly once. -/
theorem radicalInverse_stratified {b : Nat} (hb : 1 < b) (k m j : Nat) (hj : j < b ^ k) :
    ∃! i, m ≤ i ∧ i < m + b ^ k ∧ InStratum (b ^ k) j (radicalInverse b i) := by
  have hpos : 0 < b ^ k := by positivity
  have hposR : (0 : ℝ) < ((b ^ k : Nat) : ℝ) := by exact_mod_cast hpos
  have hin : ∀ i, InStratum (b ^ k) j (radicalInverse b i) ↔ revDigits b k i = j := by
    intro i
    obtain ⟨a1, a2⟩ := radicalInverse_stratum hb k i
    unfold InStratum
    rw [div_le_iff₀ hposR, lt_div_iff₀ hposR]
    push_cast
    constructor
    · rintro ⟨h1, h2⟩
      have c1 : (j : ℝ) < revDigits b k i + 1 := by linarith
      have c2 : (revDigits b k i : ℝ) < j + 1 := by linarith
      have c1' : j < revDigits b k i + 1 := by exact_mod_cast c1
      have c2' : revDigits b k i < j + 1 := by exact_mod_cast c2
      omega
    · rintro rfl
      exact ⟨a1, a2⟩
  let f : Fin (b ^ k) → Fin (b ^ k) := fun t => ⟨revDigits b k (m + t), revDigits_lt hb _ _⟩
  have hinj : Function.Injective f := by
    intro s t hst
    have h1 := revDigits_inj hb k _ _ (Fin.mk.inj_iff.1 hst)
    have h2 : m + (s : Nat) ≡ m + t [MOD b ^ k] := h1
    have h3 := Nat.ModEq.add_left_cancel' m h2
    have h4 : (s : Nat) % b ^ k = t % b ^ k := h3
    rw [Nat.mod_eq_of_lt s.2, Nat.mod_eq_of_lt t.2] at h4
    exact Fin.ext h4
  have hsurj := Finite.surjective_of_injective hinj
  obtain ⟨t, ht⟩ := hsurj ⟨j, hj⟩
  refine ⟨m + t, ⟨by omega, by have := t.2; omega, (hin _).2 (Fin.mk.inj_iff.1 ht)⟩, ?_⟩
  rintro i ⟨h1, h2, h3⟩
  have hi : f ⟨i - m, by omega⟩ = f t := by
    rw [ht]
    refine Fin.ext ?_
    show revDigits b k (m + (i - m)) = j
    rw [show m + (i - m) = i by omega]
    exact (hin i).1 h3
  have := Fin.mk.inj_iff.1 (hinj hi)
  have h' : i - m = (t : Nat) := this
  omega

end Skopt

import Verif.Lemmas.SobolAlgebra
import Verif.Props.SobolNet
import Mathlib.Data.ZMod.Basic
import Mathlib.Algebra.Field.ZMod

/-!
# C105: Sobol designs in all dimensions
-/

namespace Skopt

open Polynomial

/-! ## Polynomials over the field with two elements, written as numbers -/

/-- A binary digit as an element of the field. -/
def bitF (b : Bool) : ZMod 2 := if b then 1 else 0

theorem bitF_xor (a b : Bool) : bitF (a ^^ b) = bitF a + bitF b := by
  cases a <;> cases b <;> decide

theorem bitF_inj {a b : Bool} : bitF a = bitF b ↔ a = b := by
  cases a <;> cases b <;> decide

/-- The polynomial whose coefficients are the binary digits of the number. -/
noncomputable def bitPoly (q : Nat) : (ZMod 2)[X] := ∑ i ∈ Finset.range (q + 1), C (bitF (q.testBit i)) * X ^ i

theorem bitPoly_coeff (q i : Nat) : (bitPoly q).coeff i = bitF (q.testBit i) := by
  unfold bitPoly
  rw [finsetSum_coeff]
  simp only [coeff_C_mul_X_pow]
  rw [Finset.sum_ite_eq]
  split
  · rfl
  · next h =>
    rw [Nat.testBit_lt_two_pow]
    · rfl
    · rw [Finset.mem_range] at h
      calc q < 2 ^ q := Nat.lt_two_pow_self
        _ ≤ 2 ^ i := Nat.pow_le_pow_right (by norm_num) (by omega)

theorem bitPoly_xor (a b : Nat) : bitPoly (a ^^^ b) = bitPoly a + bitPoly b := by
  ext i
  rw [coeff_add, bitPoly_coeff, bitPoly_coeff, bitPoly_coeff, Nat.testBit_xor, bitF_xor]

theorem bitPoly_shiftLeft (a n : Nat) : bitPoly (a <<< n) = X ^ n * bitPoly a := by
  ext i
  rw [bitPoly_coeff, coeff_X_pow_mul', bitPoly_coeff, Nat.testBit_shiftLeft]
  by_cases h : n ≤ i
  · simp [h]
  · simp [h, bitF]

theorem bitPoly_one : bitPoly 1 = 1 := by
  ext i
  rw [bitPoly_coeff, coeff_one]
  cases i with
  | zero => rfl
  | succ i => rw [Nat.testBit_lt_two_pow (Nat.one_lt_two_pow (by omega)), if_neg (by omega)]; rfl

/-- Euclid's algorithm, deciding whether two polynomials are coprime. -/
def coprimeBits : Nat → Nat → Nat → Bool
  | 0, _, _ => false
  | fuel + 1, a, b =>
    if b = 1 then true
    else if a < b then coprimeBits fuel b a
    else coprimeBits fuel (a ^^^ (b <<< (Nat.log2 a - Nat.log2 b))) b

theorem coprimeBits_sound : ∀ (fuel a b : Nat), coprimeBits fuel a b = true → IsCoprime (bitPoly a) (bitPoly b)
  | 0, _, _, h => by simp [coprimeBits] at h
  | fuel + 1, a, b, h => by
      unfold coprimeBits at h
      split at h
      · next hb => rw [hb, bitPoly_one]; exact isCoprime_one_right
      · split at h
        · exact (coprimeBits_sound fuel b a h).symm
        · have := coprimeBits_sound fuel _ b h
          rw [bitPoly_xor, bitPoly_shiftLeft] at this
          exact (IsCoprime.add_mul_right_left_iff).1 this

/-! ## The polynomials of the table -/

/-- The polynomial of coordinate `r`; the first coordinate, for which the code has a case of its own, belongs to `X`. -/
def sobolCode (r : Nat) : Nat := if r = 0 then 2 else sobolPoly.getD r 0

/-- The degrees of the polynomials: one, one, two, then two of degree three, two of degree four, six of degree five,
six of degree six, eighteen of degree seven and three of degree eight. -/
def sobolDegree (r : Nat) : Nat :=
  if r < 2 then 1 else if r < 3 then 2 else if r < 5 then 3 else if r < 7 then 4 else if r < 13 then 5
  else if r < 19 then 6 else if r < 37 then 7 else 8

theorem sobolCode_degree : ∀ r < 40, (sobolCode r).testBit (sobolDegree r) = true ∧
    sobolCode r < 2 ^ (sobolDegree r + 1) := by
  decide +kernel

theorem sobolCode_coprime : ∀ r < 40, ∀ r' < 40, r ≠ r' → coprimeBits 40 (sobolCode r) (sobolCode r') = true := by
  decide +kernel

/-- The recurrence of the direction numbers. -/
theorem sobolV_step : ∀ r < 40, ∀ j < 30 - sobolDegree r, sobolV r (j + sobolDegree r) =
    (List.range (sobolDegree r)).foldl (fun acc i => acc ^^^ if (sobolCode r).testBit i then sobolV r (j + i) else 0)
      (sobolV r j >>> sobolDegree r) := by
  decide +kernel

theorem sobolDegree_pos (r : Nat) : 1 ≤ sobolDegree r ∧ sobolDegree r ≤ 8 := by
  unfold sobolDegree
  split_ifs <;> omega

theorem bitPoly_natDegree {q e : Nat} (h1 : q.testBit e = true) (h2 : q < 2 ^ (e + 1)) : (bitPoly q).natDegree = e := by
  refine natDegree_eq_of_le_of_coeff_ne_zero ?_ ?_
  · rw [natDegree_le_iff_coeff_eq_zero]
    intro i hi
    rw [bitPoly_coeff, Nat.testBit_lt_two_pow (lt_of_lt_of_le h2 (Nat.pow_le_pow_right (by norm_num) hi))]
    rfl
  · rw [bitPoly_coeff, h1]
    decide

theorem bitPoly_monic {q e : Nat} (h1 : q.testBit e = true) (h2 : q < 2 ^ (e + 1)) : (bitPoly q).Monic := by
  rw [Monic, leadingCoeff, bitPoly_natDegree h1 h2, bitPoly_coeff, h1]
  rfl

/-! ## The generator matrices -/

/-- Column `j` of the generator matrix of coordinate `r`, continued beyond the thirty columns of the code. -/
def sobolColumn (r : Nat) (j : Nat) : Nat → ZMod 2 :=
  if h : j < sobolDegree r then fun k => bitF ((sobolV r j).testBit (29 - k))
  else fun k => (∑ i : Fin (sobolDegree r), bitF ((sobolCode r).testBit i) * sobolColumn r (j - sobolDegree r + i) k) +
    if sobolDegree r ≤ k then sobolColumn r (j - sobolDegree r) (k - sobolDegree r) else 0
termination_by j
decreasing_by
  · have := i.2; omega
  · have := (sobolDegree_pos r).1; omega

theorem sobolColumn_init {r j : Nat} (h : j < sobolDegree r) (k : Nat) :
    sobolColumn r j k = bitF ((sobolV r j).testBit (29 - k)) := by
  rw [sobolColumn, dif_pos h]

theorem sobolColumn_step (r j k : Nat) : sobolColumn r (j + sobolDegree r) k =
    (∑ i ∈ Finset.range (sobolDegree r), bitF ((sobolCode r).testBit i) * sobolColumn r (j + i) k) +
    if sobolDegree r ≤ k then sobolColumn r j (k - sobolDegree r) else 0 := by
  rw [sobolColumn, dif_neg (by omega), Nat.add_sub_cancel, Finset.sum_range]

theorem testBit_foldl_xor (g : Nat → Nat) (q n : Nat) (V : Nat) : bitF (((List.range n).foldl (fun acc i => acc ^^^ g i) V).testBit q) =
    (∑ i ∈ Finset.range n, bitF ((g i).testBit q)) + bitF (V.testBit q) := by
  induction n with
  | zero => simp
  | succ n ih =>
    rw [List.range_succ, List.foldl_append, List.foldl_cons, List.foldl_nil, Nat.testBit_xor, bitF_xor, ih,
      Finset.sum_range_succ]
    ring

/-- The first thirty columns are those of the code. -/
theorem sobolColumn_eq {r : Nat} (hr : r < 40) (j : Nat) : j < 30 → ∀ k < 30,
    sobolColumn r j k = bitF ((sobolV r j).testBit (29 - k)) := by
  induction j using Nat.strong_induction_on with
  | _ j ih =>
    intro hj k hk
    by_cases h : j < sobolDegree r
    · exact sobolColumn_init h k
    · obtain ⟨i, rfl⟩ := Nat.exists_eq_add_of_le' (show sobolDegree r ≤ j by omega)
      have hpos := (sobolDegree_pos r).1
      rw [sobolColumn_step, sobolV_step r hr i (by omega), testBit_foldl_xor]
      congr 1
      · refine Finset.sum_congr rfl fun l hl => ?_
        rw [Finset.mem_range] at hl
        rw [ih (i + l) (by omega) (by omega) k hk]
        cases (sobolCode r).testBit l <;> simp [bitF]
      · rw [Nat.testBit_shiftRight]
        split
        · next hk' =>
          rw [ih i (by omega) (by omega) _ (by omega)]
          congr 2
          omega
        · rw [Nat.testBit_lt_two_pow (lt_of_lt_of_le (sobolV_lt hr (by omega)) (Nat.pow_le_pow_right (by norm_num) (by omega)))]
          rfl

theorem sobolColumn_triangular {r : Nat} (hr : r < 40) (j : Nat) :
    (∀ k, j < k → sobolColumn r j k = 0) ∧ sobolColumn r j j = 1 := by
  induction j using Nat.strong_induction_on with
  | _ j ih =>
    have hd := sobolDegree_pos r
    by_cases h : j < sobolDegree r
    · constructor
      · intro k hk
        rw [sobolColumn_init h, sobolV_low hr (by omega) (by omega)]
        rfl
      · rw [sobolColumn_init h, sobolV_bit hr (by omega)]
        rfl
    · obtain ⟨i, rfl⟩ := Nat.exists_eq_add_of_le' (show sobolDegree r ≤ j by omega)
      have hz : ∀ k, i + sobolDegree r ≤ k → (∑ l ∈ Finset.range (sobolDegree r), bitF ((sobolCode r).testBit l) *
          sobolColumn r (i + l) k) = 0 := by
        intro k hk
        refine Finset.sum_eq_zero fun l hl => ?_
        rw [Finset.mem_range] at hl
        rw [(ih (i + l) (by omega)).1 k (by omega), mul_zero]
      constructor
      · intro k hk
        rw [sobolColumn_step, hz k (by omega), if_pos (by omega), (ih i (by omega)).1 _ (by omega), add_zero]
      · rw [sobolColumn_step, hz _ le_rfl, if_pos (by omega), Nat.add_sub_cancel, (ih i (by omega)).2, zero_add]

theorem sobol_nutRows {r : Nat} (hr : r < 40) : NutRows (bitPoly (sobolCode r)) (fun k j => sobolColumn r j k) := by
  obtain ⟨h1, h2⟩ := sobolCode_degree r hr
  have hdeg := bitPoly_natDegree h1 h2
  refine ⟨bitPoly_monic h1 h2, by rw [hdeg]; exact (sobolDegree_pos r).1, ?_, ?_, ?_⟩
  · intro k
    funext j
    rw [aeval_seqShift, hdeg, Finset.sum_range_succ, bitPoly_coeff, h1, sobolColumn_step]
    simp only [bitPoly_coeff]
    have h2 : ∀ x : ZMod 2, x + x = 0 := by decide
    rw [show bitF true = 1 from rfl, one_mul, ← add_assoc, h2, zero_add]
    split <;> rfl
  · intro k j hj
    exact (sobolColumn_triangular hr j).1 k hj
  · intro k
    exact (sobolColumn_triangular hr k).2

/-! ## Counting -/

theorem sobolT_lin {r : Nat} : ∀ s, s < 2 ^ 30 → sobolT r s = linXor (sobolV r) (sobolT 0 s) 30
  | 0, _ => by rw [sobolT, sobolT, linXor_zero]
  | s + 1, hs => by
      have hj := bitLo0_lt_30 (t := s) (by omega)
      rw [sobolT, sobolT, sobolT_lin s (by omega), sobolV_first_two.1 _ hj, linXor_xor,
        linXor_pow _ hj 30 le_rfl, if_pos hj]

theorem testBit_linXor (V : Nat → Nat) (x q n : Nat) : bitF ((linXor V x n).testBit q) =
    ∑ j ∈ Finset.range n, bitF ((V j).testBit q) * bitF (x.testBit (29 - j)) := by
  induction n with
  | zero => simp [linXor, bitF]
  | succ n ih =>
    rw [linXor, Nat.testBit_xor, bitF_xor, ih, Finset.sum_range_succ]
    congr 1
    cases x.testBit (29 - n) <;> simp [bitF]

/-- The digits of a coordinate of point `s < 2^m` are the generator matrix times the digits of the first coordinate. -/
theorem sobolT_digit {r : Nat} (hr : r < 40) {m s a : Nat} (hm : m ≤ 30) (hs : s < 2 ^ m) (ha : a < 30) :
    bitF ((sobolT r s).testBit (29 - a)) =
      ∑ j : Fin m, sobolColumn r j a * bitF ((sobolT 0 s).testBit (29 - j)) := by
  have hpow : 2 ^ m ≤ 2 ^ 30 := Nat.pow_le_pow_right (by norm_num) hm
  rw [sobolT_lin s (by omega), testBit_linXor, ← Finset.sum_range fun j => sobolColumn r j a *
    bitF ((sobolT 0 s).testBit (29 - j))]
  symm
  rw [← Finset.sum_subset (Finset.range_mono hm)]
  · refine Finset.sum_congr rfl fun j hj => ?_
    rw [Finset.mem_range] at hj
    rw [sobolColumn_eq hr j (by omega) a ha]
  · intro j hj hj'
    rw [Finset.mem_range] at hj hj'
    rw [sobolT_low (by norm_num) hm s hs (29 - j) (by omega)]
    simp [bitF]

theorem shiftRight_eq_iff_digits {x y k : Nat} (hk : k ≤ 30) (hx : x < 2 ^ 30) (hy : y < 2 ^ k) :
    x >>> (30 - k) = y ↔ ∀ a < k, x.testBit (29 - a) = y.testBit (k - 1 - a) := by
  constructor
  · rintro rfl a ha
    rw [Nat.testBit_shiftRight]
    congr 1
    omega
  · intro h
    apply Nat.eq_of_testBit_eq
    intro i
    by_cases hi : i < k
    · have := h (k - 1 - i) (by omega)
      rw [Nat.testBit_shiftRight, show k - 1 - (k - 1 - i) = i by omega] at *
      rw [← this]
      congr 1
      omega
    · rw [Nat.testBit_shiftRight, Nat.testBit_lt_two_pow (lt_of_lt_of_le hx (Nat.pow_le_pow_right (by norm_num) (by omega))),
        Nat.testBit_lt_two_pow (lt_of_lt_of_le hy (Nat.pow_le_pow_right (by norm_num) (by omega)))]

/-- The digits of the first coordinate tell the first `2^m` points apart, and are arbitrary. -/
theorem sobol_digits_bijective {m : Nat} (hm : m ≤ 30) :
    Function.Bijective fun s : Fin (2 ^ m) => fun j : Fin m => bitF ((sobolT 0 s).testBit (29 - j)) := by
  have hpow : 2 ^ m ≤ 2 ^ 30 := Nat.pow_le_pow_right (by norm_num) hm
  rw [Fintype.bijective_iff_injective_and_card]
  constructor
  · intro s s' h
    apply Fin.ext
    refine sobolT_injOn (r := 0) (by norm_num) m hm s s' s.2 s'.2 ?_
    have hlt := sobolT_lt (r := 0) (by norm_num) s' (by have := s'.2; omega)
    have htop : sobolT 0 s' >>> (30 - m) < 2 ^ m := sobolT_top (by norm_num) hm (by have := s'.2; omega)
    rw [shiftRight_eq_iff_digits hm (sobolT_lt (by norm_num) s (by have := s.2; omega)) htop]
    intro a ha
    have := congrFun h ⟨a, ha⟩
    rw [bitF_inj.1 this, Nat.testBit_shiftRight]
    congr 1
    show 29 - a = _
    omega
  · simp

/-- Among the first `2^m` points, every box with `2^k` parts per coordinate, `k` depending on the coordinate, holds the
proportional number of points. -/
theorem sobol_first_block (I : Finset Nat) (hI : ∀ r ∈ I, r < 40) (k y : Nat → Nat) (m : Nat) (hm30 : m ≤ 30)
    (hm : ∑ r ∈ I, (k r + (sobolDegree r - 1)) ≤ m) (hy : ∀ r ∈ I, y r < 2 ^ k r) :
    Nat.count (fun s => ∀ r ∈ I, sobolT r s >>> (30 - k r) = y r) (2 ^ m) = 2 ^ (m - ∑ r ∈ I, k r) := by
  have hpow : 2 ^ m ≤ 2 ^ 30 := Nat.pow_le_pow_right (by norm_num) hm30
  have hkm : ∑ r ∈ I, k r ≤ m := le_trans (Finset.sum_le_sum fun r _ => Nat.le_add_right _ _) hm
  have hk30 : ∀ r ∈ I, k r ≤ 30 := fun r hr =>
    le_trans (le_trans (Finset.single_le_sum (f := k) (fun _ _ => Nat.zero_le _) hr) hkm) hm30
  let M : Matrix (Σ r : I, Fin (k r)) (Fin m) (ZMod 2) := fun i j => sobolColumn i.1 j i.2
  let z : (Σ r : I, Fin (k r)) → ZMod 2 := fun i => bitF ((y i.1).testBit (k i.1 - 1 - i.2))
  have hM : ∀ b : (Σ r : I, Fin (k r)) → ZMod 2, (∀ j, ∑ i, b i * M i j = 0) → b = 0 := by
    intro b hb
    let b' : Nat → Nat → ZMod 2 := fun r a => if h : r ∈ I ∧ a < k r then b ⟨⟨r, h.1⟩, ⟨a, h.2⟩⟩ else 0
    have hb' : ∀ (r : I) (a : Fin (k r)), b' r a = b ⟨r, a⟩ := by
      intro r a
      exact dif_pos ⟨r.2, a.2⟩
    have := rows_independent I (fun r => bitPoly (sobolCode r)) (fun r a j => sobolColumn r j a)
      (fun r hr => sobol_nutRows (hI r hr))
      (fun r hr r' hr' hne => coprimeBits_sound _ _ _ (sobolCode_coprime r (hI r hr) r' (hI r' hr') hne)) k m
      (by
        refine le_trans (le_of_eq (Finset.sum_congr rfl fun r hr => ?_)) hm
        rw [bitPoly_natDegree (sobolCode_degree r (hI r hr)).1 (sobolCode_degree r (hI r hr)).2])
      b' (by
        intro j hj
        rw [← hb ⟨j, hj⟩, Fintype.sum_sigma, ← Finset.sum_coe_sort I fun r => ∑ a ∈ Finset.range (k r),
          b' r a * sobolColumn r j a]
        refine Finset.sum_congr rfl fun r _ => ?_
        rw [Finset.sum_range]
        refine Finset.sum_congr rfl fun a _ => ?_
        rw [hb'])
    funext i
    rw [← hb' i.1 i.2]
    exact this i.1 i.1.2 i.2 i.2.2
  have hcard := card_solutions M hM z
  have hc1 : Fintype.card (Σ r : I, Fin (k r)) = ∑ r ∈ I, k r := by
    rw [Fintype.card_sigma]
    simp only [Fintype.card_fin]
    exact Finset.sum_coe_sort I k
  rw [hc1, Fintype.card_fin, ZMod.card] at hcard
  have hcount : Nat.count (fun s => ∀ r ∈ I, sobolT r s >>> (30 - k r) = y r) (2 ^ m) =
      (Finset.univ.filter fun x : Fin m → ZMod 2 => M.mulVec x = z).card := by
    rw [Nat.count_eq_card_filter_range]
    have hfin : ((Finset.range (2 ^ m)).filter fun s => ∀ r ∈ I, sobolT r s >>> (30 - k r) = y r).card =
        (Finset.univ.filter fun s : Fin (2 ^ m) => ∀ r ∈ I, sobolT r s >>> (30 - k r) = y r).card := by
      symm
      refine Finset.card_bij (fun s _ => s.val) ?_ ?_ ?_
      · intro s hs
        simp only [Finset.mem_filter, Finset.mem_univ, true_and, Finset.mem_range] at hs ⊢
        exact ⟨s.2, hs⟩
      · intro s _ s' _ h
        exact Fin.ext h
      · intro s hs
        simp only [Finset.mem_filter, Finset.mem_range] at hs
        exact ⟨⟨s, hs.1⟩, by simpa using hs.2, rfl⟩
    rw [hfin]
    refine Finset.card_bijective _ (sobol_digits_bijective hm30) fun s => ?_
    simp only [Finset.mem_filter, Finset.mem_univ, true_and]
    have hs30 : s.val < 2 ^ 30 := by have := s.2; omega
    constructor
    · intro h
      funext i
      show ∑ j : Fin m, sobolColumn i.1 j i.2 * bitF ((sobolT 0 s).testBit (29 - j)) = bitF ((y i.1).testBit (k i.1 - 1 - i.2))
      rw [← sobolT_digit (hI i.1 i.1.2) hm30 s.2 (lt_of_lt_of_le i.2.2 (hk30 i.1 i.1.2)),
        (shiftRight_eq_iff_digits (hk30 i.1 i.1.2) (sobolT_lt (hI i.1 i.1.2) s hs30) (hy i.1 i.1.2)).1 (h i.1 i.1.2) i.2 i.2.2]
    · intro h r hr
      rw [shiftRight_eq_iff_digits (hk30 r hr) (sobolT_lt (hI r hr) s hs30) (hy r hr)]
      intro a ha
      have := congrFun h ⟨⟨r, hr⟩, ⟨a, ha⟩⟩
      apply bitF_inj.1
      rw [sobolT_digit (hI r hr) hm30 s.2 (lt_of_lt_of_le ha (hk30 r hr))]
      exact this
  rw [hcount]
  have hsplit : 2 ^ m = 2 ^ (m - ∑ r ∈ I, k r) * 2 ^ (∑ r ∈ I, k r) := by
    rw [← pow_add]; congr 1; omega
  rw [hsplit] at hcard
  exact Nat.eq_of_mul_eq_mul_right (by positivity) hcard

/-- Every aligned block of `K` indices below `2^30` contains exactly `w` indices with the property. -/
def PerBlock (K w : Nat) (P : Nat → Prop) [DecidablePred P] : Prop :=
  ∀ c, (c + 1) * K ≤ 2 ^ 30 → Nat.count (fun t => P (c * K + t)) K = w

theorem sobol_blocks (I : Finset Nat) (hI : ∀ r ∈ I, r < 40) (k y : Nat → Nat) (m : Nat) (hm30 : m ≤ 30)
    (hm : ∑ r ∈ I, (k r + (sobolDegree r - 1)) ≤ m) (hy : ∀ r ∈ I, y r < 2 ^ k r) :
    PerBlock (2 ^ m) (2 ^ (m - ∑ r ∈ I, k r)) fun s => ∀ r ∈ I, sobolT r s >>> (30 - k r) = y r := by
  intro c hc
  have hpos : 0 < 2 ^ m := by positivity
  have e : (c + 1) * 2 ^ m = c * 2 ^ m + 2 ^ m := by ring
  have hkm : ∑ r ∈ I, k r ≤ m := le_trans (Finset.sum_le_sum fun r _ => Nat.le_add_right _ _) hm
  have hk30 : ∀ r ∈ I, k r ≤ 30 := fun r hr =>
    le_trans (le_trans (Finset.single_le_sum (f := k) (fun _ _ => Nat.zero_le _) hr) hkm) hm30
  rw [← sobol_first_block I hI k (fun r => y r ^^^ (sobolT r (c * 2 ^ m) >>> (30 - k r))) m hm30 hm fun r hr =>
    Nat.xor_lt_two_pow (hy r hr) (sobolT_top (hI r hr) (hk30 r hr) (by omega))]
  rw [Nat.count_eq_card_filter_range, Nat.count_eq_card_filter_range]
  congr 1
  refine Finset.filter_congr fun t ht => ?_
  rw [Finset.mem_range] at ht
  refine forall₂_congr fun r _ => ?_
  rw [sobolT_shift r _ c t ht, xor_shift_iff]

theorem PerBlock.count {K w : Nat} {P : Nat → Prop} [DecidablePred P] (h : PerBlock K w P) (hK : 0 < K)
    (hdvd : K ∣ 2 ^ 30) (c n : Nat) (hn : c * K + n < 2 ^ 30) :
    n / K * w ≤ Nat.count (fun i => P (c * K + i)) n ∧ Nat.count (fun i => P (c * K + i)) n ≤ (n + K - 1) / K * w := by
  have hblocks : ∀ q, (c + q) * K ≤ 2 ^ 30 → Nat.count (fun i => P (c * K + i)) (q * K) = q * w := by
    intro q
    induction q with
    | zero => intro _; rw [Nat.zero_mul, Nat.count_zero, Nat.zero_mul]
    | succ q ih =>
      intro hq
      have e : (q + 1) * K = q * K + K := by ring
      have e2 : (c + (q + 1)) * K = (c + q) * K + K := by ring
      rw [e, Nat.count_add, ih (by omega), Nat.succ_mul]
      congr 1
      have := h (c + q) (by rw [Nat.add_assoc]; exact hq)
      have e3 : ∀ t, (c + q) * K + t = c * K + (q * K + t) := fun t => by ring
      simpa only [e3] using this
  have hdm := Nat.div_add_mod n K
  have hr := Nat.mod_lt n hK
  have hcomm : K * (n / K) = n / K * K := Nat.mul_comm _ _
  have e0 : (c + n / K) * K = c * K + n / K * K := by ring
  have h1 : (c + n / K) * K ≤ 2 ^ 30 := by omega
  constructor
  · rw [← hblocks _ h1]
    exact Nat.count_monotone _ (by omega)
  · by_cases h0 : n % K = 0
    · have : n = n / K * K := by omega
      have e1 : Nat.count (fun i => P (c * K + i)) n = n / K * w := by rw [← hblocks _ h1, ← this]
      rw [e1]
      exact Nat.mul_le_mul_right _ (Nat.div_le_div_right (by omega))
    · have e1 : (n + K - 1) / K = n / K + 1 := by
        have e : n + K - 1 = (n % K - 1) + (n / K + 1) * K := by
          have : (n / K + 1) * K = n / K * K + K := by ring
          omega
        rw [e, Nat.add_mul_div_right _ _ hK, Nat.div_eq_of_lt (by omega), Nat.zero_add]
      have hb : (c + (n / K + 1)) * K ≤ 2 ^ 30 := by
        obtain ⟨u, hu⟩ := hdvd
        have hlt : (c + n / K) * K < u * K := by rw [Nat.mul_comm u K, ← hu]; omega
        have := Nat.lt_of_mul_lt_mul_right hlt
        calc (c + (n / K + 1)) * K ≤ u * K := Nat.mul_le_mul_right K (by omega)
          _ = 2 ^ 30 := by rw [hu, Nat.mul_comm]
      rw [e1, ← hblocks _ hb]
      refine Nat.count_monotone _ ?_
      have : (n / K + 1) * K = n / K * K + K := by ring
      omega

/-- The same for windows that a Sobol generator can hand out. -/
theorem PerBlock.count_skip {k w : Nat} {P : Nat → Prop} [DecidablePred P] (h : PerBlock (2 ^ k) w P) (hk : k ≤ 30)
    (skip n : Nat) (hskip : skip = 0 ∨ ∃ m, skip = 2 ^ m) (hn1 : 1 ≤ n) (hbud : skip ≠ 0 → n ≤ skip)
    (hmax : skip + n ≤ 2 ^ 30 - 1) :
    n / 2 ^ k * w ≤ Nat.count (fun i => P (skip + i)) n ∧
    Nat.count (fun i => P (skip + i)) n ≤ (n + 2 ^ k - 1) / 2 ^ k * w := by
  have hpos : 0 < 2 ^ k := by positivity
  have hdvd : 2 ^ k ∣ 2 ^ 30 := pow_dvd_pow 2 hk
  rcases hskip with rfl | ⟨m, rfl⟩
  · have := h.count hpos hdvd 0 n (by omega)
    simpa only [Nat.zero_mul] using this
  · by_cases hkm : k ≤ m
    · have e : 2 ^ m = 2 ^ (m - k) * 2 ^ k := by rw [← pow_add]; congr 1; omega
      have := h.count hpos hdvd (2 ^ (m - k)) n (by omega)
      rw [← e] at this
      exact this
    · have hb := hbud (by positivity)
      have hlt : 2 ^ m * 2 ≤ 2 ^ k := by rw [← pow_succ]; exact Nat.pow_le_pow_right (by norm_num) (by omega)
      rw [Nat.div_eq_of_lt (by omega), Nat.zero_mul]
      refine ⟨Nat.zero_le _, ?_⟩
      have h1 : 1 ≤ (n + 2 ^ k - 1) / 2 ^ k := by
        rw [Nat.le_div_iff_mul_le hpos]; omega
      have h0 := h 0 (by simpa using Nat.pow_le_pow_right (by norm_num) hk)
      simp only [Nat.zero_mul, Nat.zero_add] at h0
      refine le_trans ?_ (Nat.mul_le_mul_right w h1)
      obtain ⟨d, hd⟩ := Nat.exists_eq_add_of_le (show 2 ^ m + n ≤ 2 ^ k by omega)
      rw [hd, Nat.count_add, Nat.count_add] at h0
      omega

/-! ## C105 -/

/-- **C105.** `Sobol(skip, randomize=False).generate` on a space of up to forty uniform `Real` dimensions:
cut every dimension `r` into `2^(k r)` equal parts (`k r = 0` leaves it whole).  Let `t` be the sum of the degrees less
one of the polynomials of the dimensions that are cut.  Then every `2^(Σ k + t)` consecutive points (from a multiple of
that number on) put exactly `2^t` points into every box; so for any number of points that the generator can hand out
every box holds the proportional number of points up to `2^t`. -/
theorem C105_sobol_boxes (skip : Nat) (s : Sobol) (hs : Sobol.new skip false = .ok s)
    (ds : List (RealDim ℝ)) (hne : ds ≠ []) (h40 : ds.length ≤ 40) (hd : ∀ d ∈ ds, PlainReal d) (n : Nat)
    (shift : List ℝ) (hn : 1 ≤ n) (hmax : skip + n ≤ 2 ^ 30 - 1) (hbud : skip ≠ 0 → n ≤ skip)
    (k y : Nat → Nat) (hy : ∀ r < ds.length, y r < 2 ^ k r) (K t : Nat)
    (ht : t = ∑ r ∈ (Finset.range ds.length).filter (fun r => k r ≠ 0), (sobolDegree r - 1))
    (hK : K = (∑ r ∈ Finset.range ds.length, k r) + t) (h30 : K ≤ 30) :
    ∃ pts, (s.generate exact Int.fract (ds.map Dim.real) n shift).2.2 = .ok pts ∧ pts.length = n ∧
      n / 2 ^ K * 2 ^ t ≤ spaceBoxCount ds ((List.range ds.length).map fun r => (2 ^ k r, y r)) pts ∧
      spaceBoxCount ds ((List.range ds.length).map fun r => (2 ^ k r, y r)) pts ≤ (n + 2 ^ K - 1) / 2 ^ K * 2 ^ t := by
  set I := (Finset.range ds.length).filter fun r => k r ≠ 0 with hIdef
  have hI : ∀ r ∈ I, r < 40 := by
    intro r hr
    rw [hIdef, Finset.mem_filter, Finset.mem_range] at hr
    omega
  have hsum : ∑ r ∈ Finset.range ds.length, k r = ∑ r ∈ I, k r := by
    rw [hIdef, Finset.sum_filter_ne_zero]
  have hkr : ∀ r ∈ I, k r ≤ 30 := fun r hr => by
    have := Finset.single_le_sum (f := k) (fun _ _ => Nat.zero_le _) hr
    omega
  have hblocks := sobol_blocks I hI k y K h30 (by rw [Finset.sum_add_distrib]; omega) fun r hr => hy r (by
    rw [hIdef, Finset.mem_filter, Finset.mem_range] at hr
    exact hr.1)
  rw [show K - ∑ r ∈ I, k r = t by omega] at hblocks
  obtain ⟨pts, h1, h2, h3⟩ := sobol_generate_window skip s hs ds hne hd h40 n shift hn hmax hbud
    ((List.range ds.length).map fun r => (2 ^ k r, y r))
    (fun s => ∀ r ∈ I, sobolT r s >>> (30 - k r) = y r) fun s hs => by
      refine inBox_sobolVec h40 hs _ (by simp) _ ?_
      constructor
      · intro h r hr
        rw [← inStratum_sobol (hkr r hr)]
        rw [hIdef, Finset.mem_filter, Finset.mem_range] at hr
        refine h r (2 ^ k r, y r) (by simp [hr.1]) ?_
        intro h
        have := congrArg Prod.fst h
        have h2 : 2 ^ k r ≠ 1 := by
          have := Nat.one_lt_two_pow hr.2
          omega
        exact h2 this
      · intro h r c hc hne
        obtain ⟨hlt, hc'⟩ := List.getElem?_eq_some_iff.1 hc
        simp only [List.length_map, List.length_range] at hlt
        simp only [List.getElem_map, List.getElem_range] at hc'
        subst hc'
        have hk0 : k r ≠ 0 := by
          intro h0
          apply hne
          have := hy r hlt
          rw [h0] at this
          simp only [h0, pow_zero, Prod.mk.injEq, true_and]
          omega
        have hr : r ∈ I := by
          rw [hIdef, Finset.mem_filter, Finset.mem_range]
          exact ⟨hlt, hk0⟩
        exact (inStratum_sobol (hkr r hr)).2 (h r hr)
  have hacc : skip = 0 ∨ ∃ m, skip = 2 ^ m := by
    by_contra hc
    rw [(C26_skip_accepted skip false).2 hc] at hs
    cases hs
  refine ⟨pts, h1, h2, ?_⟩
  rw [h3]
  exact hblocks.count_skip h30 skip n hacc hn hbud hmax

/-- Three dimensions cut into 4, 1 and 8 parts: `t = 1`, so of 64 points (after a skip of 64) two lie in every one of
the 32 boxes; here the box `[1/2, 3/4) × [0, 1) × [5/8, 6/8)` of the unit cube. -/
example : ∃ (s : Sobol) (ds : List (RealDim ℝ)) (k y : Nat → Nat), Sobol.new 64 false = .ok s ∧ ds.length = 3 ∧
    (∀ d ∈ ds, PlainReal d) ∧ (∀ r < ds.length, y r < 2 ^ k r) ∧ k 0 = 2 ∧ k 1 = 0 ∧ k 2 = 3 ∧
    1 = ∑ r ∈ (Finset.range ds.length).filter (fun r => k r ≠ 0), (sobolDegree r - 1) ∧
    6 = (∑ r ∈ Finset.range ds.length, k r) + 1 ∧ 64 / 2 ^ 6 * 2 ^ 1 = 2 ∧ (64 + 2 ^ 6 - 1) / 2 ^ 6 * 2 ^ 1 = 2 := by
  refine ⟨{ skip := 64, randomize := false }, List.replicate 3 ⟨0, 1, .uniform, 10, .identity, none, id⟩,
    fun r => [2, 0, 3].getD r 0, fun r => [2, 0, 5].getD r 0, rfl, rfl, ?_, by decide, rfl, rfl, rfl, by decide, by decide,
    by decide, by decide⟩
  intro d hd
  rw [List.eq_of_mem_replicate hd]
  exact ⟨by norm_num, rfl, rfl, Or.inl rfl⟩

end Skopt

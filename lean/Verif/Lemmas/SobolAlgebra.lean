import Mathlib.Algebra.Polynomial.AlgebraMap
import Mathlib.Algebra.Polynomial.Monic
import Mathlib.RingTheory.Coprime.Lemmas
import Mathlib.LinearAlgebra.Matrix.Rank
import Mathlib.LinearAlgebra.Dimension.Finite
import Mathlib.Tactic.Ring
import Mathlib.Tactic.Linarith

/-!
# Sequences with a linear recurrence

The algebra behind Sobol's theorem: the rows of the generator matrices are sequences on which a polynomial in the
shift operator acts as a shift of the row number.
-/

namespace Skopt

open Polynomial

variable {K : Type} [Field K]

/-- Leaving out the first term of a sequence. -/
def seqShift : (ℕ → K) →ₗ[K] (ℕ → K) where
  toFun f j := f (j + 1)
  map_add' _ _ := rfl
  map_smul' _ _ := rfl

theorem seqShift_pow (n : ℕ) (f : ℕ → K) (j : ℕ) : (seqShift ^ n : Module.End K (ℕ → K)) f j = f (j + n) := by
  induction n generalizing j with
  | zero => rfl
  | succ n ih =>
    rw [pow_succ', Module.End.mul_apply]
    show ((seqShift ^ n : Module.End K (ℕ → K)) f) (j + 1) = _
    rw [ih, Nat.add_assoc, Nat.add_comm 1 n]

theorem aeval_seqShift (p : K[X]) (f : ℕ → K) (j : ℕ) :
    aeval (seqShift : Module.End K (ℕ → K)) p f j = ∑ i ∈ Finset.range (p.natDegree + 1), p.coeff i * f (j + i) := by
  rw [aeval_eq_sum_range, LinearMap.sum_apply, Finset.sum_apply]
  refine Finset.sum_congr rfl fun i _ => ?_
  rw [LinearMap.smul_apply, Pi.smul_apply, seqShift_pow, smul_eq_mul]

/-- A sequence with a recurrence of order at most `m` is zero if its first `m` terms are. -/
theorem zero_of_recurrence {p : K[X]} (hp : p.Monic) {m : ℕ} (hm : p.natDegree ≤ m) {f : ℕ → K}
    (h : aeval (seqShift : Module.End K (ℕ → K)) p f = 0) (h0 : ∀ j < m, f j = 0) : f = 0 := by
  funext j
  induction j using Nat.strong_induction_on with
  | _ j ih =>
    by_cases hj : j < m
    · exact h0 j hj
    · obtain ⟨i, rfl⟩ := Nat.exists_eq_add_of_le' (show p.natDegree ≤ j by omega)
      have e := congrFun h i
      rw [aeval_seqShift, Finset.sum_range_succ, hp.coeff_natDegree, one_mul,
        Finset.sum_eq_zero fun l hl => by rw [ih (i + l) (by have := Finset.mem_range.1 hl; omega)]; simp, zero_add] at e
      exact e

/-- The rows of a generator matrix: unit upper triangular, and the polynomial in the shift operator moves every row up
by the degree of the polynomial. -/
structure NutRows (p : K[X]) (c : ℕ → ℕ → K) : Prop where
  monic : p.Monic
  pos : 0 < p.natDegree
  step : ∀ k, aeval (seqShift : Module.End K (ℕ → K)) p (c k) = if p.natDegree ≤ k then c (k - p.natDegree) else 0
  upper : ∀ k j, j < k → c k j = 0
  diag : ∀ k, c k k = 1

theorem NutRows.annihilated {p : K[X]} {c : ℕ → ℕ → K} (h : NutRows p c) (q k : ℕ) (hk : k < q * p.natDegree) :
    aeval (seqShift : Module.End K (ℕ → K)) (p ^ q) (c k) = 0 := by
  induction q generalizing k with
  | zero => simp at hk
  | succ q ih =>
    rw [pow_succ, map_mul, Module.End.mul_apply, h.step]
    split
    · refine ih _ ?_
      rw [Nat.succ_mul] at hk
      omega
    · rw [map_zero]

theorem NutRows.independent {p : K[X]} {c : ℕ → ℕ → K} (h : NutRows p c) {n : ℕ} {b : ℕ → K}
    (h0 : ∑ a ∈ Finset.range n, b a • c a = 0) : ∀ a < n, b a = 0 := by
  intro a
  induction a using Nat.strong_induction_on with
  | _ a ih =>
    intro ha
    have e := congrFun h0 a
    rw [Finset.sum_apply, Finset.sum_eq_single a] at e
    · simpa [h.diag] using e
    · intro l hl hne
      rcases lt_or_gt_of_ne hne with hlt | hgt
      · rw [ih l hlt (by omega)]; simp
      · simp [h.upper l a hgt]
    · intro h1
      exact absurd (Finset.mem_range.2 ha) h1

/-- Sobol's theorem in terms of the generator matrices: the first `k i` rows of matrix `i`, all together, are linearly
independent in the first `m` columns as soon as `m` reaches the sum of the `k i` and of the degrees less one. -/
theorem rows_independent {ι : Type} [DecidableEq ι] (s : Finset ι) (p : ι → K[X]) (c : ι → ℕ → ℕ → K)
    (h : ∀ i ∈ s, NutRows (p i) (c i)) (hc : ∀ i ∈ s, ∀ j ∈ s, i ≠ j → IsCoprime (p i) (p j)) (k : ι → ℕ) (m : ℕ)
    (hm : ∑ i ∈ s, (k i + ((p i).natDegree - 1)) ≤ m) (b : ι → ℕ → K)
    (h0 : ∀ j < m, ∑ i ∈ s, ∑ a ∈ Finset.range (k i), b i a * c i a j = 0) :
    ∀ i ∈ s, ∀ a < k i, b i a = 0 := by
  let q : ι → ℕ := fun i => (k i + ((p i).natDegree - 1)) / (p i).natDegree
  let w : ι → ℕ → K := fun i => ∑ a ∈ Finset.range (k i), b i a • c i a
  have hq1 : ∀ i ∈ s, k i ≤ q i * (p i).natDegree := by
    intro i hi
    have hpos := (h i hi).pos
    have := Nat.div_add_mod (k i + ((p i).natDegree - 1)) (p i).natDegree
    have := Nat.mod_lt (k i + ((p i).natDegree - 1)) hpos
    have e : q i * (p i).natDegree = (p i).natDegree * ((k i + ((p i).natDegree - 1)) / (p i).natDegree) :=
      Nat.mul_comm _ _
    omega
  have hq2 : ∀ i, q i * (p i).natDegree ≤ k i + ((p i).natDegree - 1) := fun i => Nat.div_mul_le_self _ _
  have hw : ∀ i ∈ s, aeval (seqShift : Module.End K (ℕ → K)) (p i ^ q i) (w i) = 0 := by
    intro i hi
    show aeval (seqShift : Module.End K (ℕ → K)) (p i ^ q i) (∑ a ∈ Finset.range (k i), b i a • c i a) = 0
    rw [map_sum]
    refine Finset.sum_eq_zero fun a ha => ?_
    rw [map_smul, (h i hi).annihilated _ _ (lt_of_lt_of_le (Finset.mem_range.1 ha) (hq1 i hi)), smul_zero]
  have hprod : ∀ t : Finset ι, ∀ i ∈ t, i ∈ s → aeval (seqShift : Module.End K (ℕ → K)) (∏ j ∈ t, p j ^ q j) (w i) = 0 := by
    intro t i hit his
    rw [← Finset.prod_erase_mul _ _ hit, map_mul, Module.End.mul_apply, hw i his, map_zero]
  have hW : ∑ i ∈ s, w i = 0 := by
    refine zero_of_recurrence (p := ∏ j ∈ s, p j ^ q j) (monic_prod_of_monic _ _ fun i hi => (h i hi).monic.pow _)
      (m := m) ?_ ?_ ?_
    · rw [natDegree_prod_of_monic _ _ fun i hi => (h i hi).monic.pow _]
      refine le_trans (Finset.sum_le_sum fun i hi => ?_) hm
      rw [(h i hi).monic.natDegree_pow]
      exact hq2 i
    · rw [map_sum]
      exact Finset.sum_eq_zero fun i hi => hprod s i hi hi
    · intro j hj
      rw [Finset.sum_apply, ← h0 j hj]
      refine Finset.sum_congr rfl fun i _ => ?_
      show (∑ a ∈ Finset.range (k i), b i a • c i a) j = _
      rw [Finset.sum_apply]
      rfl
  intro i hi
  refine (h i hi).independent (n := k i) ?_
  show w i = 0
  have hothers : aeval (seqShift : Module.End K (ℕ → K)) (∏ j ∈ s.erase i, p j ^ q j) (w i) = 0 := by
    have e := congrArg (aeval (seqShift : Module.End K (ℕ → K)) (∏ j ∈ s.erase i, p j ^ q j)) hW
    rw [map_sum, map_zero, Finset.sum_eq_single i] at e
    · exact e
    · intro l hl hne
      exact hprod _ l (Finset.mem_erase.2 ⟨hne, hl⟩) hl
    · intro h1
      exact absurd hi h1
  obtain ⟨u, v, huv⟩ : IsCoprime (p i ^ q i) (∏ j ∈ s.erase i, p j ^ q j) :=
    IsCoprime.prod_right fun j hj => (hc i hi j (Finset.mem_of_mem_erase hj) (Finset.ne_of_mem_erase hj).symm).pow
  have e : aeval (seqShift : Module.End K (ℕ → K)) (u * p i ^ q i + v * ∏ j ∈ s.erase i, p j ^ q j) (w i) = w i := by
    rw [huv, map_one]; rfl
  rw [← e, map_add, map_mul, map_mul, LinearMap.add_apply, Module.End.mul_apply, Module.End.mul_apply, hw i hi, hothers]
  simp

/-- If the rows of a matrix are independent, every right hand side has the same number of solutions. -/
theorem card_solutions [Fintype K] [DecidableEq K] {ι κ : Type} [Fintype ι] [Fintype κ] [DecidableEq ι] [DecidableEq κ]
    (M : Matrix ι κ K) (h : ∀ b : ι → K, (∀ j, ∑ i, b i * M i j = 0) → b = 0) (y : ι → K) :
    (Finset.univ.filter fun x : κ → K => M.mulVec x = y).card * Fintype.card K ^ Fintype.card ι =
      Fintype.card K ^ Fintype.card κ := by
  have hli : LinearIndependent K M.row := by
    rw [Fintype.linearIndependent_iff]
    intro b hb i
    refine congrFun (h b fun j => ?_) i
    have := congrFun hb j
    rw [Finset.sum_apply] at this
    exact this
  have hsurj : ∀ z : ι → K, ∃ x, M.mulVec x = z := by
    have hr := hli.rank_matrix
    unfold Matrix.rank at hr
    have htop : LinearMap.range M.mulVecLin = ⊤ := by
      apply Submodule.eq_top_of_finrank_eq
      rw [hr, Module.finrank_fintype_fun_eq_card]
    intro z
    obtain ⟨x, hx⟩ := LinearMap.range_eq_top.1 htop z
    exact ⟨x, hx⟩
  have hsame : ∀ z : ι → K, (Finset.univ.filter fun x : κ → K => M.mulVec x = z).card =
      (Finset.univ.filter fun x : κ → K => M.mulVec x = y).card := by
    intro z
    obtain ⟨a, ha⟩ := hsurj z
    obtain ⟨b, hb⟩ := hsurj y
    refine Finset.card_bij' (fun x _ => x - a + b) (fun x _ => x - b + a) ?_ ?_ ?_ ?_
    · intro x hx
      simp only [Finset.mem_filter, Finset.mem_univ, true_and] at hx ⊢
      rw [Matrix.mulVec_add, Matrix.mulVec_sub, hx, ha, hb, sub_self, zero_add]
    · intro x hx
      simp only [Finset.mem_filter, Finset.mem_univ, true_and] at hx ⊢
      rw [Matrix.mulVec_add, Matrix.mulVec_sub, hx, ha, hb, sub_self, zero_add]
    · intro x _; simp
    · intro x _; simp
  have htotal := Finset.card_eq_sum_card_fiberwise (s := (Finset.univ : Finset (κ → K))) (t := Finset.univ)
    (f := fun x => M.mulVec x) (fun _ _ => Finset.mem_coe.2 (Finset.mem_univ _))
  rw [Finset.sum_congr rfl fun z _ => hsame z, Finset.sum_const, Finset.card_univ, Finset.card_univ, Fintype.card_fun,
    Fintype.card_fun, smul_eq_mul] at htotal
  rw [htotal, Nat.mul_comm]

end Skopt

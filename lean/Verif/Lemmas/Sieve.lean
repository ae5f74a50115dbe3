import Verif.Model.Halton
import Verif.Lemmas.Basic
import Mathlib.Data.Nat.Prime.Basic
import Mathlib.NumberTheory.Bertrand
import Mathlib.Data.Nat.Prime.Nth

/-!
# Lemmas about the prime sieve of the Halton generator
-/

namespace Skopt

theorem crossOut_length (half idx : Nat) (ns : List Nat) (idy : Nat) :
    (crossOut half idx ns idy).length = ns.length := by
  fun_induction crossOut half idx ns idy with
  | case1 ns idy h ih => rw [ih]; simp
  | case2 => rfl

open Classical in
/-- Crossing out clears exactly the positions `idy + m * (2 idx + 3)` below `half`. -/
theorem crossOut_getElem? (half idx : Nat) (ns : List Nat) (idy i : Nat) (hi : i < half) :
    (crossOut half idx ns idy)[i]? =
      if ∃ m, i = idy + m * (2 * idx + 3) then ns[i]?.map (fun _ => 0) else ns[i]? := by
  fun_induction crossOut half idx ns idy with
  | case1 ns idy h ih =>
    rw [ih]
    by_cases h1 : i = idy
    · subst h1
      rw [if_neg (by rintro ⟨m, hm⟩; omega), if_pos ⟨0, by omega⟩]
      cases hx : ns[i]? with
      | none => simp [List.getElem?_eq_none_iff.1 hx]
      | some x =>
        have := (List.getElem?_eq_some_iff.1 hx).1
        simp [this]
    · have hset : (ns.set idy 0)[i]? = ns[i]? := by
        rw [List.getElem?_set_ne (Ne.symm h1)]
      rw [hset]
      congr 1
      rw [eq_iff_iff]
      constructor
      · rintro ⟨m, hm⟩
        exact ⟨m + 1, by rw [hm]; ring⟩
      · rintro ⟨m, hm⟩
        cases m with
        | zero => exact absurd (by simpa using hm) h1
        | succ m => exact ⟨m, by rw [hm]; ring⟩
  | case2 ns idy h =>
    rw [if_neg]
    rintro ⟨m, hm⟩
    have : 0 ≤ m * (2 * idx + 3) := Nat.zero_le _
    omega

open Classical in
/-- The table after the multiples of all primes below `2 k + 3` have been crossed out. -/
def SieveInv (half k : Nat) (ns : List Nat) : Prop :=
  ns.length = half ∧ ∀ i < half, ns[i]? = some
    (if ∃ p, p.Prime ∧ 2 < p ∧ p < 2 * k + 3 ∧ p * p ≤ 2 * i + 3 ∧ p ∣ 2 * i + 3 then 0
      else 2 * i + 3)

theorem odd_prime_iff {n : Nat} (hn : n % 2 = 1) (h3 : 3 ≤ n) {b : Nat} (hb : n < b * b) :
    n.Prime ↔ ¬ ∃ p, p.Prime ∧ 2 < p ∧ p < b ∧ p * p ≤ n ∧ p ∣ n := by
  constructor
  · rintro hp ⟨p, h1, h2, h3', h4, h5⟩
    have := (Nat.prime_dvd_prime_iff_eq h1 hp).1 h5
    subst this
    nlinarith
  · intro h
    by_contra hnp
    apply h
    have hm := Nat.minFac_prime (n := n) (by omega)
    have hle : n.minFac * n.minFac ≤ n := by
      have := Nat.minFac_sq_le_self (n := n) (by omega) hnp
      rwa [pow_two] at this
    refine ⟨n.minFac, hm, ?_, ?_, hle, Nat.minFac_dvd n⟩
    · have h2 := hm.two_le
      rcases Nat.lt_or_eq_of_le h2 with h | h
      · exact h
      · have hd := Nat.minFac_dvd n
        rw [← h] at hd
        omega
    · by_contra hc
      have : b * b ≤ n.minFac * n.minFac := Nat.mul_self_le_mul_self (by omega)
      omega

open Classical in
theorem sieveLoop_spec (t : Nat) (ns : List Nat) (k : Nat)
    (hinv : SieveInv ((t - 1) / 2) k ns) :
    ∃ out, sieveLoop t ((t - 1) / 2) ns k = .ok out ∧ out.length = (t - 1) / 2 ∧
      ∀ i < (t - 1) / 2, out[i]? = some (if (2 * i + 3).Prime then 2 * i + 3 else 0) := by
  induction hk : t - k using Nat.strong_induction_on generalizing k ns with
  | _ d ih =>
  obtain ⟨hlen, hval⟩ := hinv
  rw [sieveLoop]
  by_cases hc : (2 * k + 3) * (2 * k + 3) ≤ t
  · rw [if_pos hc]
    have hkt : k < t := by nlinarith
    have hkh : k < (t - 1) / 2 := by
      have : 2 * k + 3 + 2 ≤ (2 * k + 3) * (2 * k + 3) := by nlinarith
      omega
    have hget : pyGet ns k = .ok
        (if ∃ p, p.Prime ∧ 2 < p ∧ p < 2 * k + 3 ∧ p * p ≤ 2 * k + 3 ∧ p ∣ 2 * k + 3 then 0
          else 2 * k + 3) := by
      rw [pyGet_eq_ok]; exact hval k hkh
    have hpr := odd_prime_iff (n := 2 * k + 3) (by omega) (by omega) (b := 2 * k + 3)
      (by nlinarith)
    rw [hget, ok_bind]
    by_cases hp : (2 * k + 3).Prime
    · rw [if_neg (hpr.1 hp), if_pos (by omega)]
      have hidy : ((2 * k + 3) * (2 * k + 3) - 3) / 2 = 2 * k * k + 6 * k + 3 := by
        have : (2 * k + 3) * (2 * k + 3) = 2 * (2 * k * k + 6 * k + 3) + 3 := by ring
        omega
      have hidy2 : (2 * k + 3) * (2 * k + 3) = 2 * (2 * k * k + 6 * k + 3) + 3 := by ring
      simp only [hidy]
      rw [if_pos (by omega)]
      refine ih (t - (k + 1)) (by omega) _ (k + 1) ⟨?_, ?_⟩ rfl
      · rw [crossOut_length]; simpa using hlen
      · intro i hi
        rw [crossOut_getElem? _ _ _ _ _ hi]
        -- position idy itself is crossed out by the loop anyway
        have hset : ∀ j, j ≠ 2 * k * k + 6 * k + 3 →
            (ns.set (2 * k * k + 6 * k + 3) 0)[j]? = ns[j]? := fun j hj => by
          rw [List.getElem?_set_ne (Ne.symm hj)]
        by_cases hm : ∃ m, i = 2 * k * k + 6 * k + 3 + m * (2 * k + 3)
        · rw [if_pos hm]
          obtain ⟨m, hm⟩ := hm
          have hfac : 2 * i + 3 = (2 * k + 3) * (2 * k + 3 + 2 * m) := by rw [hm]; ring
          rw [if_pos ⟨2 * k + 3, hp, by omega, by omega, by rw [hfac]; nlinarith,
            by rw [hfac]; exact dvd_mul_right _ _⟩]
          have hlt : i < (ns.set (2 * k * k + 6 * k + 3) 0).length := by simp; omega
          simp [List.getElem?_eq_getElem hlt]
        · rw [if_neg hm, hset i (by rintro rfl; exact hm ⟨0, by omega⟩), hval i hi]
          congr 2
          rw [eq_iff_iff]
          constructor
          · rintro ⟨p, h1, h2, h3, h4, h5⟩
            exact ⟨p, h1, h2, by omega, h4, h5⟩
          · rintro ⟨p, h1, h2, h3, h4, h5⟩
            refine ⟨p, h1, h2, ?_, h4, h5⟩
            by_contra hge
            have hodd : p % 2 = 1 := by
              rcases h1.eq_two_or_odd with h | h
              · omega
              · exact h
            have hpe : p = 2 * k + 3 := by omega
            subst hpe
            obtain ⟨q, hq⟩ := h5
            have hq1 : 2 * k + 3 ≤ q := by
              by_contra hlt
              have : (2 * k + 3) * q < (2 * k + 3) * (2 * k + 3) :=
                Nat.mul_lt_mul_of_pos_left (by omega) (by omega)
              omega
            have hqo : q % 2 = 1 := by
              rcases Nat.mod_two_eq_zero_or_one q with h | h
              · have : (2 * k + 3) * q % 2 = 0 := by rw [Nat.mul_mod, h]; simp
                omega
              · exact h
            refine hm ⟨(q - (2 * k + 3)) / 2, ?_⟩
            have hq2 : q = 2 * k + 3 + 2 * ((q - (2 * k + 3)) / 2) := by omega
            have : 2 * i + 3 = (2 * k + 3) * (2 * k + 3 + 2 * ((q - (2 * k + 3)) / 2)) := by
              rw [hq, ← hq2]
            nlinarith
    · have hex : ∃ p, p.Prime ∧ 2 < p ∧ p < 2 * k + 3 ∧ p * p ≤ 2 * k + 3 ∧ p ∣ 2 * k + 3 := by
        by_contra hcon
        exact hp (hpr.2 hcon)
      rw [if_pos hex, if_neg (by simp)]
      refine ih (t - (k + 1)) (by omega) _ (k + 1) ⟨hlen, ?_⟩ rfl
      intro i hi
      rw [hval i hi]
      congr 2
      rw [eq_iff_iff]
      constructor
      · rintro ⟨p, h1, h2, h3, h4, h5⟩
        exact ⟨p, h1, h2, by omega, h4, h5⟩
      · rintro ⟨p, h1, h2, h3, h4, h5⟩
        refine ⟨p, h1, h2, ?_, h4, h5⟩
        by_contra hge
        have hodd : p % 2 = 1 := by
          rcases h1.eq_two_or_odd with h | h
          · omega
          · exact h
        have hpe : p = 2 * k + 3 := by omega
        subst hpe
        exact hp h1
  · rw [if_neg hc]
    refine ⟨ns, rfl, hlen, ?_⟩
    intro i hi
    rw [hval i hi]
    have hpr := odd_prime_iff (n := 2 * i + 3) (by omega) (by omega) (b := 2 * k + 3) (by omega)
    by_cases hp : (2 * i + 3).Prime
    · rw [if_pos hp, if_neg (hpr.1 hp)]
    · rw [if_neg hp, if_pos]
      by_contra hcon
      exact hp (hpr.2 hcon)

/-- The odd numbers 3, 5, … that are prime are the primes above 2. -/
theorem filter_odd_primes (m : Nat) :
    ((List.range m).map fun i => if (2 * i + 3).Prime then 2 * i + 3 else 0).filter (· ≠ 0) =
      ((List.range (2 * m + 2)).filter Nat.Prime).filter (· ≠ 2) := by
  induction m with
  | zero => decide
  | succ m ih =>
    rw [List.range_succ, List.map_append, List.filter_append, ih]
    have e : 2 * (m + 1) + 2 = 2 * m + 2 + 1 + 1 := by ring
    rw [e, List.range_succ (n := 2 * m + 2 + 1), List.range_succ (n := 2 * m + 2)]
    simp only [List.filter_append, List.append_assoc]
    have heven : (2 * m + 2).Prime → m = 0 := by
      intro h
      have := (Nat.Prime.even_iff h).1 ⟨m + 1, by ring⟩
      omega
    congr 1
    have h1 : ([2 * m + 2].filter Nat.Prime).filter (· ≠ 2) = [] := by
      by_cases h : (2 * m + 2).Prime
      · have := heven h; subst this; decide
      · simp [h]
    rw [h1, List.nil_append]
    by_cases h : (2 * m + 2 + 1).Prime
    · simp [show 2 * m + 3 = 2 * m + 2 + 1 from rfl, h]
    · simp [show 2 * m + 3 = 2 * m + 2 + 1 from rfl, h]

theorem createPrimes_eq (t : Nat) :
    createPrimes t = .ok ((List.range (t + 1)).filter Nat.Prime) := by
  unfold createPrimes
  split
  · subst t; rfl
  split
  · rename_i h1 h2
    obtain rfl | rfl : t = 0 ∨ t = 1 := by omega
    · rfl
    · rfl
  · rename_i h1 h2
    obtain ⟨out, ho, hl, hv⟩ := sieveLoop_spec t ((List.range ((t - 1) / 2)).map fun i => 2 * i + 3) 0
      ⟨by simp, fun i hi => by
        rw [if_neg]
        · simp [hi]
        · rintro ⟨p, _, h2, h3, _, _⟩; omega⟩
    simp only [ho, ok_bind]
    have hout : out = (List.range ((t - 1) / 2)).map
        fun i => if (2 * i + 3).Prime then 2 * i + 3 else 0 := by
      apply List.ext_getElem?
      intro i
      by_cases hi : i < (t - 1) / 2
      · rw [hv i hi]; simp [hi]
      · rw [List.getElem?_eq_none (by omega), List.getElem?_eq_none (by simp; omega)]
    rw [hout, filter_odd_primes]
    congr 1
    -- put the prime 2 back in front
    have hback : ∀ n, 3 ≤ n → 2 :: ((List.range n).filter Nat.Prime).filter (· ≠ 2) =
        (List.range n).filter Nat.Prime := by
      intro n hn
      induction n, hn using Nat.le_induction with
      | base => decide
      | succ n hn ih =>
        rw [List.range_succ, List.filter_append, List.filter_append, ← List.cons_append, ih]
        congr 1
        by_cases h : n.Prime
        · have : n ≠ 2 := by omega
          simp [h, this]
        · simp [h]
    rw [hback _ (by omega)]
    rcases Nat.even_or_odd' t with ⟨c, hc | hc⟩
    · have : t + 1 = 2 * ((t - 1) / 2) + 2 + 1 := by omega
      rw [this, List.range_succ (n := 2 * ((t - 1) / 2) + 2), List.filter_append]
      have hnp : ¬ (2 * ((t - 1) / 2) + 2).Prime := by
        intro h
        have := (Nat.Prime.even_iff h).1 ⟨(t - 1) / 2 + 1, by ring⟩
        omega
      simp [hnp]
    · have : t + 1 = 2 * ((t - 1) / 2) + 2 := by omega
      rw [this]

/-- At least `n` primes are not larger than `2 ^ n` (Bertrand's postulate). -/
theorem le_primes_two_pow (n : Nat) : n ≤ ((List.range (2 ^ n + 1)).filter Nat.Prime).length := by
  induction n with
  | zero => simp
  | succ n ih =>
    obtain ⟨p, hp, h1, h2⟩ := Nat.exists_prime_lt_and_le_two_mul (2 ^ n) (by positivity)
    have hsub : (p :: (List.range (2 ^ n + 1)).filter Nat.Prime) ⊆
        (List.range (2 ^ (n + 1) + 1)).filter Nat.Prime := by
      intro x hx
      rw [List.mem_filter, List.mem_range]
      rcases List.mem_cons.1 hx with rfl | hx
      · exact ⟨by rw [pow_succ]; omega, by simpa using hp⟩
      · rw [List.mem_filter, List.mem_range] at hx
        exact ⟨by rw [pow_succ]; omega, hx.2⟩
    have hnd : (p :: (List.range (2 ^ n + 1)).filter Nat.Prime).Nodup := by
      refine List.nodup_cons.2 ⟨?_, List.nodup_range.filter _⟩
      rw [List.mem_filter, List.mem_range]
      omega
    have := (hnd.subperm hsub).length_le
    simp only [List.length_cons] at this
    omega

/-- The loop that enlarges the sieve terminates within `n + 2` rounds and yields at least `n`
primes (or leaves a long enough list alone). -/
theorem growPrimes_spec (n : Nat) : ∀ (fuel k : Nat) (ps : List Nat), 0 < n →
    n < fuel + k → k ≤ n →
    (ps.length < n → ∃ ord, 10 * n * 2 ^ k ≤ ord ∧
      growPrimes (fuel + 1) n (10 * n * 2 ^ k) ps =
        .ok ((List.range (ord + 1)).filter Nat.Prime) ∧
      n ≤ ((List.range (ord + 1)).filter Nat.Prime).length) := by
  intro fuel
  induction fuel with
  | zero => intro k ps _ h1 h2; omega
  | succ fuel ih =>
    intro k ps hn h1 h2 hlt
    rw [growPrimes, if_pos hlt, createPrimes_eq, ok_bind]
    by_cases hen : ((List.range (10 * n * 2 ^ k + 1)).filter Nat.Prime).length < n
    · have hk : k < n := by
        by_contra hge
        have hke : k = n := by omega
        have hmono : ((List.range (2 ^ n + 1)).filter Nat.Prime).length ≤
            ((List.range (10 * n * 2 ^ k + 1)).filter Nat.Prime).length := by
          refine ((List.Nodup.filter _ List.nodup_range).subperm ?_).length_le
          intro x hx
          rw [List.mem_filter, List.mem_range] at hx ⊢
          refine ⟨?_, hx.2⟩
          have : 2 ^ n ≤ 10 * n * 2 ^ k := by
            rw [hke]; exact Nat.le_mul_of_pos_left _ (by omega)
          omega
        have := le_primes_two_pow n
        omega
      obtain ⟨ord, ho, h3, h4⟩ := ih (k + 1) _ hn (by omega) (by omega) hen
      refine ⟨ord, ?_, ?_, h4⟩
      · refine le_trans ?_ ho
        rw [pow_succ]
        nlinarith [Nat.zero_le (10 * n * 2 ^ k)]
      · have e : 10 * n * 2 ^ k * 2 = 10 * n * 2 ^ (k + 1) := by rw [pow_succ]; ring
        rw [e]; exact h3
    · refine ⟨10 * n * 2 ^ k, le_rfl, ?_, by omega⟩
      rw [growPrimes, if_neg hen]

end Skopt

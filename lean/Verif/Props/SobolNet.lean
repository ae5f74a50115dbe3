import Verif.Props.Sobol
import Verif.Props.SobolBudget
import Verif.Props.HaltonBoxes

/-!
# C98: Sobol designs fill boxes evenly

The first two coordinates of the Sobol points form what is called a (0, 2)-sequence in base 2: cut the
first coordinate into `2^a` and the second into `2^b` equal parts, then every aligned block of `2^(a+b)`
points puts exactly one point into each box.
-/

namespace Skopt

/-! ## The second coordinate as a linear function of the first -/

/-- The xor of the numbers `V j`, `j < n`, for which bit `29 - j` of `x` is set. -/
def linXor (V : Nat → Nat) (x : Nat) : Nat → Nat
  | 0 => 0
  | n + 1 => linXor V x n ^^^ (if x.testBit (29 - n) then V n else 0)

theorem xor_swap4 (a b c d : Nat) : (a ^^^ b) ^^^ (c ^^^ d) = (a ^^^ c) ^^^ (b ^^^ d) := by
  rw [Nat.xor_assoc, ← Nat.xor_assoc b c d, Nat.xor_comm b c, Nat.xor_assoc c b d, ← Nat.xor_assoc]

theorem linXor_xor (V : Nat → Nat) (x y : Nat) : ∀ n, linXor V (x ^^^ y) n = linXor V x n ^^^ linXor V y n
  | 0 => by simp [linXor]
  | n + 1 => by
      rw [linXor, linXor, linXor, linXor_xor V x y n, xor_swap4]
      congr 1
      rw [Nat.testBit_xor]
      cases x.testBit (29 - n) <;> cases y.testBit (29 - n) <;> simp

theorem linXor_pow (V : Nat → Nat) {j : Nat} (hj : j < 30) : ∀ n, n ≤ 30 →
    linXor V (2 ^ (29 - j)) n = if j < n then V j else 0
  | 0, _ => by simp [linXor]
  | n + 1, hn => by
      rw [linXor, linXor_pow V hj n (by omega), Nat.testBit_two_pow]
      by_cases h : j = n
      · subst h; simp
      · have h1 : ¬ (29 - j = 29 - n) := by omega
        simp only [h1, decide_false, Bool.false_eq_true, if_false, Nat.xor_zero]
        by_cases h2 : j < n
        · rw [if_pos h2, if_pos (by omega)]
        · rw [if_neg h2, if_neg (by omega)]

theorem linXor_zero (V : Nat → Nat) : ∀ n, linXor V 0 n = 0
  | 0 => rfl
  | n + 1 => by rw [linXor, linXor_zero V n]; simp

/-- Direction numbers of the first coordinate: single bits; of the second: every one is the previous
one xored with its half (rows of Pascal's triangle modulo 2). -/
theorem sobolV_first_two : (∀ j < 30, sobolV 0 j = 2 ^ (29 - j)) ∧
    ∀ j < 29, sobolV 1 (j + 1) = sobolV 1 j ^^^ (sobolV 1 j >>> 1) := by
  decide +kernel

theorem sobolT_one_lin : ∀ s, s < 2 ^ 30 → sobolT 1 s = linXor (sobolV 1) (sobolT 0 s) 30
  | 0, _ => by rw [sobolT, sobolT, linXor_zero]
  | s + 1, hs => by
      have hj := bitLo0_lt_30 (t := s) (by omega)
      rw [sobolT, sobolT, sobolT_one_lin s (by omega), sobolV_first_two.1 _ hj, linXor_xor,
        linXor_pow _ hj 30 le_rfl, if_pos hj]

theorem linXor_lt (V : Nat → Nat) (x : Nat) : ∀ n, (∀ j < n, V j < 2 ^ 30) → linXor V x n < 2 ^ 30
  | 0, _ => by simp [linXor]
  | n + 1, h => by
      rw [linXor]
      refine Nat.xor_lt_two_pow (linXor_lt V x n fun j hj => h j (by omega)) ?_
      split
      · exact h n (by omega)
      · positivity

/-- Moving the argument up by one bit undoes the step of Pascal's triangle. -/
theorem linXor_shift (V : Nat → Nat) (hV : ∀ j < 29, V (j + 1) = V j ^^^ (V j >>> 1)) (x : Nat)
    (hx : x.testBit 29 = false) : ∀ n, n ≤ 29 →
    linXor V x (n + 1) = linXor V (2 * x) n ^^^ (linXor V (2 * x) n >>> 1)
  | 0, _ => by simp [linXor, hx]
  | n + 1, hn => by
      rw [linXor, linXor_shift V hV x hx n (by omega)]
      have h1 : linXor V (2 * x) (n + 1) =
        linXor V (2 * x) n ^^^ (if (2 * x).testBit (29 - n) then V n else 0) := rfl
      have h2 : (2 * x).testBit (29 - n) = x.testBit (29 - (n + 1)) := by
        rw [show 29 - n = (29 - (n + 1)) + 1 by omega, Nat.testBit_add_one]
        congr 1; omega
      rw [h1, h2, Nat.shiftRight_xor_distrib, xor_swap4]
      congr 1
      split
      · exact hV n (by omega)
      · rfl

/-- The lowest bit of the argument survives. -/
theorem linXor_lowest {x p : Nat} (hp : p < 30) (hlow : ∀ q < p, x.testBit q = false)
    (hbit : x.testBit p = true) : ∀ n, n ≤ 30 →
    (linXor (sobolV 1) x n).testBit p = decide (29 - p < n)
  | 0, _ => by simp [linXor]
  | n + 1, hn => by
      rw [linXor, Nat.testBit_xor, linXor_lowest hp hlow hbit n (by omega)]
      rcases lt_trichotomy n (29 - p) with h | h | h
      · have h1 : ((if x.testBit (29 - n) = true then sobolV 1 n else 0)).testBit p = false := by
          split
          · exact sobolV_low (by norm_num) (by omega) (by omega)
          · simp
        rw [h1]
        have : ¬ (29 - p < n) := by omega
        have h' : ¬ (29 - p < n + 1) := by omega
        simp [this, h']
      · have e : 29 - n = p := by omega
        rw [e, if_pos hbit]
        have h1 : (sobolV 1 n).testBit p = true := by
          have := sobolV_bit (r := 1) (j := n) (by norm_num) (by omega)
          rwa [e] at this
        rw [h1]
        have : ¬ (29 - p < n) := by omega
        have h' : 29 - p < n + 1 := by omega
        simp [this, h']
      · rw [if_neg (by rw [hlow (29 - n) (by omega)]; simp)]
        have : 29 - p < n := by omega
        have h' : 29 - p < n + 1 := by omega
        simp [this, h']

/-- A number whose bits lie in `[30-a-b, 30-a)` and whose image has its top `b` bits zero is zero. -/
theorem linXor_kernel (b : Nat) : ∀ (a : Nat), a + b ≤ 30 → ∀ x : Nat,
    (∀ p, x.testBit p = true → 30 - (a + b) ≤ p ∧ p < 30 - a) →
    (∀ p, 30 - b ≤ p → (linXor (sobolV 1) x 30).testBit p = false) → x = 0
  | 0, hk, x, hx, hz => by
      by_contra hne
      have hex : ∃ p, x.testBit p = true := Nat.exists_testBit_of_ne_zero hne
      classical
      have hmin := Nat.find_spec hex
      have hlow : ∀ q < Nat.find hex, x.testBit q = false := fun q hq => by
        have := Nat.find_min hex hq
        simpa using this
      have hr := hx _ hmin
      have := linXor_lowest (p := Nat.find hex) (by omega) hlow hmin 30 le_rfl
      rw [hz _ (by omega)] at this
      have h30 : 29 - Nat.find hex < 30 := by omega
      simp [h30] at this
  | a + 1, hk, x, hx, hz => by
      have h29 : x.testBit 29 = false := by
        by_contra h
        have := hx 29 (by simpa using h)
        omega
      have hlast : linXor (sobolV 1) (2 * x) 30 = linXor (sobolV 1) (2 * x) 29 := by
        have e : linXor (sobolV 1) (2 * x) 30 =
          linXor (sobolV 1) (2 * x) 29 ^^^ (if (2 * x).testBit (29 - 29) then sobolV 1 29 else 0) := rfl
        rw [e]
        have : (2 * x).testBit (29 - 29) = false := by simp
        rw [this]; simp
      have hs := linXor_shift (sobolV 1) sobolV_first_two.2 x h29 29 le_rfl
      have hy : ∀ d p, p + d = 30 → 30 - b ≤ p → (linXor (sobolV 1) (2 * x) 29).testBit p = false := by
        intro d
        induction d with
        | zero =>
          intro p hp _
          refine Nat.testBit_eq_false_of_lt ?_
          have := linXor_lt (sobolV 1) (2 * x) 29 fun j hj => sobolV_lt (by norm_num) (by omega)
          rw [show p = 30 by omega]; exact this
        | succ d ih =>
          intro p hp hb
          have h1 := ih (p + 1) (by omega) (by omega)
          have h2 := hz p hb
          rw [hs, Nat.testBit_xor, Nat.testBit_shiftRight, Nat.add_comm 1 p, h1] at h2
          simpa using h2
      have := linXor_kernel b a (by omega) (2 * x) ?_ ?_
      · omega
      · intro p hp
        cases p with
        | zero => simp at hp
        | succ p =>
          rw [Nat.testBit_add_one] at hp
          rw [show 2 * x / 2 = x by omega] at hp
          have := hx p hp
          omega
      · intro p hp
        rw [hlast]
        by_cases h : p ≤ 30
        · exact hy (30 - p) p (by omega) hp
        · refine Nat.testBit_eq_false_of_lt ?_
          have h1 := linXor_lt (sobolV 1) (2 * x) 29 fun j hj => sobolV_lt (by norm_num) (by omega)
          exact lt_of_lt_of_le h1 (Nat.pow_le_pow_right (by norm_num) (by omega))

theorem testBit_of_shiftRight_eq {x y n p : Nat} (h : x >>> n = y >>> n) (hp : n ≤ p) :
    x.testBit p = y.testBit p := by
  have e : ∀ z : Nat, z.testBit p = (z >>> n).testBit (p - n) := fun z => by
    rw [Nat.testBit_shiftRight]; congr 1; omega
  rw [e, e, h]

/-- The first two coordinates together tell the first `2^(a+b)` points apart. -/
theorem sobol_net_inj {a b : Nat} (hk : a + b ≤ 30) {s s' : Nat} (hs : s < 2 ^ (a + b)) (hs' : s' < 2 ^ (a + b))
    (h0 : sobolT 0 s >>> (30 - a) = sobolT 0 s' >>> (30 - a))
    (h1 : sobolT 1 s >>> (30 - b) = sobolT 1 s' >>> (30 - b)) : s = s' := by
  have hpow : 2 ^ (a + b) ≤ 2 ^ 30 := Nat.pow_le_pow_right (by norm_num) hk
  have hx : sobolT 0 s ^^^ sobolT 0 s' = 0 := by
    refine linXor_kernel b a hk _ ?_ ?_
    · intro p hp
      rw [Nat.testBit_xor] at hp
      constructor
      · by_contra hc
        rw [sobolT_low (by norm_num) hk s hs p (by omega), sobolT_low (by norm_num) hk s' hs' p (by omega)] at hp
        simp at hp
      · by_contra hc
        rw [testBit_of_shiftRight_eq h0 (by omega)] at hp
        simp at hp
    · intro p hp
      rw [linXor_xor, ← sobolT_one_lin s (by omega), ← sobolT_one_lin s' (by omega), Nat.testBit_xor,
        testBit_of_shiftRight_eq h1 hp]
      simp
  have he : sobolT 0 s = sobolT 0 s' := Nat.xor_eq_zero_iff.1 hx
  exact sobolT_injOn (r := 0) (by norm_num) (a + b) hk s s' hs hs' (by rw [he])

theorem sobolT_top {r a : Nat} (hr : r < 40) (ha : a ≤ 30) {s : Nat} (hs : s < 2 ^ 30) :
    sobolT r s >>> (30 - a) < 2 ^ a := by
  have := sobolT_lt hr s hs
  rw [Nat.shiftRight_eq_div_pow, Nat.div_lt_iff_lt_mul (by positivity), ← pow_add, show a + (30 - a) = 30 by omega]
  exact this

theorem sobol_net_bij {a b : Nat} (hk : a + b ≤ 30) {i j : Nat} (hi : i < 2 ^ a) (hj : j < 2 ^ b) :
    ∃! s, s < 2 ^ (a + b) ∧ sobolT 0 s >>> (30 - a) = i ∧ sobolT 1 s >>> (30 - b) = j := by
  have hpow : 2 ^ (a + b) ≤ 2 ^ 30 := Nat.pow_le_pow_right (by norm_num) hk
  let f : Fin (2 ^ (a + b)) → Fin (2 ^ a) × Fin (2 ^ b) := fun s =>
    (⟨sobolT 0 s >>> (30 - a), sobolT_top (by norm_num) (by omega) (by have := s.2; omega)⟩,
     ⟨sobolT 1 s >>> (30 - b), sobolT_top (by norm_num) (by omega) (by have := s.2; omega)⟩)
  have hinj : Function.Injective f := by
    intro s t h
    have h0 := congrArg (fun z => (z.1 : Nat)) h
    have h1 := congrArg (fun z => (z.2 : Nat)) h
    exact Fin.ext (sobol_net_inj hk s.2 t.2 h0 h1)
  have hbij : Function.Bijective f :=
    (Fintype.bijective_iff_injective_and_card f).2 ⟨hinj, by simp [pow_add]⟩
  obtain ⟨s, hs⟩ := hbij.2 (⟨i, hi⟩, ⟨j, hj⟩)
  have h0 := congrArg (fun z => (z.1 : Nat)) hs
  have h1 := congrArg (fun z => (z.2 : Nat)) hs
  refine ⟨s, ⟨s.2, h0, h1⟩, ?_⟩
  rintro s' ⟨g0, g1, g2⟩
  exact sobol_net_inj hk g0 s.2 (g1.trans h0.symm) (g2.trans h1.symm)

/-! ## Counting in windows of blocks -/

/-- Every aligned block of `K` indices below `2^30` contains exactly one index with the property. -/
def OnePerBlock (K : Nat) (P : Nat → Prop) : Prop :=
  ∀ c, (c + 1) * K ≤ 2 ^ 30 → ∃! t, t < K ∧ P (c * K + t)

theorem count_unique {p : Nat → Prop} [DecidablePred p] (m : Nat) (h : ∃! t, t < m ∧ p t) : Nat.count p m = 1 := by
  obtain ⟨t, ⟨h1, h2⟩, h3⟩ := h
  obtain ⟨d, rfl⟩ := Nat.exists_eq_add_of_lt h1
  rw [show t + d + 1 = (t + 1) + d by omega, Nat.count_add, Nat.count_succ, if_pos h2,
    count_none t fun i hi hp => by have := h3 i ⟨by omega, hp⟩; omega,
    count_none d fun i hi hp => by have := h3 (t + 1 + i) ⟨by omega, hp⟩; omega]

theorem OnePerBlock.count {K : Nat} {P : Nat → Prop} [DecidablePred P] (h : OnePerBlock K P) (hK : 0 < K)
    (hdvd : K ∣ 2 ^ 30) (c n : Nat) (hn : c * K + n < 2 ^ 30) :
    n / K ≤ Nat.count (fun i => P (c * K + i)) n ∧ Nat.count (fun i => P (c * K + i)) n ≤ (n + K - 1) / K := by
  have hblocks : ∀ q, (c + q) * K ≤ 2 ^ 30 → Nat.count (fun i => P (c * K + i)) (q * K) = q := by
    intro q
    induction q with
    | zero => intro _; rw [Nat.zero_mul, Nat.count_zero]
    | succ q ih =>
      intro hq
      have e : (q + 1) * K = q * K + K := by ring
      have e2 : (c + (q + 1)) * K = (c + q) * K + K := by ring
      rw [e, Nat.count_add, ih (by omega)]
      congr 1
      refine count_unique K ?_
      have := h (c + q) (by rw [Nat.add_assoc]; exact hq)
      have e3 : ∀ t, (c + q) * K + t = c * K + (q * K + t) := fun t => by ring
      simpa only [e3] using this
  have hdm := Nat.div_add_mod n K
  have hr := Nat.mod_lt n hK
  have hcomm : K * (n / K) = n / K * K := Nat.mul_comm _ _
  have h1 : (c + n / K) * K ≤ 2 ^ 30 := by
    have : (c + n / K) * K = c * K + n / K * K := by ring
    omega
  have hsplit : Nat.count (fun i => P (c * K + i)) n = n / K +
      Nat.count (fun i => P (c * K + (n / K * K + i))) (n % K) := by
    conv_lhs => rw [← hdm, hcomm, Nat.count_add, hblocks _ h1]
  rw [hsplit]
  refine ⟨Nat.le_add_right _ _, ?_⟩
  by_cases h0 : n % K = 0
  · rw [h0, Nat.count_zero, Nat.add_zero]
    exact Nat.div_le_div_right (by omega)
  · have hle : Nat.count (fun i => P (c * K + (n / K * K + i))) (n % K) ≤ 1 := by
      have hb : (c + n / K + 1) * K ≤ 2 ^ 30 := by
        obtain ⟨w, hw⟩ := hdvd
        have e : (c + n / K) * K + n % K = c * K + n := by
          have : (c + n / K) * K = c * K + n / K * K := by ring
          omega
        have hlt : (c + n / K) * K < w * K := by rw [Nat.mul_comm w K, ← hw]; omega
        have := Nat.lt_of_mul_lt_mul_right hlt
        calc (c + n / K + 1) * K ≤ w * K := Nat.mul_le_mul_right K this
          _ = 2 ^ 30 := by rw [hw, Nat.mul_comm]
      have := h (c + n / K) hb
      have e3 : ∀ t, (c + n / K) * K + t = c * K + (n / K * K + t) := fun t => by ring
      simp only [e3] at this
      calc _ ≤ Nat.count (fun i => P (c * K + (n / K * K + i))) K := Nat.count_monotone _ (by omega)
        _ = 1 := count_unique K this
    have : (n + K - 1) / K = n / K + 1 := by
      have e : n + K - 1 = (n % K - 1) + (n / K + 1) * K := by
        have : (n / K + 1) * K = n / K * K + K := by ring
        omega
      rw [e, Nat.add_mul_div_right _ _ hK, Nat.div_eq_of_lt (by omega), Nat.zero_add]
    omega

/-- The same for windows that a Sobol generator can hand out: it starts at its skip, which is zero or a
power of two not smaller than the number of points. -/
theorem OnePerBlock.count_skip {k : Nat} {P : Nat → Prop} [DecidablePred P] (h : OnePerBlock (2 ^ k) P) (hk : k ≤ 30)
    (skip n : Nat) (hskip : skip = 0 ∨ ∃ m, skip = 2 ^ m) (hn1 : 1 ≤ n) (hbud : skip ≠ 0 → n ≤ skip)
    (hmax : skip + n ≤ 2 ^ 30 - 1) :
    n / 2 ^ k ≤ Nat.count (fun i => P (skip + i)) n ∧
    Nat.count (fun i => P (skip + i)) n ≤ (n + 2 ^ k - 1) / 2 ^ k := by
  have hpos : 0 < 2 ^ k := by positivity
  have hdvd : 2 ^ k ∣ 2 ^ 30 := pow_dvd_pow 2 hk
  rcases hskip with rfl | ⟨m, rfl⟩
  · have := h.count hpos hdvd 0 n (by omega)
    simpa only [Nat.zero_mul] using this
  · by_cases hkm : k ≤ m
    · have e : 2 ^ m = 2 ^ (m - k) * 2 ^ k := by rw [← pow_add]; congr 1; omega
      have := h.count hpos hdvd (2 ^ (m - k)) n (by omega)
      rw [← e] at this
      exact this
    · have hb := hbud (by positivity)
      have hlt : 2 ^ m * 2 ≤ 2 ^ k := by rw [← pow_succ]; exact Nat.pow_le_pow_right (by norm_num) (by omega)
      rw [Nat.div_eq_of_lt (by omega)]
      refine ⟨Nat.zero_le _, ?_⟩
      have h1 : 1 ≤ (n + 2 ^ k - 1) / 2 ^ k := by
        rw [Nat.le_div_iff_mul_le hpos]; omega
      refine le_trans ?_ h1
      have h0 := h 0 (by simpa using Nat.pow_le_pow_right (by norm_num) hk)
      simp only [Nat.zero_mul, Nat.zero_add] at h0
      have hu := count_unique _ h0
      obtain ⟨d, hd⟩ := Nat.exists_eq_add_of_le (show 2 ^ m + n ≤ 2 ^ k by omega)
      rw [hd, Nat.count_add, Nat.count_add] at hu
      omega

/-! ## The properties of the indices -/

theorem xor_shift_iff {x y z n : Nat} : (x ^^^ y) >>> n = z ↔ y >>> n = z ^^^ (x >>> n) := by
  rw [Nat.shiftRight_xor_distrib]
  constructor
  · rintro rfl
    rw [Nat.xor_comm (x >>> n) (y >>> n), Nat.xor_assoc, Nat.xor_self, Nat.xor_zero]
  · intro h
    rw [h, Nat.xor_comm z, ← Nat.xor_assoc, Nat.xor_self, Nat.zero_xor]

theorem sobol_pair_blocks {a b : Nat} (hk : a + b ≤ 30) {i j : Nat} (hi : i < 2 ^ a) (hj : j < 2 ^ b) :
    OnePerBlock (2 ^ (a + b)) fun s => sobolT 0 s >>> (30 - a) = i ∧ sobolT 1 s >>> (30 - b) = j := by
  intro c hc
  have hpos : 0 < 2 ^ (a + b) := by positivity
  have e : (c + 1) * 2 ^ (a + b) = c * 2 ^ (a + b) + 2 ^ (a + b) := by ring
  have hlt : c * 2 ^ (a + b) < 2 ^ 30 := by omega
  obtain ⟨t, ⟨h1, h2, h3⟩, hu⟩ := sobol_net_bij hk
    (i := i ^^^ (sobolT 0 (c * 2 ^ (a + b)) >>> (30 - a))) (j := j ^^^ (sobolT 1 (c * 2 ^ (a + b)) >>> (30 - b)))
    (Nat.xor_lt_two_pow hi (sobolT_top (by norm_num) (by omega) hlt))
    (Nat.xor_lt_two_pow hj (sobolT_top (by norm_num) (by omega) hlt))
  refine ⟨t, ⟨h1, ?_⟩, ?_⟩
  · beta_reduce
    rw [sobolT_shift 0 _ c t h1, sobolT_shift 1 _ c t h1, xor_shift_iff, xor_shift_iff]
    exact ⟨h2, h3⟩
  · rintro t' ⟨g1, g2⟩
    rw [sobolT_shift 0 _ c t' g1, sobolT_shift 1 _ c t' g1, xor_shift_iff, xor_shift_iff] at g2
    exact hu t' ⟨g1, g2⟩

theorem sobol_single_blocks {r k : Nat} (hr : r < 40) (hk : k ≤ 30) {j : Nat} (hj : j < 2 ^ k) :
    OnePerBlock (2 ^ k) fun s => sobolT r s >>> (30 - k) = j := by
  intro c hc
  have hpos : 0 < 2 ^ k := by positivity
  have e : (c + 1) * 2 ^ k = c * 2 ^ k + 2 ^ k := by ring
  have hlt : c * 2 ^ k < 2 ^ 30 := by omega
  obtain ⟨t, ⟨h1, h2⟩, hu⟩ := sobolT_bij hr hk (j ^^^ (sobolT r (c * 2 ^ k) >>> (30 - k)))
    (Nat.xor_lt_two_pow hj (sobolT_top hr hk hlt))
  refine ⟨t, ⟨h1, ?_⟩, ?_⟩
  · beta_reduce
    rw [sobolT_shift r _ c t h1, xor_shift_iff]
    exact h2
  · rintro t' ⟨g1, g2⟩
    rw [sobolT_shift r _ c t' g1, xor_shift_iff] at g2
    exact hu t' ⟨g1, g2⟩

theorem inBox_iff {cells : List (Nat × Nat)} {p : List ℝ} : InCell cells p ↔ cells.length = p.length ∧
    ∀ (d : Nat) (c : Nat × Nat) (x : ℝ), cells[d]? = some c → p[d]? = some x → InStratum c.1 c.2 x := by
  unfold InCell
  rw [List.forall₂_iff_get]
  refine and_congr_right fun hl => ?_
  constructor
  · intro h d c x hc hx
    obtain ⟨h1, rfl⟩ := List.getElem?_eq_some_iff.1 hc
    obtain ⟨h2, rfl⟩ := List.getElem?_eq_some_iff.1 hx
    exact h d h1 h2
  · intro h d h1 h2
    exact h d _ _ (List.getElem?_eq_getElem h1) (List.getElem?_eq_getElem h2)

theorem sobolVec_length (dim s : Nat) : (sobolVec exact dim s).length = dim := by
  simp [sobolVec, sobolPoint]

theorem inStratum_one {x : ℝ} (h : 0 ≤ x ∧ x < 1) : InStratum 1 0 x := by
  simpa [InStratum] using h

/-- Only the stated coordinates matter. -/
theorem inBox_sobolVec {dim s : Nat} (h40 : dim ≤ 40) (hs : s < 2 ^ 30) (cells : List (Nat × Nat))
    (hl : cells.length = dim) (Q : Prop)
    (hQ : (∀ (d : Nat) (c : Nat × Nat), cells[d]? = some c → c ≠ (1, 0) → InStratum c.1 c.2 ((sobolT d s : ℝ) * (1 / 2 ^ 30))) ↔ Q) :
    InCell cells (sobolVec exact dim s) ↔ Q := by
  rw [inBox_iff, ← hQ, sobolVec_length]
  constructor
  · rintro ⟨-, h⟩ d c hc _
    obtain ⟨h1, -⟩ := List.getElem?_eq_some_iff.1 hc
    exact h d c _ hc (sobolVec_entry (by omega))
  · intro h
    refine ⟨hl, fun d c x hc hx => ?_⟩
    obtain ⟨h1, -⟩ := List.getElem?_eq_some_iff.1 hc
    by_cases hc1 : c = (1, 0)
    · subst hc1
      exact inStratum_one ((sobolVec_range h40 hs).2 x (List.mem_of_getElem? hx))
    · rw [sobolVec_entry (by omega)] at hx
      injection hx with hx
      exact hx ▸ h d c hc hc1

/-- The points of any run of a new generator without random shift. -/
theorem sobol_generate_rows (skip : Nat) (s : Sobol) (hs : Sobol.new skip false = .ok s)
    (ds : List (RealDim ℝ)) (hne : ds ≠ []) (hd : ∀ d ∈ ds, PlainReal d) (h40 : ds.length ≤ 40) (n : Nat)
    (shift : List ℝ) (hn : 1 ≤ n) (hmax : skip + n ≤ 2 ^ 30 - 1) (hbud : skip ≠ 0 → n ≤ skip) :
    (s.generate exact Int.fract (ds.map Dim.real) n shift).2.2 =
      .ok (((List.range n).map fun i => sobolVec exact ds.length (skip + i)).map fun r => (cubePoint ds r).map Val.num) ∧
    ∀ r ∈ (List.range n).map fun i => sobolVec exact ds.length (skip + i),
      r.length = ds.length ∧ ∀ x ∈ r, 0 ≤ x ∧ x < 1 := by
  obtain ⟨hb, hsk, hr, hg⟩ := Sobol.new_between hs
  have h1 : 1 ≤ ds.length := List.length_pos_iff.2 hne
  obtain ⟨s1, e1, -⟩ := Sobol.rows_eq (A := exact) (n := n) hb h1 h40 hn hmax
  have hM : ∀ r ∈ (List.range n).map fun i => sobolVec exact ds.length (skip + i),
      r.length = ds.length ∧ ∀ x ∈ r, 0 ≤ x ∧ x < 1 := by
    intro r hr
    obtain ⟨i, hi, rfl⟩ := List.mem_map.1 hr
    rw [List.mem_range] at hi
    exact sobolVec_range h40 (by omega)
  have hMne : ((List.range n).map fun i => sobolVec exact ds.length (skip + i)) ≠ [] := by
    intro h0
    have := congrArg List.length h0
    simp at this
    omega
  refine ⟨?_, hM⟩
  unfold Sobol.generate
  rw [if_neg (by rw [hsk, hg]; rintro ⟨g1, g2⟩; have := hbud g1; omega)]
  simp only [List.length_map]
  rw [hsk, e1]
  have hw : (withNormalized (ds.map Dim.real) fun dims' => (do
      let M ← (Except.ok ((List.range n).map fun i => sobolVec exact ds.length (skip + i)) :
        Except PyErr (List (List ℝ)))
      Space.inverseTransform exact dims' (numRows
        (if s.randomize then randomShift exact Int.fract shift M else M)))).2 =
      .ok (((List.range n).map fun i => sobolVec exact ds.length (skip + i)).map
        fun r => (cubePoint ds r).map Val.num) := by
    rw [withNormalized_snd _ fun d hd' => by
      obtain ⟨d', h', rfl⟩ := List.mem_map.1 hd'
      exact (hd d' h').valid.legalTransform]
    rw [ok_bind, hr]
    simp only [Bool.false_eq_true, if_false]
    exact inverse_cube hne hd hMne (fun r hr => (hM r hr).1) fun r hr x hx =>
      ⟨((hM r hr).2 x hx).1, ((hM r hr).2 x hx).2.le⟩
  simp only [hw]

/-- The count in a box of the space for any run of a new generator without random shift. -/
theorem sobol_generate_window (skip : Nat) (s : Sobol) (hs : Sobol.new skip false = .ok s)
    (ds : List (RealDim ℝ)) (hne : ds ≠ []) (hd : ∀ d ∈ ds, PlainReal d) (h40 : ds.length ≤ 40) (n : Nat)
    (shift : List ℝ) (hn : 1 ≤ n) (hmax : skip + n ≤ 2 ^ 30 - 1) (hbud : skip ≠ 0 → n ≤ skip)
    (cells : List (Nat × Nat)) (P : Nat → Prop) [DecidablePred P]
    (hbox : ∀ t < 2 ^ 30, InCell cells (sobolVec exact ds.length t) ↔ P t) :
    ∃ pts, (s.generate exact Int.fract (ds.map Dim.real) n shift).2.2 = .ok pts ∧ pts.length = n ∧
      spaceBoxCount ds cells pts = Nat.count (fun i => P (skip + i)) n := by
  obtain ⟨hgen, hM⟩ := sobol_generate_rows skip s hs ds hne hd h40 n shift hn hmax hbud
  refine ⟨_, hgen, by simp, ?_⟩
  · rw [spaceBoxCount_cube hd fun r hr => (hM r hr).1]
    have e : boxCount cells ((List.range n).map fun i => sobolVec exact ds.length (skip + i)) =
        Nat.count (fun i => P (skip + i)) n := by
      rw [← countP_range]
      unfold boxCount
      rw [List.filter_map, List.length_map]
      congr 1
      refine List.filter_congr fun i hi => ?_
      rw [List.mem_range] at hi
      simp only [Function.comp_apply]
      rw [decide_eq_decide]
      exact hbox _ (by omega)
    exact e

theorem sobol_generate_count (skip : Nat) (s : Sobol) (hs : Sobol.new skip false = .ok s)
    (ds : List (RealDim ℝ)) (hne : ds ≠ []) (hd : ∀ d ∈ ds, PlainReal d) (h40 : ds.length ≤ 40) (n : Nat)
    (shift : List ℝ) (hn : 1 ≤ n) (hmax : skip + n ≤ 2 ^ 30 - 1) (hbud : skip ≠ 0 → n ≤ skip)
    (cells : List (Nat × Nat)) (k : Nat) (hk : k ≤ 30) (P : Nat → Prop) [DecidablePred P]
    (hP : OnePerBlock (2 ^ k) P)
    (hbox : ∀ t < 2 ^ 30, InCell cells (sobolVec exact ds.length t) ↔ P t) :
    ∃ pts, (s.generate exact Int.fract (ds.map Dim.real) n shift).2.2 = .ok pts ∧ pts.length = n ∧
      n / 2 ^ k ≤ spaceBoxCount ds cells pts ∧ spaceBoxCount ds cells pts ≤ (n + 2 ^ k - 1) / 2 ^ k := by
  have hacc : skip = 0 ∨ ∃ m, skip = 2 ^ m := by
    by_contra hc
    rw [(C26_skip_accepted skip false).2 hc] at hs
    cases hs
  obtain ⟨pts, h1, h2, h3⟩ := sobol_generate_window skip s hs ds hne hd h40 n shift hn hmax hbud cells P hbox
  refine ⟨pts, h1, h2, ?_⟩
  rw [h3]
  exact hP.count_skip hk skip n hacc hn hbud hmax

/-- **C98.** `Sobol(skip, randomize=False).generate` on a space of two to forty uniform `Real` dimensions:
cut the first dimension into `2^a` and the second into `2^b` equal parts.  For any number of points
that the generator can hand out, every one of the `2^(a+b)` boxes holds the proportional number of
points, rounded down or up; so with `2^(a+b)` points there is exactly one in each box. -/
theorem C98_sobol_boxes (skip : Nat) (s : Sobol) (hs : Sobol.new skip false = .ok s)
    (ds : List (RealDim ℝ)) (h2 : 2 ≤ ds.length) (h40 : ds.length ≤ 40) (hd : ∀ d ∈ ds, PlainReal d) (n : Nat)
    (shift : List ℝ) (hn : 1 ≤ n) (hmax : skip + n ≤ 2 ^ 30 - 1) (hbud : skip ≠ 0 → n ≤ skip)
    (a b i j : Nat) (hab : a + b ≤ 30) (hi : i < 2 ^ a) (hj : j < 2 ^ b) :
    ∃ pts, (s.generate exact Int.fract (ds.map Dim.real) n shift).2.2 = .ok pts ∧ pts.length = n ∧
      n / 2 ^ (a + b) ≤ spaceBoxCount ds ((2 ^ a, i) :: (2 ^ b, j) :: List.replicate (ds.length - 2) (1, 0)) pts ∧
      spaceBoxCount ds ((2 ^ a, i) :: (2 ^ b, j) :: List.replicate (ds.length - 2) (1, 0)) pts ≤
        (n + 2 ^ (a + b) - 1) / 2 ^ (a + b) := by
  refine sobol_generate_count skip s hs ds (by rintro rfl; simp at h2) hd h40 n shift hn hmax hbud _ (a + b) hab
    _ (sobol_pair_blocks hab hi hj) fun t ht => ?_
  refine inBox_sobolVec h40 ht _ (by simp; omega) _ ?_
  rw [← inStratum_sobol (r := 0) (s := t) (show a ≤ 30 by omega), ← inStratum_sobol (r := 1) (s := t) (show b ≤ 30 by omega)]
  have htop : ∀ r < 40, 0 ≤ (sobolT r t : ℝ) * (1 / 2 ^ 30) ∧ (sobolT r t : ℝ) * (1 / 2 ^ 30) < 1 := by
    intro r hr
    have hlt' : (sobolT r t : ℝ) < 2 ^ 30 := by exact_mod_cast sobolT_lt hr t ht
    refine ⟨by positivity, ?_⟩
    rw [mul_one_div, div_lt_one (by positivity)]; exact hlt'
  constructor
  · intro h
    constructor
    · by_cases hc : ((2 ^ a, i) : Nat × Nat) = (1, 0)
      · have e1 : 2 ^ a = 1 := congrArg Prod.fst hc
        have e2 : i = 0 := congrArg Prod.snd hc
        rw [e1, e2]; exact inStratum_one (htop 0 (by norm_num))
      · exact h 0 _ rfl hc
    · by_cases hc : ((2 ^ b, j) : Nat × Nat) = (1, 0)
      · have e1 : 2 ^ b = 1 := congrArg Prod.fst hc
        have e2 : j = 0 := congrArg Prod.snd hc
        rw [e1, e2]; exact inStratum_one (htop 1 (by norm_num))
      · exact h 1 _ rfl hc
  · rintro ⟨h0, h1⟩ d c hc hne
    match d, hc with
    | 0, hc => injection hc with hc; exact hc ▸ h0
    | 1, hc => injection hc with hc; exact hc ▸ h1
    | d + 2, hc =>
      have : c ∈ List.replicate (ds.length - 2) ((1, 0) : Nat × Nat) := by
        simp only [List.getElem?_cons_succ] at hc
        exact List.mem_of_getElem? hc
      exact absurd (List.eq_of_mem_replicate this) hne

/-- **C98**, single coordinates: every one of the up to forty dimensions on its own is filled evenly,
for every number of points and every admissible skip (C24 is the case of `2^k` points and no skip). -/
theorem C98_sobol_strata (skip : Nat) (s : Sobol) (hs : Sobol.new skip false = .ok s)
    (ds : List (RealDim ℝ)) (h40 : ds.length ≤ 40) (hd : ∀ d ∈ ds, PlainReal d) (n : Nat)
    (shift : List ℝ) (hn : 1 ≤ n) (hmax : skip + n ≤ 2 ^ 30 - 1) (hbud : skip ≠ 0 → n ≤ skip)
    (d k j : Nat) (hdl : d < ds.length) (hk : k ≤ 30) (hj : j < 2 ^ k) :
    ∃ pts, (s.generate exact Int.fract (ds.map Dim.real) n shift).2.2 = .ok pts ∧ pts.length = n ∧
      n / 2 ^ k ≤ spaceBoxCount ds ((List.replicate ds.length (1, 0)).set d (2 ^ k, j)) pts ∧
      spaceBoxCount ds ((List.replicate ds.length (1, 0)).set d (2 ^ k, j)) pts ≤ (n + 2 ^ k - 1) / 2 ^ k := by
  refine sobol_generate_count skip s hs ds (by rintro rfl; simp at hdl) hd h40 n shift hn hmax hbud _ k hk
    _ (sobol_single_blocks (r := d) (by omega) hk hj) fun t ht => ?_
  refine inBox_sobolVec h40 ht _ (by simp) _ ?_
  rw [← inStratum_sobol (r := d) (s := t) hk]
  have hlt' : (sobolT d t : ℝ) < 2 ^ 30 := by exact_mod_cast sobolT_lt (by omega) t ht
  constructor
  · intro h
    by_cases hc : ((2 ^ k, j) : Nat × Nat) = (1, 0)
    · have e1 : 2 ^ k = 1 := congrArg Prod.fst hc
      have e2 : j = 0 := congrArg Prod.snd hc
      rw [e1, e2]
      refine inStratum_one ⟨by positivity, ?_⟩
      rw [mul_one_div, div_lt_one (by positivity)]; exact hlt'
    · exact h d _ (by simp [hdl]) hc
  · intro h d' c hc hne
    by_cases hdd : d' = d
    · subst hdd
      have : some ((2 ^ k, j) : Nat × Nat) = some c := by rw [← hc]; simp [hdl]
      injection this with this
      exact this ▸ h
    · rw [List.getElem?_set_ne (fun e => hdd e.symm)] at hc
      exact absurd (List.eq_of_mem_replicate (List.mem_of_getElem? hc)) hne

/-- Twelve points after a skip of sixteen in the space `Real(-5, 10) × Real(0, 15)`, boxes of 1/2 × 1/4.
Meets the hypotheses of `C98_sobol_boxes`. -/
example : Sobol.new 16 false = .ok { skip := 16, randomize := false } ∧
    16 + 12 ≤ 2 ^ 30 - 1 ∧ ((16 : Nat) ≠ 0 → 12 ≤ 16) ∧ 1 + 2 ≤ 30 ∧ 1 < 2 ^ 1 ∧ 3 < 2 ^ 2 ∧
    ∀ d ∈ ([⟨-5, 10, .uniform, 10, .identity, none, id⟩, ⟨0, 15, .uniform, 10, .normalize, none, id⟩] :
      List (RealDim ℝ)), PlainReal d := by
  refine ⟨rfl, by norm_num, by norm_num, by norm_num, by norm_num, by norm_num, ?_⟩
  intro d hd
  rcases List.mem_cons.1 hd with rfl | hd
  · exact ⟨by norm_num, rfl, rfl, Or.inl rfl⟩
  · rw [List.mem_singleton.1 hd]
    exact ⟨by norm_num, rfl, rfl, Or.inr rfl⟩

/-- **C98 does not extend to other pairs of coordinates**: the first four points in three dimensions leave
the quarter `[0, 1/2) × [1/2, 1)` of the first and third coordinate empty. -/
theorem C98_only_first_two :
    ∃ M, (({ randomize := false } : Sobol).rows ratArith 3 4 0).2 = .ok M ∧
      (M.filter fun p => decide (p.getD 0 0 < 1/2 ∧ 1/2 ≤ p.getD 2 0)).length = 0 ∧
      (M.filter fun p => decide (p.getD 0 0 < 1/2 ∧ 1/2 ≤ p.getD 1 0)).length = 1 := by
  refine ⟨_, rfl, by decide +kernel, by decide +kernel⟩

end Skopt

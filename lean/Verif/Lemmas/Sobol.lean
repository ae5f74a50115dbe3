import Verif.Lemmas.Lhs
import Verif.Model.Sobol
import Mathlib.Data.Nat.Bitwise
import Mathlib.Data.Finset.Card
import Mathlib.Data.Fintype.Card

/-!
# Lemmas about the Sobol generator
-/

namespace Skopt

/-! ## The position of the lowest zero bit -/

theorem bitLo0_even (m : Nat) : bitLo0 (2 * m) = 1 := by
  rcases Nat.eq_zero_or_pos m with rfl | hm
  · rfl
  · unfold bitLo0 binaryRepr
    rw [if_neg (by omega), List.reverse_reverse, Nat.digits_def' (by norm_num) (by omega)]
    simp [List.findIdx?_cons]

theorem bitLo0_odd (m : Nat) : bitLo0 (2 * m + 1) = bitLo0 m + 1 := by
  have h1 : (2 * m + 1) % 2 = 1 := by omega
  have h2 : (2 * m + 1) / 2 = m := by omega
  rcases Nat.eq_zero_or_pos m with rfl | hm
  · decide
  · unfold bitLo0 binaryRepr
    rw [if_neg (by omega), if_neg (by omega), List.reverse_reverse, List.reverse_reverse,
      Nat.digits_def' (b := 2) (n := 2 * m + 1) (by norm_num) (by omega), h1, h2]
    simp only [List.findIdx?_cons]
    cases List.findIdx? (fun x => decide (x = 0)) (Nat.digits 2 m) <;> simp

theorem bitLo0_pos (n : Nat) : 1 ≤ bitLo0 n := Nat.le_add_left 1 _

/-- The all-ones numbers have their lowest zero just above. -/
theorem bitLo0_ones (k : Nat) : bitLo0 (2 ^ k - 1) = k + 1 := by
  induction k with
  | zero => rfl
  | succ k ih =>
    have : 2 ^ (k + 1) - 1 = 2 * (2 ^ k - 1) + 1 := by
      have := Nat.one_le_two_pow (n := k)
      rw [pow_succ]; omega
    rw [this, bitLo0_odd, ih]

/-- Below the all-ones number the lowest zero is among the low `k` bits and does not see the bits
above. -/
theorem bitLo0_low (k : Nat) : ∀ t, t < 2 ^ k - 1 → bitLo0 t ≤ k ∧
    ∀ a, bitLo0 (a * 2 ^ k + t) = bitLo0 t := by
  induction k with
  | zero => intro t ht; simp at ht
  | succ k ih =>
    intro t ht
    have hpow := Nat.one_le_two_pow (n := k)
    rcases Nat.even_or_odd' t with ⟨m, rfl | rfl⟩
    · refine ⟨by rw [bitLo0_even]; omega, fun a => ?_⟩
      have : a * 2 ^ (k + 1) + 2 * m = 2 * (a * 2 ^ k + m) := by rw [pow_succ]; ring
      rw [this, bitLo0_even, bitLo0_even]
    · rw [pow_succ] at ht
      obtain ⟨h1, h2⟩ := ih m (by omega)
      refine ⟨by rw [bitLo0_odd]; omega, fun a => ?_⟩
      have : a * 2 ^ (k + 1) + (2 * m + 1) = 2 * (a * 2 ^ k + m) + 1 := by rw [pow_succ]; ring
      rw [this, bitLo0_odd, h2, bitLo0_odd]

/-! ## The direction numbers -/

theorem sobolRow_facts : ∀ r < 40, (sobolRow r).length = 30 ∧ ∀ j < 30,
    (sobolRow r).getD j 0 % 2 ^ (30 - j) = 2 ^ (29 - j) ∧ (sobolRow r).getD j 0 < 2 ^ 30 := by
  decide +kernel

/-- Direction number `j` of coordinate `r`. -/
def sobolV (r j : Nat) : Nat := (sobolRow r).getD j 0

theorem sobolV_bit {r j : Nat} (hr : r < 40) (hj : j < 30) : (sobolV r j).testBit (29 - j) = true := by
  have h := ((sobolRow_facts r hr).2 j hj).1
  have : (sobolV r j % 2 ^ (30 - j)).testBit (29 - j) = true := by
    unfold sobolV; rw [h]; simp
  rw [Nat.testBit_mod_two_pow] at this
  simp only [Bool.and_eq_true] at this
  exact this.2

theorem sobolV_low {r j i : Nat} (hr : r < 40) (hj : j < 30) (hi : i < 29 - j) :
    (sobolV r j).testBit i = false := by
  have h := ((sobolRow_facts r hr).2 j hj).1
  have : (sobolV r j % 2 ^ (30 - j)).testBit i = false := by
    unfold sobolV; rw [h, Nat.testBit_two_pow]; simp; omega
  rw [Nat.testBit_mod_two_pow] at this
  have hlt : i < 30 - j := by omega
  simpa [hlt] using this

theorem sobolV_lt {r j : Nat} (hr : r < 40) (hj : j < 30) : sobolV r j < 2 ^ 30 :=
  ((sobolRow_facts r hr).2 j hj).2

/-- The integer numerator of coordinate `r` of point `s`. -/
def sobolT (r : Nat) : Nat → Nat
  | 0 => 0
  | s + 1 => sobolT r s ^^^ sobolV r (bitLo0 s - 1)

theorem sobolT_shift (r k a : Nat) : ∀ t, t < 2 ^ k →
    sobolT r (a * 2 ^ k + t) = sobolT r (a * 2 ^ k) ^^^ sobolT r t := by
  intro t
  induction t with
  | zero => intro _; simp [sobolT]
  | succ t ih =>
    intro ht
    have h1 : sobolT r (a * 2 ^ k + (t + 1)) =
        sobolT r (a * 2 ^ k + t) ^^^ sobolV r (bitLo0 (a * 2 ^ k + t) - 1) := rfl
    have h2 : sobolT r (t + 1) = sobolT r t ^^^ sobolV r (bitLo0 t - 1) := rfl
    rw [h1, h2, ih (by omega), (bitLo0_low k t (by omega)).2, Nat.xor_assoc]

theorem bitLo0_lt_30 {t : Nat} (ht : t < 2 ^ 30 - 1) : bitLo0 t - 1 < 30 := by
  have := (bitLo0_low 30 t ht).1
  have := bitLo0_pos t
  omega

theorem sobolT_lt {r : Nat} (hr : r < 40) : ∀ s, s < 2 ^ 30 → sobolT r s < 2 ^ 30 := by
  intro s
  induction s with
  | zero => intro _; simp [sobolT]
  | succ s ih =>
    intro hs
    exact Nat.xor_lt_two_pow (ih (by omega)) (sobolV_lt hr (bitLo0_lt_30 (by omega)))

/-- The low bits of the first `2^k` numerators vanish. -/
theorem sobolT_low {r k : Nat} (hr : r < 40) (hk : k ≤ 30) : ∀ s, s < 2 ^ k → ∀ i, i < 30 - k →
    (sobolT r s).testBit i = false := by
  intro s
  induction s with
  | zero => intro _ i _; simp [sobolT]
  | succ s ih =>
    intro hs i hi
    have h1 := (bitLo0_low k s (by omega)).1
    have h2 := bitLo0_pos s
    rw [sobolT, Nat.testBit_xor, ih (by omega) i hi, sobolV_low hr (by omega) (by omega)]
    rfl

/-- The top `k` bits of the first `2^k` numerators are pairwise different. -/
theorem sobolT_injOn {r : Nat} (hr : r < 40) : ∀ k, k ≤ 30 → ∀ s s', s < 2 ^ k → s' < 2 ^ k →
    sobolT r s >>> (30 - k) = sobolT r s' >>> (30 - k) → s = s' := by
  intro k
  induction k with
  | zero => intro _ s s' h1 h2 _; simp at h1 h2; omega
  | succ k ih =>
    intro hk
    have hsh : ∀ x y : Nat, x >>> (30 - (k + 1)) = y >>> (30 - (k + 1)) →
        x >>> (30 - k) = y >>> (30 - k) := by
      intro x y h
      have e : 30 - k = (30 - (k + 1)) + 1 := by omega
      rw [e, Nat.shiftRight_add, Nat.shiftRight_add, h]
    have hhalf : ∀ t, t < 2 ^ k → sobolT r (2 ^ k + t) = sobolT r (2 ^ k) ^^^ sobolT r t := by
      intro t ht
      have := sobolT_shift r k 1 t ht
      simpa using this
    -- bit 29 - k tells the halves apart
    have hlow : ∀ s, s < 2 ^ k → (sobolT r s).testBit (29 - k) = false := fun s hs =>
      sobolT_low hr (by omega) s hs _ (by omega)
    have hmid : (sobolT r (2 ^ k)).testBit (29 - k) = true := by
      have hp := Nat.one_le_two_pow (n := k)
      have e : 2 ^ k = (2 ^ k - 1) + 1 := by omega
      have : sobolT r (2 ^ k) = sobolT r (2 ^ k - 1) ^^^ sobolV r (bitLo0 (2 ^ k - 1) - 1) := by
        conv_lhs => rw [e]
        rfl
      rw [this, Nat.testBit_xor, hlow _ (by omega), bitLo0_ones, Nat.add_sub_cancel,
        sobolV_bit hr (by omega)]
      rfl
    have hhigh : ∀ t, t < 2 ^ k → (sobolT r (2 ^ k + t)).testBit (29 - k) = true := by
      intro t ht
      rw [hhalf t ht, Nat.testBit_xor, hmid, hlow t ht]
      rfl
    have hbit : ∀ x y : Nat, x >>> (30 - (k + 1)) = y >>> (30 - (k + 1)) →
        x.testBit (29 - k) = y.testBit (29 - k) := by
      intro x y h
      have e : ∀ z : Nat, z.testBit (29 - k) = (z >>> (30 - (k + 1))).testBit 0 := by
        intro z
        rw [Nat.testBit_shiftRight]
        congr 1
        omega
      rw [e, e, h]
    intro s s' hs hs' h
    rw [pow_succ] at hs hs'
    by_cases c1 : s < 2 ^ k <;> by_cases c2 : s' < 2 ^ k
    · exact ih (by omega) s s' c1 c2 (hsh _ _ h)
    · obtain ⟨t', rfl⟩ : ∃ t', s' = 2 ^ k + t' := ⟨s' - 2 ^ k, by omega⟩
      have := hbit _ _ h
      rw [hlow s c1, hhigh t' (by omega)] at this
      exact absurd this (by simp)
    · obtain ⟨t, rfl⟩ : ∃ t, s = 2 ^ k + t := ⟨s - 2 ^ k, by omega⟩
      have := hbit _ _ h
      rw [hlow s' c2, hhigh t (by omega)] at this
      exact absurd this (by simp)
    · obtain ⟨t, rfl⟩ : ∃ t, s = 2 ^ k + t := ⟨s - 2 ^ k, by omega⟩
      obtain ⟨t', rfl⟩ : ∃ t', s' = 2 ^ k + t' := ⟨s' - 2 ^ k, by omega⟩
      have h2 := hsh _ _ h
      rw [hhalf t (by omega), hhalf t' (by omega), Nat.shiftRight_xor_distrib,
        Nat.shiftRight_xor_distrib, Nat.xor_right_inj] at h2
      have := ih (by omega) t t' (by omega) (by omega) h2
      omega

/-- Every value of the top `k` bits occurs exactly once among the first `2^k` numerators. -/
theorem sobolT_bij {r k : Nat} (hr : r < 40) (hk : k ≤ 30) (j : Nat) (hj : j < 2 ^ k) :
    ∃! s, s < 2 ^ k ∧ sobolT r s >>> (30 - k) = j := by
  have hlt : ∀ s, s < 2 ^ k → sobolT r s >>> (30 - k) < 2 ^ k := by
    intro s hs
    have h30 : 2 ^ k ≤ 2 ^ 30 := Nat.pow_le_pow_right (by norm_num) hk
    have := sobolT_lt hr s (by omega)
    rw [Nat.shiftRight_eq_div_pow, Nat.div_lt_iff_lt_mul (by positivity), ← pow_add]
    have e : k + (30 - k) = 30 := by omega
    rw [e]; exact this
  let f : Fin (2 ^ k) → Fin (2 ^ k) := fun s => ⟨sobolT r s >>> (30 - k), hlt s s.2⟩
  have hinj : Function.Injective f := by
    intro a b hab
    have := sobolT_injOn hr k hk a b a.2 b.2 (by simpa [f] using hab)
    exact Fin.ext this
  obtain ⟨s, hs⟩ := (Finite.injective_iff_surjective.1 hinj) ⟨j, hj⟩
  refine ⟨s, ⟨s.2, by simpa [f] using congrArg Fin.val hs⟩, ?_⟩
  rintro s' ⟨h1, h2⟩
  refine sobolT_injOn hr k hk s' s h1 s.2 ?_
  rw [h2]
  exact (congrArg Fin.val hs).symm

theorem inStratum_sobol {r k s j : Nat} (hk : k ≤ 30) :
    InStratum (2 ^ k) j ((sobolT r s : ℝ) * (1 / 2 ^ 30)) ↔ sobolT r s >>> (30 - k) = j := by
  have hk' : (0 : ℝ) < ((2 ^ k : Nat) : ℝ) := by positivity
  have e : (2 : ℝ) ^ 30 = 2 ^ k * 2 ^ (30 - k) := by
    rw [← pow_add]; congr 1; omega
  have hpos : (0 : ℝ) < 2 ^ (30 - k) := by positivity
  have hdiv : sobolT r s / 2 ^ (30 - k) = j ↔
      j * 2 ^ (30 - k) ≤ sobolT r s ∧ sobolT r s < (j + 1) * 2 ^ (30 - k) := by
    constructor
    · rintro rfl
      exact ⟨Nat.div_mul_le_self _ _, Nat.lt_mul_of_div_lt (Nat.lt_succ_self _) (by positivity)⟩
    · rintro ⟨h1, h2⟩
      refine le_antisymm (Nat.lt_succ_iff.1 ((Nat.div_lt_iff_lt_mul (by positivity)).2 h2))
        ((Nat.le_div_iff_mul_le (by positivity)).2 h1)
  rw [Nat.shiftRight_eq_div_pow, hdiv]
  unfold InStratum
  rw [div_le_iff₀ hk', lt_div_iff₀ hk', e]
  have e2 : (sobolT r s : ℝ) * (1 / (2 ^ k * 2 ^ (30 - k))) * ((2 ^ k : Nat) : ℝ) =
      (sobolT r s : ℝ) / 2 ^ (30 - k) := by
    push_cast
    field_simp
  rw [e2, le_div_iff₀ hpos, div_lt_iff₀ hpos]
  constructor
  · rintro ⟨h1, h2⟩
    exact ⟨by exact_mod_cast h1, by exact_mod_cast h2⟩
  · rintro ⟨h1, h2⟩
    exact ⟨by exact_mod_cast h1, by exact_mod_cast h2⟩

/-! ## The generator's state -/

variable {F : Type}

/-- The numerators of point `s` in `dim` dimensions. -/
def sobolPoint (dim s : Nat) : List Nat := (List.range dim).map fun r => sobolT r s

theorem sobolPoint_zero (dim : Nat) : sobolPoint dim 0 = List.replicate dim 0 := by
  unfold sobolPoint
  rw [List.eq_replicate_iff]
  simp [sobolT]

theorem xorColumn_point {dim s : Nat} (hd : dim ≤ 40) (hs : s < 2 ^ 30 - 1) :
    xorColumn ((List.range dim).map sobolRow) (sobolPoint dim s) (bitLo0 s) =
      .ok (sobolPoint dim (s + 1)) := by
  unfold xorColumn sobolPoint
  rw [List.zip_map', mapE_map]
  refine mapE_ok_of_forall fun r hr => ?_
  rw [List.mem_range] at hr
  have hl := (sobolRow_facts r (by omega)).1
  have hb := bitLo0_lt_30 hs
  rw [pyGet_lt (by rw [hl]; exact hb), ok_bind, sobolT, sobolV, getD_lt (by rw [hl]; exact hb)]

theorem catchUp_point {dim : Nat} (hd : dim ≤ 40) : ∀ len lo, lo + len ≤ 2 ^ 30 - 1 →
    catchUp ((List.range dim).map sobolRow) lo len (sobolPoint dim lo) =
      .ok (sobolPoint dim (lo + len)) := by
  intro len
  induction len with
  | zero => intro lo _; rfl
  | succ len ih =>
    intro lo h
    rw [catchUp, xorColumn_point hd (by omega), ok_bind, ih (lo + 1) (by omega)]
    congr 2
    omega

/-- The state is consistent with having just produced point `seedSave` in `dim` dimensions. -/
def Synced (dim : Nat) (s : Sobol) : Prop :=
  s.v = some ((List.range dim).map sobolRow) ∧ s.dimNumSave = dim ∧ 0 ≤ s.seedSave ∧
    s.lastq = sobolPoint dim (s.seedSave.toNat + 1)

/-- The state a generator can be in between two `generate` calls that start at `skip`. -/
structure Between (skip : Nat) (s : Sobol) : Prop where
  seed : s.seedSave = -1 ∨ (skip : ℤ) ≤ s.seedSave
  fresh : s.seedSave = -1 → s.v = none
  table : ∀ v, s.v = some v → ∃ dim : Nat, 1 ≤ dim ∧ dim ≤ 40 ∧ s.dimNumSave = dim ∧
    v = (List.range dim).map sobolRow
  noTable : s.v = none → s.dimNumSave = -1 ∨ s.dimNumSave = 0 ∨ 40 < s.dimNumSave

/-- The vector handed out for point `s`. -/
def sobolVec (A : Arith F) (dim s : Nat) : List F :=
  (sobolPoint dim s).map fun x : Nat => A.mul (A.ofInt (x : ℤ)) (A.div (A.ofInt 1) (A.ofInt (2 ^ 30)))

theorem Sobol.next_first {A : Arith F} {skip dim : Nat} {s : Sobol} (h : Between skip s)
    (h1 : 1 ≤ dim) (h40 : dim ≤ 40) (hs : skip < 2 ^ 30 - 1) :
    ∃ s', s.next A dim skip = (s', .ok (sobolVec A dim skip, skip + 1)) ∧ Synced dim s' ∧
      s'.seedSave = skip ∧ s'.skip = s.skip ∧ s'.randomize = s.randomize ∧
      s'.numGenerated = s.numGenerated := by
  -- the state after the possible `init`
  have hinit : ∃ s1 : Sobol, (if (dim : ℤ) ≠ s.dimNumSave then s.init dim else (s, .ok ())) =
      (s1, .ok ()) ∧ s1.v = some ((List.range dim).map sobolRow) ∧ s1.dimNumSave = dim ∧
      s1.seedSave = s.seedSave ∧ (s.seedSave = -1 → s1.lastq = List.replicate dim 0) ∧
      s1.skip = s.skip ∧ s1.randomize = s.randomize ∧ s1.numGenerated = s.numGenerated := by
    by_cases hc : (dim : ℤ) ≠ s.dimNumSave
    · rw [if_pos hc, Sobol.init, if_neg (by omega)]
      exact ⟨_, rfl, rfl, rfl, rfl, fun _ => rfl, rfl, rfl, rfl⟩
    · rw [if_neg hc]
      rw [not_not] at hc
      cases hv : s.v with
      | none => have := h.noTable hv; omega
      | some v =>
        obtain ⟨dim', _, _, h3, h4⟩ := h.table v hv
        have : dim' = dim := by omega
        subst this
        refine ⟨s, rfl, by rw [hv, h4], h3, rfl, ?_, rfl, rfl, rfl⟩
        intro hm
        rw [h.fresh hm] at hv
        simp at hv
  obtain ⟨s1, e1, e2, e3, e4, e5, e6, e7, e8⟩ := hinit
  have hloc : ∃ save, s1.locate ((List.range dim).map sobolRow) dim skip =
      .ok (sobolPoint dim skip, save, bitLo0 skip) := by
    unfold Sobol.locate
    by_cases h0 : skip = 0
    · subst h0
      rw [if_pos rfl, sobolPoint_zero]
      exact ⟨_, rfl⟩
    · rw [if_neg h0, e4]
      have hne : ¬ (skip : ℤ) = s.seedSave + 1 := by
        rcases h.seed with h | h <;> omega
      rw [if_neg hne]
      by_cases hle : (skip : ℤ) ≤ s.seedSave
      · rw [if_pos hle, ← sobolPoint_zero, catchUp_point h40 skip 0 (by omega), ok_bind, Nat.zero_add]
        exact ⟨_, rfl⟩
      · have hm : s.seedSave = -1 := by rcases h.seed with h | h <;> omega
        rw [if_neg hle, hm, e5 hm]
        simp only [neg_add_cancel, Int.toNat_zero, Nat.sub_zero]
        rw [← sobolPoint_zero, catchUp_point h40 skip 0 (by omega), ok_bind, Nat.zero_add]
        exact ⟨_, rfl⟩
  obtain ⟨save, hloc⟩ := hloc
  have hpos : ¬ sobolMaxcol < bitLo0 skip := by
    have := bitLo0_lt_30 hs
    have := bitLo0_pos skip
    unfold sobolMaxcol
    omega
  refine ⟨{ s1 with lastq := sobolPoint dim (skip + 1), seedSave := skip }, ?_, ?_, rfl, e6, e7, e8⟩
  · unfold Sobol.next
    simp only [e1, e2, hloc, if_neg hpos, xorColumn_point h40 hs]
    rfl
  · exact ⟨e2, e3, by simp, by simp⟩

theorem Sobol.next_synced {A : Arith F} {dim seed : Nat} {s : Sobol} (h : Synced dim s)
    (hseed : s.seedSave = seed) (h40 : dim ≤ 40) (hs : seed + 1 < 2 ^ 30 - 1) :
    ∃ s', s.next A dim (seed + 1) = (s', .ok (sobolVec A dim (seed + 1), seed + 2)) ∧
      Synced dim s' ∧ s'.seedSave = ((seed + 1 : Nat) : ℤ) ∧ s'.skip = s.skip ∧
      s'.randomize = s.randomize ∧ s'.numGenerated = s.numGenerated := by
  obtain ⟨e1, e2, e3, e4⟩ := h
  have hloc : s.locate ((List.range dim).map sobolRow) dim (seed + 1) =
      .ok (sobolPoint dim (seed + 1), s.seedSave, bitLo0 (seed + 1)) := by
    unfold Sobol.locate
    rw [if_neg (by omega), if_pos (by rw [hseed]; push_cast; rfl), e4, hseed]
    rfl
  have hpos : ¬ sobolMaxcol < bitLo0 (seed + 1) := by
    have := bitLo0_lt_30 hs
    have := bitLo0_pos (seed + 1)
    unfold sobolMaxcol
    omega
  refine ⟨{ s with lastq := sobolPoint dim (seed + 2), seedSave := ((seed + 1 : Nat) : ℤ) }, ?_,
    ?_, rfl, rfl, rfl, rfl⟩
  · unfold Sobol.next
    rw [if_neg (by rw [e2]; simp)]
    simp only [e1, hloc, if_neg hpos, xorColumn_point h40 hs]
    rfl
  · refine ⟨e1, e2, by positivity, ?_⟩
    show sobolPoint dim (seed + 2) = sobolPoint dim (((seed + 1 : Nat) : ℤ).toNat + 1)
    rw [Int.toNat_natCast]

theorem Sobol.rows_synced {A : Arith F} {dim : Nat} (h40 : dim ≤ 40) : ∀ (n : Nat) (s : Sobol)
    (seed : Nat), Synced dim s → s.seedSave = seed → seed + 1 + n ≤ 2 ^ 30 - 1 →
    ∃ s', Sobol.rows A dim n s (seed + 1) =
        (s', .ok ((List.range n).map fun i => sobolVec A dim (seed + 1 + i))) ∧
      Synced dim s' ∧ s'.seedSave = ((seed + n : Nat) : ℤ) ∧ s'.skip = s.skip ∧
      s'.randomize = s.randomize ∧ s'.numGenerated = s.numGenerated := by
  intro n
  induction n with
  | zero => intro s seed h1 h2 _; exact ⟨s, rfl, h1, h2, rfl, rfl, rfl⟩
  | succ n ih =>
    intro s seed h1 h2 h3
    obtain ⟨s1, e1, e2, e3, e4, e5, e6⟩ := Sobol.next_synced (A := A) h1 h2 h40 (by omega)
    obtain ⟨s2, f1, f2, f3, f4, f5, f6⟩ := ih s1 (seed + 1) e2 e3 (by omega)
    refine ⟨s2, ?_, f2, ?_, f4.trans e4, f5.trans e5, f6.trans e6⟩
    · rw [Sobol.rows, e1]
      simp only
      rw [f1]
      simp only [List.range_succ_eq_map, List.map_cons, List.map_map]
      congr 3
      refine List.map_congr_left fun i _ => ?_
      simp only [Function.comp_apply]
      congr 1
      omega
    · rw [f3]; congr 1; omega

/-- A run of `n ≥ 1` points from a state between two calls. -/
theorem Sobol.rows_eq {A : Arith F} {skip dim n : Nat} {s : Sobol} (h : Between skip s)
    (h1 : 1 ≤ dim) (h40 : dim ≤ 40) (hn : 1 ≤ n) (hs : skip + n ≤ 2 ^ 30 - 1) :
    ∃ s', Sobol.rows A dim n s skip =
        (s', .ok ((List.range n).map fun i => sobolVec A dim (skip + i))) ∧
      Synced dim s' ∧ (skip : ℤ) ≤ s'.seedSave ∧ s'.skip = s.skip ∧
      s'.randomize = s.randomize ∧ s'.numGenerated = s.numGenerated := by
  obtain ⟨n, rfl⟩ : ∃ m, n = m + 1 := ⟨n - 1, by omega⟩
  obtain ⟨s1, e1, e2, e3, e4, e5, e6⟩ := Sobol.next_first (A := A) h h1 h40 (by omega)
  obtain ⟨s2, f1, f2, f3, f4, f5, f6⟩ := Sobol.rows_synced (A := A) h40 n s1 skip e2 e3 (by omega)
  refine ⟨s2, ?_, f2, ?_, f4.trans e4, f5.trans e5, f6.trans e6⟩
  · rw [Sobol.rows, e1]
    simp only
    rw [f1]
    simp only [List.range_succ_eq_map, List.map_cons, List.map_map]
    congr 3
    refine List.map_congr_left fun i _ => ?_
    simp only [Function.comp_apply]
    congr 1
    omega
  · rw [f3]; push_cast; omega

/-! ## All histories -/

/-- Asking for the point with seed `2^30 - 1` (or running into it) raises. -/
theorem Sobol.rows_fail {A : Arith F} {dim : Nat} (h40 : dim ≤ 40) : ∀ (n : Nat) (s : Sobol)
    (seed : Nat), Synced dim s → s.seedSave = seed → seed < 2 ^ 30 - 1 →
    2 ^ 30 - 1 < seed + 1 + n →
    ∃ s', Sobol.rows A dim n s (seed + 1) = (s', .error .valueError) ∧
      s'.v = s.v ∧ s'.dimNumSave = s.dimNumSave ∧ s.seedSave ≤ s'.seedSave ∧ s'.skip = s.skip ∧
      s'.randomize = s.randomize ∧ s'.numGenerated = s.numGenerated := by
  intro n
  induction n with
  | zero => intro s seed _ _ h3 h4; omega
  | succ n ih =>
    intro s seed h1 h2 h3 h4
    by_cases hlt : seed + 1 < 2 ^ 30 - 1
    · obtain ⟨s1, e1, e2, e3, e4, e5, e6⟩ := Sobol.next_synced (A := A) h1 h2 h40 hlt
      obtain ⟨s2, f1, f2, f2', f3, f4, f5, f6⟩ := ih s1 (seed + 1) e2 e3 hlt (by omega)
      refine ⟨s2, ?_, ?_, ?_, ?_, f4.trans e4, f5.trans e5, f6.trans e6⟩
      · rw [Sobol.rows, e1]
        simp only
        rw [f1]
      · rw [f2, e2.1, h1.1]
      · rw [f2', e2.2.1, h1.2.1]
      · rw [h2]; rw [e3] at f3; push_cast at f3; omega
    · have hs : seed + 1 = 2 ^ 30 - 1 := by omega
      obtain ⟨e1, e2, e3, e4⟩ := h1
      have hb : bitLo0 (seed + 1) = 31 := by rw [hs, bitLo0_ones]
      have hloc : s.locate ((List.range dim).map sobolRow) dim (seed + 1) =
          .ok (s.lastq, s.seedSave, bitLo0 (seed + 1)) := by
        unfold Sobol.locate
        rw [if_neg (by omega), if_pos (by rw [h2]; push_cast; rfl)]
      refine ⟨{ s with v := some ((List.range dim).map sobolRow) }, ?_, e1.symm, rfl, le_rfl, rfl,
        rfl, rfl⟩
      rw [Sobol.rows]
      have : s.next A dim (seed + 1) =
          ({ s with v := some ((List.range dim).map sobolRow) }, .error .valueError) := by
        unfold Sobol.next
        rw [if_neg (by rw [e2]; simp)]
        simp only [e1, hloc, hb]
        rw [if_pos (by decide)]
      rw [this]

/-- What a `generate` call does to the generator's table and seed keeps the state fit for the next
call, whatever the number of dimensions and samples. -/
theorem Sobol.rows_between {A : Arith F} {skip dim n : Nat} {s : Sobol} (h : Between skip s)
    (hs : skip < 2 ^ 30 - 1) :
    Between skip (Sobol.rows A dim n s skip).1 ∧ (Sobol.rows A dim n s skip).1.skip = s.skip ∧
      (Sobol.rows A dim n s skip).1.randomize = s.randomize ∧
      (Sobol.rows A dim n s skip).1.numGenerated = s.numGenerated := by
  cases n with
  | zero => exact ⟨h, rfl, rfl, rfl⟩
  | succ n =>
    by_cases hdim : 1 ≤ dim ∧ dim ≤ 40
    · obtain ⟨s1, e1, e2, e3, e4, e5, e6⟩ := Sobol.next_first (A := A) h hdim.1 hdim.2 hs
      have hb : ∀ s' : Sobol, s'.v = s1.v → s'.dimNumSave = s1.dimNumSave →
          (skip : ℤ) ≤ s'.seedSave → Between skip s' := by
        intro s' h1 h2 h3
        refine ⟨Or.inr h3, fun hm => by omega, ?_, ?_⟩
        · intro v hv
          rw [h1, e2.1] at hv
          injection hv with hv
          exact ⟨dim, hdim.1, hdim.2, by rw [h2, e2.2.1], hv.symm⟩
        · intro hv
          rw [h1, e2.1] at hv
          simp at hv
      by_cases hle : skip + 1 + n ≤ 2 ^ 30 - 1
      · obtain ⟨s2, f1, f2, f3, f4, f5, f6⟩ :=
          Sobol.rows_synced (A := A) hdim.2 n s1 skip e2 e3 (by omega)
        have hr : (Sobol.rows A dim (n + 1) s skip).1 = s2 := by
          rw [Sobol.rows, e1]
          simp only
          rw [f1]
        rw [hr]
        refine ⟨hb s2 (by rw [f2.1, e2.1]) (by rw [f2.2.1, e2.2.1]) ?_, f4.trans e4,
          f5.trans e5, f6.trans e6⟩
        rw [f3]; push_cast; omega
      · obtain ⟨s2, f1, f2, f2', f3, f4, f5, f6⟩ :=
          Sobol.rows_fail (A := A) hdim.2 n s1 skip e2 e3 hs (by omega)
        have hr : (Sobol.rows A dim (n + 1) s skip).1 = s2 := by
          rw [Sobol.rows, e1]
          simp only
          rw [f1]
        rw [hr]
        exact ⟨hb s2 f2 f2' (by rw [e3] at f3; exact f3), f4.trans e4,
          f5.trans e5, f6.trans e6⟩
    · have hbad : dim < 1 ∨ 40 < dim := by omega
      by_cases hc : (dim : ℤ) ≠ s.dimNumSave
      · have hnext : s.next A dim skip =
            ({ s with dimNumSave := dim, v := none }, .error .valueError) := by
          unfold Sobol.next
          rw [if_pos hc, Sobol.init, if_pos hbad]
        have hr : (Sobol.rows A dim (n + 1) s skip).1 = { s with dimNumSave := dim, v := none } := by
          rw [Sobol.rows, hnext]
        rw [hr]
        refine ⟨⟨h.seed, fun _ => rfl, fun v hv => by simp at hv, fun _ => ?_⟩, rfl, rfl, rfl⟩
        rcases hbad with hb | hb
        · exact Or.inr (Or.inl (by show ((dim : Nat) : ℤ) = 0; omega))
        · exact Or.inr (Or.inr (by show (40 : ℤ) < ((dim : Nat) : ℤ); omega))
      · rw [not_not] at hc
        have hv : s.v = none := by
          cases hv : s.v with
          | none => rfl
          | some v => obtain ⟨dim', h1, h2, h3, _⟩ := h.table v hv; omega
        have hnext : s.next A dim skip = (s, .error .unmodelled) := by
          unfold Sobol.next
          rw [if_neg (by rw [hc]; simp)]
          simp only [hv]
        have hr : (Sobol.rows A dim (n + 1) s skip).1 = s := by
          rw [Sobol.rows, hnext]
        rw [hr]
        exact ⟨h, rfl, rfl, rfl⟩

/-- The state of a generator after a history of `generate` calls on arbitrary spaces. -/
def Sobol.run [LinearOrder F] (A : Arith F) (mod1 : F → F) (s : Sobol)
    (calls : List (List (Dim F) × Nat × List F)) : Sobol :=
  calls.foldl (fun s c => (s.generate A mod1 c.1 c.2.1 c.2.2).1) s

theorem Sobol.generate_between [LinearOrder F] {A : Arith F} {mod1 : F → F} {s : Sobol}
    (h : Between s.skip s) (hs : s.skip < 2 ^ 30 - 1) (dims : List (Dim F)) (n : Nat)
    (shift : List F) :
    Between s.skip (s.generate A mod1 dims n shift).1 ∧
      (s.generate A mod1 dims n shift).1.skip = s.skip ∧
      (s.generate A mod1 dims n shift).1.randomize = s.randomize := by
  obtain ⟨h1, h2, h3, _⟩ := Sobol.rows_between (A := A) (dim := dims.length) (n := n) h hs
  unfold Sobol.generate
  split
  · exact ⟨h, rfl, rfl⟩
  · simp only
    split
    · exact ⟨h1, h2, h3⟩
    · exact ⟨⟨h1.seed, h1.fresh, h1.table, h1.noTable⟩, h2, h3⟩

theorem Sobol.run_between [LinearOrder F] {A : Arith F} {mod1 : F → F}
    (calls : List (List (Dim F) × Nat × List F)) : ∀ s : Sobol, Between s.skip s →
    s.skip < 2 ^ 30 - 1 → Between s.skip (s.run A mod1 calls) ∧
      (s.run A mod1 calls).skip = s.skip ∧ (s.run A mod1 calls).randomize = s.randomize := by
  induction calls with
  | nil => intro s h _; exact ⟨h, rfl, rfl⟩
  | cons c cs ih =>
    intro s h hs
    obtain ⟨h1, h2, h3⟩ := Sobol.generate_between (A := A) (mod1 := mod1) h hs c.1 c.2.1 c.2.2
    rw [← h2] at h1
    obtain ⟨i1, i2, i3⟩ := ih _ h1 (by rw [h2]; exact hs)
    rw [h2] at i1 i2
    exact ⟨i1, i2, i3.trans h3⟩

theorem Sobol.new_between {skip : Nat} {randomize : Bool} {s : Sobol}
    (h : Sobol.new skip randomize = .ok s) : Between skip s ∧ s.skip = skip ∧
      s.randomize = randomize ∧ s.numGenerated = 0 := by
  unfold Sobol.new at h
  split at h
  · injection h with h
    subst h
    exact ⟨⟨Or.inl rfl, fun _ => rfl, fun v hv => by simp at hv, fun _ => Or.inl rfl⟩, rfl, rfl,
      rfl⟩
  · simp at h

/-- Any seed, from a state that has produced at least one point in the same number of dimensions. -/
theorem Sobol.next_any {A : Arith F} {dim seed : Nat} {s : Sobol} (h : Synced dim s)
    (h40 : dim ≤ 40) (hs : seed < 2 ^ 30 - 1) :
    ∃ s', s.next A dim seed = (s', .ok (sobolVec A dim seed, seed + 1)) ∧ Synced dim s' := by
  obtain ⟨e1, e2, e3, e4⟩ := h
  have hloc : ∃ save, s.locate ((List.range dim).map sobolRow) dim seed =
      .ok (sobolPoint dim seed, save, bitLo0 seed) := by
    unfold Sobol.locate
    by_cases h0 : seed = 0
    · subst h0
      rw [if_pos rfl, sobolPoint_zero]
      exact ⟨_, rfl⟩
    · rw [if_neg h0]
      by_cases hc : (seed : ℤ) = s.seedSave + 1
      · rw [if_pos hc, e4]
        have : s.seedSave.toNat + 1 = seed := by omega
        rw [this]
        exact ⟨_, rfl⟩
      · rw [if_neg hc]
        by_cases hle : (seed : ℤ) ≤ s.seedSave
        · rw [if_pos hle, ← sobolPoint_zero, catchUp_point h40 seed 0 (by omega), ok_bind,
            Nat.zero_add]
          exact ⟨_, rfl⟩
        · rw [if_neg hle, e4]
          have h1 : (s.seedSave + 1).toNat = s.seedSave.toNat + 1 := by omega
          rw [h1, catchUp_point h40 _ _ (by omega), ok_bind]
          have h2 : s.seedSave.toNat + 1 + (seed - (s.seedSave.toNat + 1)) = seed := by omega
          rw [h2]
          exact ⟨_, rfl⟩
  obtain ⟨save, hloc⟩ := hloc
  have hpos : ¬ sobolMaxcol < bitLo0 seed := by
    have := bitLo0_lt_30 hs
    have := bitLo0_pos seed
    unfold sobolMaxcol
    omega
  refine ⟨{ s with lastq := sobolPoint dim (seed + 1), seedSave := seed }, ?_, ?_⟩
  · unfold Sobol.next
    rw [if_neg (by rw [e2]; simp)]
    simp only [e1, hloc, if_neg hpos, xorColumn_point h40 hs]
    rfl
  · exact ⟨e1, e2, by simp, by simp⟩

end Skopt

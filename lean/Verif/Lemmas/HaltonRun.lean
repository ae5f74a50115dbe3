import Verif.Lemmas.Generator
import Verif.Lemmas.Halton
import Verif.Lemmas.Sieve
import Mathlib.Order.Interval.Finset.Nat
import Mathlib.NumberTheory.PrimeCounting
import Mathlib.Data.Nat.Nth
import Mathlib.Tactic.FieldSimp

/-!
# Lemmas about a whole run of `Halton.generate` and `Hammersly.generate`
-/

namespace Skopt

theorem primes_eq_nth (N : Nat) : (List.range N).filter Nat.Prime =
    (List.range (Nat.count Nat.Prime N)).map (Nat.nth Nat.Prime) := by
  induction N with
  | zero => rfl
  | succ N ih =>
    rw [List.range_succ, List.filter_append, ih, Nat.count_succ]
    by_cases hp : Nat.Prime N
    · simp [hp, List.range_succ, Nat.nth_count hp]
    · simp [hp]

theorem take_primes {N n : Nat} (h : n ≤ ((List.range N).filter Nat.Prime).length) :
    ((List.range N).filter Nat.Prime).take n = (List.range n).map (Nat.nth Nat.Prime) := by
  rw [primes_eq_nth] at h ⊢
  rw [List.length_map, List.length_range] at h
  rw [← List.map_take, List.take_range, min_eq_left h]

/-- Without user-supplied bases the first `n` primes are used; the search for them terminates. -/
theorem Halton.bases_none {h : Halton} (hp : h.primes = none) {n : Nat} (hn : 0 < n) :
    h.bases n = .ok ((List.range n).map (Nat.nth Nat.Prime)) := by
  obtain ⟨ord, _, h1, h2⟩ := growPrimes_spec n (n + 1) 0 [] hn (by omega) (by omega) (by simpa)
  unfold Halton.bases
  simp only [hp, Option.getD_none, List.length_nil]
  rw [if_pos hn]
  simp only [pow_zero, mul_one] at h1
  rw [h1, ok_bind, ok_bind, take_primes h2, if_pos (by simp)]

/-- Exactly as many user-supplied bases as dimensions are used as they are. -/
theorem Halton.bases_some {h : Halton} {ps : List Nat} (hp : h.primes = some ps) {n : Nat}
    (hn : ps.length = n) : h.bases n = .ok ps := by
  unfold Halton.bases
  simp only [hp, Option.getD_some]
  rw [if_neg (by omega), ok_bind, if_pos hn]

theorem haltonRows_eq {bases : List Nat} (hb : ∀ b ∈ bases, 1 < b) (s n : Nat) :
    haltonRows exact bases (s : ℤ) n =
      .ok ((List.range n).map fun i => bases.map fun b => radicalInverse b (i + s)) := by
  refine mapE_ok_of_forall fun i _ => mapE_ok_of_forall fun b hbm => ?_
  have : ((i : ℤ) + (s : ℤ)) = ((i + s : Nat) : ℤ) := by push_cast; rfl
  rw [this, vanDerCorput_exact (hb b hbm)]

theorem haltonMatrix_nodup {bases : List Nat} (hne : bases ≠ []) (hb : ∀ b ∈ bases, 1 < b)
    (s n : Nat) :
    ((List.range n).map fun i => bases.map fun b => radicalInverse b (i + s)).Nodup := by
  refine List.nodup_range.map ?_
  intro i i' h
  cases bases with
  | nil => exact absurd rfl hne
  | cons b bs =>
    simp only [List.map_cons, List.cons.injEq] at h
    have := radicalInverse_injective (hb b (by simp)) h.1
    omega

/-- The arguments of the generator make sense for `n` dimensions: the default bases or exactly one
base above one per dimension. -/
def GoodBases (h : Halton) (n : Nat) : Prop :=
  h.primes = none ∨ ∃ ps, h.primes = some ps ∧ ps.length = n ∧ ∀ p ∈ ps, 1 < p

/-- Admissible skips: a fixed non-negative one, a non-empty range of non-negative ones (with a draw
from it), or both negative and different ("choose automatically"). -/
def GoodSkip (h : Halton) (draw : ℤ) : Prop :=
  (0 ≤ h.minSkip ∧ h.minSkip = h.maxSkip) ∨
  (0 ≤ h.minSkip ∧ h.minSkip < h.maxSkip ∧ h.minSkip ≤ draw ∧ draw < h.maxSkip) ∨
  (h.minSkip < 0 ∧ h.maxSkip < 0 ∧ h.minSkip ≠ h.maxSkip)

theorem GoodBases.bases {h : Halton} {n : Nat} (hb : GoodBases h n) (hn : 0 < n) :
    ∃ bs, h.bases n = .ok bs ∧ bs.length = n ∧ ∀ b ∈ bs, 1 < b := by
  rcases hb with hp | ⟨ps, hp, hl, h1⟩
  · refine ⟨_, Halton.bases_none hp hn, by simp, ?_⟩
    intro b hb
    obtain ⟨i, _, rfl⟩ := List.mem_map.1 hb
    exact (Nat.prime_nth_prime i).one_lt
  · exact ⟨ps, Halton.bases_some hp hl, hl, h1⟩

theorem GoodSkip.skip {h : Halton} {draw : ℤ} (hs : GoodSkip h draw) {bs : List Nat}
    (hne : bs ≠ []) : ∃ s : Nat, h.skip bs draw = .ok (s : ℤ) := by
  unfold Halton.skip
  rcases hs with ⟨h1, h2⟩ | ⟨h1, h2, h3, h4⟩ | ⟨h1, h2, h3⟩
  · exact ⟨h.minSkip.toNat, by rw [if_pos h2, Int.toNat_of_nonneg h1]⟩
  · refine ⟨draw.toNat, ?_⟩
    rw [if_neg (by omega), if_neg (by omega), if_neg (by omega), if_neg (by omega),
      Int.toNat_of_nonneg (by omega)]
  · rw [if_neg h3, if_pos ⟨h1, h2⟩]
    cases hm : bs.max? with
    | none => exact absurd (List.max?_eq_none_iff.1 hm) hne
    | some m => exact ⟨m, rfl⟩

theorem Halton.unit_spec {h : Halton} {n : Nat} {draw : ℤ} (hn : 0 < n) (hb : GoodBases h n)
    (hs : GoodSkip h draw) (k : Nat) :
    ∃ bs s, h.bases n = .ok bs ∧ h.skip bs draw = .ok ((s : Nat) : ℤ) ∧ bs.length = n ∧
      (∀ b ∈ bs, 1 < b) ∧
      h.unit exact n k draw =
        .ok ((List.range k).map fun i => bs.map fun b => radicalInverse b (i + s)) := by
  obtain ⟨bs, h1, h2, h3⟩ := hb.bases hn
  have hne : bs ≠ [] := by rintro rfl; simp at h2; omega
  obtain ⟨s, hs⟩ := hs.skip hne
  refine ⟨bs, s, h1, hs, h2, h3, ?_⟩
  unfold Halton.unit
  rw [h1, ok_bind, hs, ok_bind, haltonRows_eq h3]

theorem Halton.generate_spec {h : Halton} {dims : List (Dim ℝ)} {draw : ℤ} (hd : dims ≠ [])
    (hv : ∀ d ∈ dims, ValidDim exact d) (hb : GoodBases h dims.length) (hs : GoodSkip h draw)
    {k : Nat} (hk : 0 < k) :
    ∃ M pts, h.unit exact dims.length k draw = .ok M ∧ M.length = k ∧ M.Nodup ∧
      Space.inverseTransform exact (dims.map Dim.normalized) (numRows M) = .ok pts ∧
      (h.generate exact dims k draw).2 = .ok pts ∧ pts.length = k ∧
      ∀ p ∈ pts, InSpace exact dims p := by
  obtain ⟨bs, s, _, _, hl, h1, hu⟩ := Halton.unit_spec (List.length_pos_iff.2 hd) hb hs k
  have hne : bs ≠ [] := by
    rintro rfl
    exact hd (List.length_eq_zero_iff.1 hl.symm)
  obtain ⟨pts, hp, hlen, hin⟩ := unit_inverse_ok hd hv
    (M := (List.range k).map fun i => bs.map fun b => radicalInverse b (i + s))
    (by
      intro h0
      have := congrArg List.length h0
      simp at this
      omega)
    (by
      intro r hr
      obtain ⟨i, _, rfl⟩ := List.mem_map.1 hr
      simpa using hl)
    (by
      intro r hr x hx
      obtain ⟨i, _, rfl⟩ := List.mem_map.1 hr
      obtain ⟨b, hbm, rfl⟩ := List.mem_map.1 hx
      have := radicalInverse_range (h1 b hbm) (i + s)
      exact ⟨this.1, this.2.le⟩)
  refine ⟨_, pts, hu, by simp, haltonMatrix_nodup hne h1 s k, hp, ?_, by simpa using hlen, hin⟩
  unfold Halton.generate
  rw [withNormalized_snd dims fun d hd => (hv d hd).legalTransform, hu, ok_bind, hp]

theorem unitReal_valid : ValidDim exact (unitReal exact) :=
  ⟨by simp [exact], Or.inl rfl, fun x h1 h2 => ⟨h1, h2⟩⟩

theorem Hammersly.unit_spec {h : Halton} {n : Nat} {draw : ℤ} (hn : 2 ≤ n)
    (hb : GoodBases h (n - 1)) (hs : GoodSkip h draw) {k : Nat} (hk : 0 < k) :
    ∃ M, Hammersly.unit exact h n k draw = .ok M ∧ M.length = k ∧ M.Nodup ∧
      (∀ r ∈ M, r.length = n ∧ ∀ x ∈ r, 0 ≤ x ∧ x ≤ 1) := by
  obtain ⟨M₀, pts, a1, a2, a3, a4, hp, hlen, hin⟩ := Halton.generate_spec (h := h) (draw := draw)
    (dims := List.replicate (n - 1) (unitReal exact)) (by
      intro h0
      have := congrArg List.length h0
      simp at this
      omega)
    (by
      intro d hd
      rw [List.eq_of_mem_replicate hd]
      exact unitReal_valid) (by simpa using hb) hs hk
  have hrows : ∃ rows : List (List ℝ), mapE (fun p => mapE Val.toNum p) pts = .ok rows ∧
      ∀ r ∈ rows, r.length = n - 1 ∧ ∀ x ∈ r, 0 ≤ x ∧ x ≤ 1 := by
    have hnum : ∀ p ∈ pts, ∃ r : List ℝ, mapE Val.toNum p = .ok r ∧ r.length = n - 1 ∧
        ∀ x ∈ r, 0 ≤ x ∧ x ≤ 1 := by
      intro p hp
      have h := hin p hp
      have hl : p.length = n - 1 := by rw [← h.length_eq]; simp
      have hall : ∀ v ∈ p, ∃ x : ℝ, v = .num x ∧ 0 ≤ x ∧ x ≤ 1 := by
        clear hl hlen
        intro v hv
        unfold InSpace at h
        obtain ⟨d, hd, hL⟩ := forall₂_mem_right h hv
        rw [List.eq_of_mem_replicate hd] at hL
        obtain ⟨x, rfl, h1, h2⟩ := hL
        exact ⟨x, rfl, by simpa [unitReal, exact] using h1, by simpa [unitReal, exact] using h2⟩
      clear h
      have hx : ∃ xs : List ℝ, p = xs.map Val.num ∧ ∀ x ∈ xs, 0 ≤ x ∧ x ≤ 1 := by
        clear hl hp
        induction p with
        | nil => exact ⟨[], rfl, by simp⟩
        | cons v vs ih =>
          obtain ⟨xs, rfl, hxs⟩ := ih fun w hw => hall w (by simp [hw])
          obtain ⟨x, rfl, h01⟩ := hall v (by simp)
          refine ⟨x :: xs, rfl, ?_⟩
          intro y hy
          rcases List.mem_cons.1 hy with rfl | hy
          · exact h01
          · exact hxs y hy
      obtain ⟨xs, rfl, hxs⟩ := hx
      exact ⟨xs, mapE_toNum_map xs, by simpa using hl, hxs⟩
    clear hp hlen hin a1 a2 a3 a4
    induction pts with
    | nil => exact ⟨[], rfl, by simp⟩
    | cons p ps ih =>
      obtain ⟨r, hr, h1⟩ := hnum p (by simp)
      obtain ⟨rs, hrs, h2⟩ := ih fun q hq => hnum q (by simp [hq])
      refine ⟨r :: rs, mapE_cons_ok.2 ⟨r, rs, hr, hrs, rfl⟩, ?_⟩
      intro q hq
      rcases List.mem_cons.1 hq with rfl | hq
      · exact h1
      · exact h2 q hq
  obtain ⟨rows, hr, hrows⟩ := hrows
  have hrl : rows.length = k := by rw [mapE_length hr, hlen]
  have hk' : (0 : ℝ) < k := by exact_mod_cast hk
  refine ⟨_, by unfold Hammersly.unit; rw [hp, ok_bind, hr, ok_bind], by simp [hrl], ?_, ?_⟩
  · rw [List.nodup_iff_injective_getElem]
    rintro ⟨i, hi⟩ ⟨j, hj⟩ hij
    simp only [List.getElem_zipWith, List.getElem_range] at hij
    have hl := List.append_inj_right' hij rfl
    simp only [List.cons.injEq, and_true, linspaceAt, exact, Int.cast_natCast] at hl
    have hne : (1 : ℝ) / (k : ℝ) ≠ 0 := by positivity
    have : (i : ℝ) = j := mul_right_cancel₀ hne (by simpa using hl)
    exact Fin.ext (by exact_mod_cast this)
  · intro r hr
    obtain ⟨i, hi, rfl⟩ := List.getElem_of_mem hr
    simp only [List.length_zipWith, List.length_range, lt_min_iff] at hi
    simp only [List.getElem_zipWith, List.getElem_range]
    have := hrows rows[i] (List.getElem_mem _)
    refine ⟨by simp [this.1]; omega, ?_⟩
    intro x hx
    rcases List.mem_append.1 hx with hx | hx
    · exact this.2 x hx
    · rw [List.mem_singleton] at hx
      subst hx
      have hik : (i : ℝ) ≤ k := by exact_mod_cast hi.2.le
      simp only [linspaceAt, exact, Int.cast_natCast, Int.cast_one]
      constructor
      · positivity
      · rw [mul_one_div]; exact div_le_one_of_le₀ hik hk'.le

end Skopt

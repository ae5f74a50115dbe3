import Verif.Lemmas.RoundingDims
import Verif.Props.Pointwise
import Verif.Props.Encoders
import Verif.Model.BinaryFloat

/-!
# C94: round trips in floating-point arithmetic
-/

namespace Skopt

variable {F : Type} [LinearOrder F] {A : Arith F} {val : F → ℝ} {u η : ℝ} {N : ℤ}

/-- `q` is what a round trip may make of the point `p`: coordinate by coordinate `Recovered`. -/
def RecoveredPoint (val : F → ℝ) (u η : ℝ) (dims : List (Dim F)) (p q : Point F) : Prop :=
  List.Forall₂ (fun (dv : Dim F × Val F) w => Recovered val u η dv.1 dv.2 w) (dims.zip p) q

theorem FloatLike.trip (h : FloatLike A val u η N) {d : Dim F} (hv : ValidDim A d) (hf : FinePrecision val u η N d)
    (hs : YieldsNoStr d) {v : Val F} (hl : Legal A d v) : ∃ w, TripOf A d v w ∧ Recovered val u η d v w := by
  cases d with
  | real r => exact h.real_trip hv hf hl
  | int r => exact ⟨v, h.int_trip hv hf hl, rfl⟩
  | cat c => exact ⟨v, h.cat_trip hv hf hs.1 hl, rfl⟩

theorem legal_within {d : Dim F} {v : Val F} (h : Legal A d v) : Within d v := by
  cases d with
  | real r => exact h
  | int r => obtain ⟨k, hk, h⟩ := h; exact ⟨_, hk, h⟩
  | cat c => exact h

theorem FloatLike.point_trip (h : FloatLike A val u η N) {dims : List (Dim F)} (hne : dims ≠ [])
    (hv : ∀ d ∈ dims, ValidDim A d) (hs : ∀ d ∈ dims, YieldsNoStr d) (hf : ∀ d ∈ dims, FinePrecision val u η N d)
    {p : Point F} (hp : InSpace A dims p) :
    ∃ r q, Space.transform A dims [p] = .ok [r] ∧ Space.inverseTransform A dims [r] = .ok [q] ∧
      RecoveredPoint val u η dims p q := by
  have hin : List.Forall₂ (Legal A) dims p := hp
  obtain ⟨parts, q, h1, h2, h3, h4⟩ : ∃ (parts : List (List (Val F))) (q : Point F), Parts A dims p parts ∧
      List.Forall₂ (fun (db : Dim F × List (List (Val F))) col => db.1.inverse A db.2 = .ok col)
        (dims.zip (parts.map fun t => [t])) (q.map fun v => [v]) ∧
      List.Forall₂ (fun d b => b.length = 1 ∧ ∀ r ∈ b, r.length = d.transformedSize) dims (parts.map fun t => [t]) ∧
      RecoveredPoint val u η dims p q := by
    clear hne hp
    unfold Parts RecoveredPoint
    induction hin with
    | nil => exact ⟨[], [], .nil, .nil, .nil, .nil⟩
    | @cons d v ds vs hl _ ih =>
      obtain ⟨w, ⟨t, t1, t2, t3⟩, hw⟩ := h.trip (hv d (by simp)) (hf d (by simp)) (hs d (by simp)) hl
      obtain ⟨parts, q, h1, h2, h3, h4⟩ := ih (fun d hd => hv d (by simp [hd])) (fun d hd => hs d (by simp [hd]))
        (fun d hd => hf d (by simp [hd]))
      exact ⟨t :: parts, w :: q, .cons t1 h1, .cons t2 h2, .cons ⟨rfl, by simpa using t3⟩ h3, .cons hw h4⟩
  have hw : List.Forall₂ Within dims p := hin.imp fun _ _ g => legal_within g
  refine ⟨parts.flatten, q, (transform_one_iff hne hv hs hw _).2 ⟨parts, h1, rfl⟩, ?_, h4⟩
  have hic := inverseCols_glue (A := A) (n := 1) (s := 0) (P := List.replicate 1 [])
    (by simp) (by intro r hr; rw [(List.mem_replicate.1 hr).2]; rfl) h3 h2
  rw [glue_singletons, glue_nil_left (by simp)] at hic
  unfold Space.inverseTransform
  rw [hic, ok_bind, if_neg (by simp)]
  have hql : q.length = dims.length := by
    have := h4.length_eq
    rw [← this, List.length_zip, hin.length_eq, Nat.min_self]
  cases q with
  | nil => simp only [List.length_nil] at hql; exact absurd (List.length_eq_zero_iff.1 hql.symm) hne
  | cons w ws =>
    show mapE (fun i => mapE (fun col => pyGet col i) _) (List.range 1) = _
    rw [mapE_eq_ok]
    refine .cons ?_ .nil
    rw [mapE_map]
    conv_rhs => rw [← List.map_id (w :: ws)]
    exact mapE_ok_of_forall fun v _ => rfl

/-- **C94.** In any floating-point arithmetic with relative rounding errors up to `u`, any batch of points of a space
whose integer ranges and numbers of categories are small in comparison with `1/u` survives `transform` and
`inverse_transform`: both calls return, `Integer` and `Categorical` coordinates – with every prior and transform – come
back exactly, and `Real` coordinates come back within the stated error and inside the dimension.

Missing: the `string` encoding (C02), non-default dtypes of `Real`, overflow. -/
theorem C94_round_trip_rounded_partial (h : FloatLike A val u η N) (dims : List (Dim F)) (hne : dims ≠ [])
    (hv : ∀ d ∈ dims, ValidDim A d) (hs : ∀ d ∈ dims, YieldsNoStr d) (hf : ∀ d ∈ dims, FinePrecision val u η N d)
    (X : List (Point F)) (hX : X ≠ []) (hin : ∀ p ∈ X, InSpace A dims p) :
    ∃ M X', Space.transform A dims X = .ok M ∧ Space.inverseTransform A dims M = .ok X' ∧
      List.Forall₂ (RecoveredPoint val u η dims) X X' := by
  obtain ⟨M, X', h1, h2, h3⟩ : ∃ M X', List.Forall₂ (fun p r => Space.transform A dims [p] = .ok [r]) X M ∧
      List.Forall₂ (fun r q => Space.inverseTransform A dims [r] = .ok [q]) M X' ∧
      List.Forall₂ (RecoveredPoint val u η dims) X X' := by
    clear hX
    induction X with
    | nil => exact ⟨[], [], .nil, .nil, .nil⟩
    | cons p X ih =>
      obtain ⟨M, X', h1, h2, h3⟩ := ih fun q hq => hin q (by simp [hq])
      obtain ⟨r, q, g1, g2, g3⟩ := h.point_trip hne hv hs hf (hin p (by simp))
      exact ⟨r :: M, q :: X', .cons g1 h1, .cons g2 h2, .cons g3 h3⟩
  have hM : M ≠ [] := by
    intro h0
    rw [h0] at h1
    cases h1
    exact hX rfl
  refine ⟨M, X', (C67_transform_pointwise_partial A dims hne hv (Or.inl hs) X hX hin M).2 h1,
    (C67_inverse_pointwise_partial A dims hne hv (fun c hc => (hs _ hc).1) M hM X').2 h2, h3⟩

/-- A dimension whose values come back exactly: everything but transformed `Real` dimensions. -/
def TripsExactly : Dim F → Prop
  | .real d => d.prior = .uniform ∧ d.transform = .identity
  | _ => True

/-- **C94, exactly.** In a space of `Integer`, `Categorical` and untransformed `Real` dimensions the round trip is the
identity in floating-point arithmetic, too. -/
theorem C94_exact_round_trip_partial (h : FloatLike A val u η N) (dims : List (Dim F)) (hne : dims ≠ [])
    (hv : ∀ d ∈ dims, ValidDim A d) (hs : ∀ d ∈ dims, YieldsNoStr d) (hf : ∀ d ∈ dims, FinePrecision val u η N d)
    (he : ∀ d ∈ dims, TripsExactly d) (X : List (Point F)) (hX : X ≠ []) (hin : ∀ p ∈ X, InSpace A dims p) :
    ∃ M, Space.transform A dims X = .ok M ∧ Space.inverseTransform A dims M = .ok X := by
  obtain ⟨M, X', h1, h2, h3⟩ := C94_round_trip_rounded_partial h dims hne hv hs hf X hX hin
  suffices X' = X by subst this; exact ⟨M, h1, h2⟩
  clear h1 h2 hX
  have key : ∀ p q, InSpace A dims p → RecoveredPoint val u η dims p q → q = p := by
    intro p q hp hq
    unfold RecoveredPoint at hq
    have hleg : List.Forall₂ (Legal A) dims p := hp
    clear hne hv hs hf h3 hin
    induction hleg generalizing q with
    | nil => cases hq; rfl
    | @cons d v ds vs hl hrest ih =>
      cases hq with
      | cons h1 h2 =>
        rw [ih (fun d hd => he d (by simp [hd])) _ hrest h2]
        congr 1
        cases d with
        | int r => exact h1
        | cat c => exact h1
        | real r =>
          obtain ⟨x, y, rfl, rfl, -, -, g⟩ := h1
          have hr := he (.real r) (by simp)
          rw [realError, hr.1] at g
          simp only [hr.2, reduceCtorEq, if_false] at g
          have : val y - val x = 0 := abs_eq_zero.1 (le_antisymm g (abs_nonneg _))
          rw [h.val_mono.injective (sub_eq_zero.1 this)]
  induction h3 with
  | nil => rfl
  | cons g _ ih =>
    rw [key _ _ (hin _ (by simp)) g, ih fun p hp => hin p (by simp [hp])]

/-- **C94, no collisions.** In such a space different points have different encodings: the model never mistakes one
point for another because of rounding. -/
theorem C94_distinct_encodings_partial (h : FloatLike A val u η N) (dims : List (Dim F)) (hne : dims ≠ [])
    (hv : ∀ d ∈ dims, ValidDim A d) (hs : ∀ d ∈ dims, YieldsNoStr d) (hf : ∀ d ∈ dims, FinePrecision val u η N d)
    (he : ∀ d ∈ dims, TripsExactly d) (p q : Point F) (hp : InSpace A dims p) (hq : InSpace A dims q)
    (r : List (Val F)) (h1 : Space.transform A dims [p] = .ok [r]) (h2 : Space.transform A dims [q] = .ok [r]) :
    p = q := by
  obtain ⟨M, a1, a2⟩ := C94_exact_round_trip_partial h dims hne hv hs hf he [p] (by simp) (by simpa using hp)
  obtain ⟨M', b1, b2⟩ := C94_exact_round_trip_partial h dims hne hv hs hf he [q] (by simp) (by simpa using hq)
  rw [h1] at a1
  rw [h2] at b1
  injection a1 with a1
  injection b1 with b1
  subst a1
  subst b1
  rw [a2] at b2
  injection b2 with b2
  injection b2

/-! ### Binary floating point satisfies the standard model -/

theorem intCast_isBinary {p : ℕ} {k : ℤ} (h : |k| ≤ 2 ^ p) : IsBinary p (k : ℝ) := ⟨k, 0, h, by simp⟩

theorem bin_ofInt {p : ℕ} (hp : 1 ≤ p) {k : ℤ} (h : |k| ≤ 2 ^ p) : (((binArith p).ofInt k).1 : ℝ) = k :=
  rnd_of_isBinary hp (intCast_isBinary h)

theorem bin_zero (p : ℕ) : (((binArith p).ofInt 0).1 : ℝ) = 0 := by
  show rnd p ((0 : ℤ) : ℝ) = 0
  rw [Int.cast_zero, rnd_zero]

theorem bin_one {p : ℕ} (hp : 1 ≤ p) : (((binArith p).ofInt 1).1 : ℝ) = 1 := by
  rw [bin_ofInt hp (by rw [abs_one]; exact one_le_pow₀ (by norm_num)), Int.cast_one]

theorem rnd_self {p : ℕ} (hp : 1 ≤ p) (x : Bin p) : rnd p x.1 = x.1 := rnd_of_isBinary hp x.2

theorem rnd_pos {p : ℕ} (hp : 1 ≤ p) {x : ℝ} (hx : 0 < x) : 0 < rnd p x :=
  lt_of_lt_of_le (by positivity) (rnd_pos_bounds hp hx).1

theorem binArith_mono {p : ℕ} (hp : 10 ≤ p) : MonoArith (binArith p) := by
  have hp1 : 1 ≤ p := by omega
  have hm := rnd_mono hp1
  have pos : ∀ {c : Bin p}, (binArith p).ofInt 0 < c → (0 : ℝ) < c.1 := by
    intro c hc
    have : ((binArith p).ofInt 0).1 < c.1 := hc
    rwa [bin_zero] at this
  refine ⟨?_, ?_, ?_, ?_, ?_, ?_, ?_, ?_, ?_, ?_, ?_⟩
  · intro a b hab
    exact hm (by exact_mod_cast hab)
  · intro a b c hab
    exact hm (sub_le_sub_right (show a.1 ≤ b.1 from hab) _)
  · intro a
    refine Subtype.ext ?_
    rw [bin_zero]
    show rnd p (a.1 - a.1) = 0
    rw [sub_self, rnd_zero]
  · intro a b c hc hab
    exact hm (div_le_div_of_nonneg_right (show a.1 ≤ b.1 from hab) (pos hc).le)
  · intro c hc
    refine Subtype.ext ?_
    show rnd p (c.1 / c.1) = rnd p ((1 : ℤ) : ℝ)
    rw [div_self (pos hc).ne', Int.cast_one]
  · intro c hc
    refine Subtype.ext ?_
    show rnd p (((binArith p).ofInt 0).1 / c.1) = _
    rw [bin_zero, zero_div, rnd_zero]
  · intro a
    refine Subtype.ext ?_
    show rnd p (a.1 / ((binArith p).ofInt 1).1) = a.1
    rw [bin_one hp1, div_one, rnd_self hp1]
  · intro a
    refine Subtype.ext ?_
    show rnd p (a.1 * ((binArith p).ofInt 0).1) = _
    rw [bin_zero, mul_zero, rnd_zero]
  · intro a b ha hab
    exact hm (Real.logb_le_logb_of_le (by norm_num) (pos ha) hab)
  · intro a ha
    have h1 : ((binArith p).ofInt 1).1 < a.1 := ha
    rw [bin_one hp1] at h1
    show ((binArith p).ofInt 0).1 < rnd p (Real.logb 10 a.1)
    rw [bin_zero]
    exact rnd_pos hp1 (Real.logb_pos (by norm_num) h1)
  · refine Subtype.ext ?_
    show rnd p (Real.logb 10 ((binArith p).ofInt 10).1) = rnd p ((1 : ℤ) : ℝ)
    rw [bin_ofInt hp1, Int.cast_one]
    · congr 1
      push_cast
      exact Real.logb_self_eq_one (by norm_num)
    · calc |(10 : ℤ)| ≤ 2 ^ 10 := by decide
        _ ≤ 2 ^ p := pow_le_pow_right₀ (by norm_num) hp

/-- Round-to-nearest binary floating point of any precision from ten bits satisfies the standard model, with unit
roundoff `2^-p`. -/
theorem binArith_floatLike {p : ℕ} (hp : 10 ≤ p) : FloatLike (binArith p) Subtype.val (1 / 2 ^ p) 0 (2 ^ p) := by
  have hp1 : 1 ≤ p := by omega
  have hm := rnd_mono hp1
  have h10 : (2 : ℝ) ^ 10 ≤ 2 ^ p := pow_le_pow_right₀ (by norm_num) hp
  refine ⟨fun _ _ h => h, binArith_mono hp, by positivity, ?_, le_rfl, by positivity,
    one_le_pow₀ (by norm_num), fun k hk => bin_ofInt hp1 hk, ?_, ?_, ?_, ?_, ?_, ?_, ?_, ?_, ?_, ?_, ?_⟩
  · exact one_div_le_one_div_of_le (by norm_num) (le_trans (by norm_num) h10)
  · exact fun x y => rnd_err p _
  · exact fun x y => rnd_err p _
  · intro x y; rw [add_zero]; exact rnd_err p _
  · intro x y _; rw [add_zero]; exact rnd_err p _
  · exact fun x _ => rnd_err p _
  · intro b x hb
    rw [add_zero]
    have := rnd_err p (b.1 ^ x.1)
    rwa [abs_of_pos (Real.rpow_pos_of_pos hb _)] at this
  · exact fun x k h => roundHalfEven_of_abs_lt h
  · intro x e he
    have he' : ((binArith p).ofInt 0).1 ≤ e.1 := he
    rw [bin_zero] at he'
    show x.1 ≤ rnd p (x.1 + e.1)
    rw [← rnd_self hp1 x]
    exact hm (by rw [rnd_self hp1]; linarith)
  · intro x e he
    have he' : ((binArith p).ofInt 0).1 ≤ e.1 := he
    rw [bin_zero] at he'
    show rnd p (x.1 - e.1) ≤ x.1
    conv_rhs => rw [← rnd_self hp1 x]
    exact hm (by linarith)
  · show ((binArith p).ofInt 0).1 ≤ rnd p (1 / 10 ^ 8)
    rw [bin_zero]
    exact (rnd_pos hp1 (by norm_num)).le
  · exact rnd_of_isBinary hp1 ⟨1, -1, by rw [abs_one]; exact one_le_pow₀ (by norm_num), by norm_num⟩

/-- Exact arithmetic is the limiting case without errors. -/
theorem exact_floatLike {N : ℤ} (hN : 1 ≤ N) : FloatLike exact id 0 0 N := by
  refine ⟨strictMono_id, exact_mono, le_rfl, by norm_num, le_rfl, le_rfl, hN, fun k _ => rfl, ?_, ?_, ?_, ?_, ?_, ?_,
    fun x k h => roundHalfEven_of_abs_lt h, ?_, ?_, ?_, ?_⟩
  all_goals simp [exact]


/-! ### Double precision -/

/-- Dimensions whose values survive the round trip in double precision: `Integer` with bounds up to `2^48` (up to
`2^32`, and a base up to ten, with a logarithmic prior), `Categorical` with up to `2^48` categories, and untransformed
`Real`. -/
def Moderate : Dim (Bin 53) → Prop
  | .real d => d.prior = .uniform ∧ d.transform = .identity ∧ ∀ x, d.cast x = x
  | .int d => |d.low.1| ≤ 2 ^ 48 ∧ |d.high.1| ≤ 2 ^ 48 ∧
      (d.prior = .logUniform → 1 ≤ d.low.1 ∧ d.high.1 ≤ 2 ^ 32 ∧ 1 < d.base.1 ∧ d.base.1 ≤ 10)
  | .cat d => d.cats.length ≤ 2 ^ 48

theorem Moderate.exact : ∀ {d : Dim (Bin 53)}, Moderate d → TripsExactly d
  | .real _, h => ⟨h.1, h.2.1⟩
  | .int _, _ => trivial
  | .cat _, _ => trivial

theorem Moderate.fine {d : Dim (Bin 53)} (hv : ValidDim (binArith 53) d) (h : Moderate d) :
    FinePrecision Subtype.val (1 / 2 ^ 53) 0 (2 ^ 53) d := by
  cases d with
  | real d =>
    refine ⟨h.2.2, fun hp => ?_⟩
    rw [h.1] at hp
    cases hp
  | cat d =>
    have h : d.cats.length ≤ 2 ^ 48 := h
    have h' : (d.cats.length : ℝ) ≤ 2 ^ 48 := by exact_mod_cast h
    refine ⟨by exact_mod_cast h.trans (by norm_num), ?_⟩
    calc (1 : ℝ) / 2 ^ 53 * (14 * d.cats.length + 2) ≤ 1 / 2 ^ 53 * (14 * 2 ^ 48 + 2) := by gcongr
      _ < 1 / 2 := by norm_num
  | int d =>
    obtain ⟨h1, h2, h3⟩ := h
    have hb : boundsSize Subtype.val d.low d.high ≤ 2 ^ 48 := max_le h1 h2
    refine ⟨lt_of_le_of_lt hb (by norm_num), fun _ => ?_, fun hp => ?_⟩
    · calc (1 : ℝ) / 2 ^ 53 * (14 * boundsSize Subtype.val d.low d.high + 2) ≤ 1 / 2 ^ 53 * (14 * 2 ^ 48 + 2) := by gcongr
        _ < 1 / 2 := by norm_num
    · obtain ⟨g1, g2, g3, g4⟩ := h3 hp
      have hlt : d.low.1 ≤ d.high.1 := by
        obtain ⟨l, k, hlk, e1, e2, -⟩ := hv
        rw [e1, e2]
        exact (binArith_mono (by norm_num)).ofInt_mono hlk.le
      refine ⟨by linarith, g3, ?_⟩
      have l2 : Real.log 2 ≤ 1 := by
        have := Real.log_le_sub_one_of_pos (x := 2) (by norm_num)
        linarith
      have lh : ∀ x : ℝ, 1 ≤ x → x ≤ 2 ^ 32 → |Real.log x| ≤ 32 := by
        intro x h1 h2
        rw [abs_of_nonneg (Real.log_nonneg h1)]
        have := Real.log_le_log (by linarith) h2
        rw [Real.log_pow] at this
        push_cast at this
        linarith
      have lb : Real.log d.base.1 ≤ 9 := by
        have := Real.log_le_sub_one_of_pos (x := d.base.1) (by linarith)
        linarith
      have hl : logSize Subtype.val d.low d.high d.base ≤ 3000 := by
        have := max_le (lh d.low.1 g1 (hlt.trans g2)) (lh d.high.1 (g1.trans hlt) g2)
        unfold logSize
        linarith
      have hhigh : (0 : ℝ) ≤ d.high.1 := by linarith
      calc (1 : ℝ) / 2 ^ 53 * logSize Subtype.val d.low d.high d.base * d.high.1 + 0
          ≤ 1 / 2 ^ 53 * 3000 * 2 ^ 32 + 0 := by gcongr
        _ < 1 / 2 := by norm_num

/-- **C94, double precision.** With `np.float64` rounding, every batch of points of a space of moderate size comes back
from `transform` and `inverse_transform` unchanged. -/
theorem C94_double_round_trip_partial (dims : List (Dim (Bin 53))) (hne : dims ≠ [])
    (hv : ∀ d ∈ dims, ValidDim (binArith 53) d) (hs : ∀ d ∈ dims, YieldsNoStr d) (hm : ∀ d ∈ dims, Moderate d)
    (X : List (Point (Bin 53))) (hX : X ≠ []) (hin : ∀ p ∈ X, InSpace (binArith 53) dims p) :
    ∃ M, Space.transform (binArith 53) dims X = .ok M ∧ Space.inverseTransform (binArith 53) dims M = .ok X :=
  C94_exact_round_trip_partial (binArith_floatLike (by norm_num)) dims hne hv hs (fun d hd => (hm d hd).fine (hv d hd))
    (fun d hd => (hm d hd).exact) X hX hin

/-! ### An example -/

/-- `Integer(-1000, 1000000, transform="normalize")` in double precision. -/
noncomputable def dblInt : IntDim (Bin 53) where
  low := (binArith 53).ofInt (-1000)
  high := (binArith 53).ofInt 1000000
  prior := .uniform
  base := (binArith 53).ofInt 10
  transform := .normalize
  name := none
  wrap := id

/-- `Integer(1, 1000000, prior="log-uniform", transform="normalize")` in double precision. -/
noncomputable def dblLog : IntDim (Bin 53) where
  low := (binArith 53).ofInt 1
  high := (binArith 53).ofInt 1000000
  prior := .logUniform
  base := (binArith 53).ofInt 10
  transform := .normalize
  name := none
  wrap := id

/-- `Real(0.001, 1000, prior="log-uniform")` in double precision. -/
noncomputable def dblReal : RealDim (Bin 53) where
  low := .near 53 (1 / 1000)
  high := (binArith 53).ofInt 1000
  prior := .logUniform
  base := (binArith 53).ofInt 10
  transform := .normalize
  name := none
  cast := id

theorem dbl_val {k : ℤ} (h : |k| ≤ 2 ^ 53) : (((binArith 53).ofInt k).1 : ℝ) = k := bin_ofInt (by norm_num) h

theorem dbl_round {k : ℤ} (h : |k| ≤ 2 ^ 53) : (binArith 53).round ((binArith 53).ofInt k) = k := by
  show roundHalfEven ((binArith 53).ofInt k).1 = k
  rw [dbl_val h, roundHalfEven_intCast]

theorem dblInt_valid : ValidDim (binArith 53) (.int dblInt) :=
  ⟨-1000, 1000000, by norm_num, rfl, rfl, dbl_round (by decide), dbl_round (by decide), Or.inr rfl, fun _ _ _ => rfl⟩

theorem dblLog_valid : ValidDim (binArith 53) (.int dblLog) :=
  ⟨1, 1000000, by norm_num, rfl, rfl, dbl_round (by decide), dbl_round (by decide), Or.inr rfl, fun _ _ _ => rfl⟩

theorem dblInt_moderate : Moderate (.int dblInt) := by
  refine ⟨?_, ?_, fun h => by cases h⟩
  · show |((binArith 53).ofInt (-1000)).1| ≤ _
    rw [dbl_val (by decide)]; norm_num
  · show |((binArith 53).ofInt 1000000).1| ≤ _
    rw [dbl_val (by decide)]; norm_num

theorem dblLog_moderate : Moderate (.int dblLog) := by
  have e1 : (dblLog.low.1 : ℝ) = 1 := by rw [dblLog, dbl_val (by decide)]; norm_num
  have e2 : (dblLog.high.1 : ℝ) = 1000000 := by rw [dblLog, dbl_val (by decide)]; norm_num
  have e3 : (dblLog.base.1 : ℝ) = 10 := by rw [dblLog, dbl_val (by decide)]; norm_num
  refine ⟨?_, ?_, fun _ => ⟨?_, ?_, ?_, ?_⟩⟩
  · show |dblLog.low.1| ≤ _
    rw [e1]; norm_num
  · show |dblLog.high.1| ≤ _
    rw [e2]; norm_num
  · exact e1.ge
  · rw [e2]; norm_num
  · rw [e3]; norm_num
  · exact e3.le

theorem dbl_legal {d : IntDim (Bin 53)} {l h k : ℤ} (e1 : d.low = (binArith 53).ofInt l)
    (e2 : d.high = (binArith 53).ofInt h) (h1 : l ≤ k) (h2 : k ≤ h) :
    Legal (binArith 53) (.int d) (.num ((binArith 53).ofInt k)) := by
  have hm := (binArith_mono (p := 53) (by norm_num)).ofInt_mono
  exact ⟨k, rfl, e1 ▸ hm h1, e2 ▸ hm h2⟩

/-- Two points of a space of a uniform and a log-uniform `Integer` come back from double precision.
Meets the hypotheses of `C94_exact_round_trip_partial`. -/
example : ∃ M, Space.transform (binArith 53) [.int dblInt, .int dblLog]
      [[.num ((binArith 53).ofInt 7), .num ((binArith 53).ofInt 12345)],
       [.num ((binArith 53).ofInt (-999)), .num ((binArith 53).ofInt 999999)]] = .ok M ∧
    Space.inverseTransform (binArith 53) [.int dblInt, .int dblLog] M =
      .ok [[.num ((binArith 53).ofInt 7), .num ((binArith 53).ofInt 12345)],
        [.num ((binArith 53).ofInt (-999)), .num ((binArith 53).ofInt 999999)]] := by
  refine C94_double_round_trip_partial _ (by simp) ?_ ?_ ?_ _ (by simp) ?_
  · simpa using ⟨dblInt_valid, dblLog_valid⟩
  · intro d hd
    simp only [List.mem_cons, List.not_mem_nil, or_false] at hd
    rcases hd with rfl | rfl <;> trivial
  · simpa using ⟨dblInt_moderate, dblLog_moderate⟩
  · intro p hp
    simp only [List.mem_cons, List.not_mem_nil, or_false] at hp
    rcases hp with rfl | rfl
    · exact .cons (dbl_legal rfl rfl (by norm_num) (by norm_num)) (.cons (dbl_legal rfl rfl (by norm_num) (by norm_num)) .nil)
    · exact .cons (dbl_legal rfl rfl (by norm_num) (by norm_num)) (.cons (dbl_legal rfl rfl (by norm_num) (by norm_num)) .nil)

/-- In double precision no two of the 1001001 values of that `Integer` share an encoding. -/
example (j k : ℤ) (hj : -1000 ≤ j ∧ j ≤ 1000000) (hk : -1000 ≤ k ∧ k ≤ 1000000) (r : List (Val (Bin 53)))
    (h1 : Space.transform (binArith 53) [.int dblInt] [[.num ((binArith 53).ofInt j)]] = .ok [r])
    (h2 : Space.transform (binArith 53) [.int dblInt] [[.num ((binArith 53).ofInt k)]] = .ok [r]) : j = k := by
  have h := C94_distinct_encodings_partial (binArith_floatLike (p := 53) (by norm_num)) [.int dblInt] (by simp)
    (by simpa using dblInt_valid) (by simp [YieldsNoStr]) (by simpa using dblInt_moderate.fine dblInt_valid)
    (by simp [TripsExactly]) _ _ (.cons (dbl_legal rfl rfl hj.1 hj.2) .nil) (.cons (dbl_legal rfl rfl hk.1 hk.2) .nil)
    r h1 h2
  injection h with h
  injection h with h
  have h := congrArg (binArith 53).round h
  rwa [dbl_round (abs_le.2 ⟨by omega, by omega⟩), dbl_round (abs_le.2 ⟨by omega, by omega⟩)] at h

/-- A `Real` dimension over six decades with a log prior: the values come back within a relative error of `10⁻¹²`. -/
example (x : Bin 53) (h1 : dblReal.low ≤ x) (h2 : x ≤ dblReal.high) :
    ∃ M y, Space.transform (binArith 53) [.real dblReal] [[.num x]] = .ok M ∧
      Space.inverseTransform (binArith 53) [.real dblReal] M = .ok [[.num y]] ∧
      dblReal.low ≤ y ∧ y ≤ dblReal.high ∧ |y.1 - x.1| ≤ 1 / 10 ^ 12 * x.1 := by
  have e2 : (dblReal.high.1 : ℝ) = 1000 := by rw [dblReal, dbl_val (by decide)]; norm_num
  have e3 : (dblReal.base.1 : ℝ) = 10 := by rw [dblReal, dbl_val (by decide)]; norm_num
  have e1 : |dblReal.low.1 - 1 / 1000| ≤ 1 / 2 ^ 53 * |(1 / 1000 : ℝ)| := rnd_err 53 (1 / 1000)
  rw [abs_of_pos (a := (1 / 1000 : ℝ)) (by norm_num), abs_le] at e1
  have low1 : 1 / 1024 ≤ dblReal.low.1 := by linarith [e1.1]
  have low2 : dblReal.low.1 ≤ 1 := by linarith [e1.2]
  have hx : dblReal.low.1 ≤ x.1 := h1
  have l2 : Real.log 2 ≤ 1 := by
    have := Real.log_le_sub_one_of_pos (x := 2) (by norm_num)
    linarith
  have hA : |Real.log dblReal.low.1| ≤ 10 := by
    rw [abs_of_nonpos (Real.log_nonpos (by linarith) low2)]
    have := Real.log_le_log (by norm_num) low1
    rw [show (1 / 1024 : ℝ) = (2 ^ 10)⁻¹ by norm_num, Real.log_inv, Real.log_pow] at this
    push_cast at this
    linarith
  have hB : |Real.log dblReal.high.1| ≤ 10 := by
    rw [e2, abs_of_nonneg (Real.log_nonneg (by norm_num))]
    have := Real.log_le_log (by norm_num) (show (1000 : ℝ) ≤ 2 ^ 10 by norm_num)
    rw [Real.log_pow] at this
    push_cast at this
    linarith
  have hC : Real.log dblReal.base.1 ≤ 9 := by
    rw [e3]
    have := Real.log_le_sub_one_of_pos (x := 10) (by norm_num)
    linarith
  have hL : logSize Subtype.val dblReal.low dblReal.high dblReal.base ≤ 709 := by
    have := max_le hA hB
    unfold logSize
    linarith
  obtain ⟨M, X', g1, g2, g3⟩ := C94_round_trip_rounded_partial (binArith_floatLike (p := 53) (by norm_num))
    [.real dblReal] (by simp)
    (by
      simp only [List.mem_singleton, forall_eq]
      refine ⟨?_, Or.inr rfl, fun x a b => ⟨a, b⟩⟩
      show dblReal.low.1 < dblReal.high.1
      rw [e2]; linarith)
    (by simp [YieldsNoStr])
    (by
      simp only [List.mem_singleton, forall_eq]
      refine ⟨fun x => rfl, fun _ => ⟨by linarith, by rw [e3]; norm_num, ?_⟩⟩
      calc (1 : ℝ) / 2 ^ 53 * _ ≤ 1 / 2 ^ 53 * 709 := by gcongr
        _ ≤ 1 := by norm_num)
    [[.num x]] (by simp) (by simpa using .cons ⟨x, rfl, h1, h2⟩ .nil)
  cases g3 with
  | cons a b =>
    cases b
    cases a with
    | cons a b =>
      cases b
      obtain ⟨x', y, ex, rfl, y1, y2, y3⟩ := a
      obtain rfl : x = x' := by injection ex
      refine ⟨M, y, g1, g2, y1, y2, y3.trans ?_⟩
      have hx0 : 0 ≤ x.1 := by linarith
      show 1 / 2 ^ 53 * logSize Subtype.val dblReal.low dblReal.high dblReal.base * x.1 + 0 ≤ _
      calc 1 / 2 ^ 53 * logSize Subtype.val dblReal.low dblReal.high dblReal.base * x.1 + 0
          ≤ 1 / 2 ^ 53 * 709 * x.1 + 0 := by gcongr
        _ ≤ _ := by
          rw [add_zero]
          gcongr
          norm_num

/-! ### Where it fails -/

/-- `Integer(-2**53, 2**53, transform="normalize")` in double precision. -/
noncomputable def wideInt : IntDim (Bin 53) where
  low := (binArith 53).ofInt (-2 ^ 53)
  high := (binArith 53).ofInt (2 ^ 53)
  prior := .uniform
  base := (binArith 53).ofInt 10
  transform := .normalize
  name := none
  wrap := id


theorem wideInt_valid : ValidDim (binArith 53) (.int wideInt) :=
  ⟨-2 ^ 53, 2 ^ 53, by norm_num, rfl, rfl, dbl_round (by decide), dbl_round (by decide), Or.inr rfl, fun _ _ _ => rfl⟩

/-- `2**53 + 1` is halfway between two doubles; the even one is `2**53`. -/
theorem rnd_odd : rnd 53 (2 ^ 53 + 1) = 2 ^ 53 := by
  have hl : Int.log 2 |(2 ^ 53 + 1 : ℝ)| = 53 := by
    rw [abs_of_pos (by positivity)]
    refine le_antisymm ?_ ?_
    · have : Int.log 2 (2 ^ 53 + 1 : ℝ) < 54 := by
        rw [← Int.lt_zpow_iff_log_lt (b := 2) (by norm_num) (by positivity)]
        norm_num
      omega
    · rw [← Int.zpow_le_iff_le_log (b := 2) (by norm_num) (by positivity)]
      norm_num
  have hu : ulp 53 (2 ^ 53 + 1) = 2 := by
    unfold ulp
    rw [hl]
    norm_num
  have hfl : ⌊((2 ^ 53 + 1) / 2 : ℝ)⌋ = 2 ^ 52 := by
    rw [Int.floor_eq_iff]
    norm_num
  have hfr : Int.fract ((2 ^ 53 + 1) / 2 : ℝ) = 1 / 2 := by
    rw [← Int.self_sub_floor, hfl]
    norm_num
  unfold rnd
  rw [hu]
  unfold roundHalfEven
  rw [hfr, hfl, if_neg (lt_irrefl _), if_neg (lt_irrefl _), if_pos (by decide)]
  norm_num

/-- **C94 is false of wide ranges.** `Space([Integer(-2**53, 2**53, transform="normalize")])` encodes the points `[0]`
and `[1]`, both of which it contains, by the same number: `1 - (-2**53)` is rounded to `2**53`.  No round trip can
return both, and the model is told the two evaluations were made at the same place.  (Real run: with
`s = Space([Integer(-2**53, 2**53, transform="normalize")])`, `s.inverse_transform(s.transform([[1]]))` is `[[0]]`.) -/
theorem C94_refuted_wide : ∃ r,
    ValidDim (binArith 53) (.int wideInt) ∧
    InSpace (binArith 53) [.int wideInt] [.num ((binArith 53).ofInt 0)] ∧
    InSpace (binArith 53) [.int wideInt] [.num ((binArith 53).ofInt 1)] ∧
    ([.num ((binArith 53).ofInt 0)] : Point (Bin 53)) ≠ [.num ((binArith 53).ofInt 1)] ∧
    Space.transform (binArith 53) [.int wideInt] [[.num ((binArith 53).ofInt 0)]] = .ok [r] ∧
    Space.transform (binArith 53) [.int wideInt] [[.num ((binArith 53).ofInt 1)]] = .ok [r] := by
  have hm := (binArith_mono (p := 53) (by norm_num)).ofInt_mono
  have l0 : Legal (binArith 53) (.int wideInt) (.num ((binArith 53).ofInt 0)) :=
    dbl_legal (l := -2 ^ 53) (h := 2 ^ 53) rfl rfl (by norm_num) (by norm_num)
  have l1 : Legal (binArith 53) (.int wideInt) (.num ((binArith 53).ofInt 1)) :=
    dbl_legal (l := -2 ^ 53) (h := 2 ^ 53) rfl rfl (by norm_num) (by norm_num)
  have vlow : ((binArith 53).ofInt (-2 ^ 53)).1 = -(2 : ℝ) ^ 53 := by rw [dbl_val (by decide)]; norm_num
  have vhigh : ((binArith 53).ofInt (2 ^ 53)).1 = (2 : ℝ) ^ 53 := by rw [dbl_val (by decide)]; norm_num
  have hw : (binArith 53).sub wideInt.high wideInt.low ≠ (binArith 53).ofInt 0 := by
    intro he
    have he' := congrArg Subtype.val he
    rw [bin_zero] at he'
    have e : ((binArith 53).sub wideInt.high wideInt.low).1 = rnd 53 (2 ^ 53 - -2 ^ 53) := by
      show rnd 53 (((binArith 53).ofInt (2 ^ 53)).1 - ((binArith 53).ofInt (-2 ^ 53)).1) = _
      rw [vhigh, vlow]
    rw [e] at he'
    exact (rnd_pos (p := 53) (x := 2 ^ 53 - -2 ^ 53) (by norm_num) (by norm_num)).ne' he'
  have hstep : ∀ k : ℤ, -2 ^ 53 ≤ k → k ≤ 2 ^ 53 →
      (Dim.int wideInt).transform (binArith 53) [.num ((binArith 53).ofInt k)] =
        .ok [[.num ((binArith 53).div ((binArith 53).sub ((binArith 53).ofInt k) wideInt.low)
          ((binArith 53).sub wideInt.high wideInt.low))]] := by
    intro k h1 h2
    have hr : (binArith 53).round ((binArith 53).ofInt k) = k := dbl_round (abs_le.2 ⟨h1, h2⟩)
    have hn : (Normalize.mk wideInt.low wideInt.high true).transform (binArith 53) [(binArith 53).ofInt k] =
        .ok [(binArith 53).div ((binArith 53).sub ((binArith 53).ofInt k) wideInt.low)
          ((binArith 53).sub wideInt.high wideInt.low)] := by
      have g1 : ¬ wideInt.high < (binArith 53).ofInt k := not_lt.2 (hm h2)
      have g2 : ¬ (binArith 53).ofInt k < wideInt.low := not_lt.2 (hm h1)
      simp [Normalize.transform, hr, g1, g2, hw]
    show (do let Y ← (do let Y ← (Stage.normalize ⟨wideInt.low, wideInt.high, true⟩).transform (binArith 53)
                              [.num ((binArith 53).ofInt k)]
                         Except.ok Y)
             Except.ok (Y.map fun v => [v])) = _
    rw [stage_normalize_transform hn]; rfl
  have hsame : (binArith 53).sub ((binArith 53).ofInt 0) wideInt.low =
      (binArith 53).sub ((binArith 53).ofInt 1) wideInt.low := by
    refine Subtype.ext ?_
    show rnd 53 (((binArith 53).ofInt 0).1 - ((binArith 53).ofInt (-2 ^ 53)).1) =
      rnd 53 (((binArith 53).ofInt 1).1 - ((binArith 53).ofInt (-2 ^ 53)).1)
    rw [bin_zero, bin_one (by norm_num), vlow, zero_sub, neg_neg, sub_neg_eq_add, add_comm, rnd_odd]
    exact rnd_of_isBinary (by norm_num) ⟨2 ^ 53, 0, by norm_num, by norm_num⟩
  have hv : ∀ d ∈ [Dim.int wideInt], ValidDim (binArith 53) d := by simpa using wideInt_valid
  have hs : ∀ d ∈ [Dim.int wideInt], YieldsNoStr d := by simp [YieldsNoStr]
  refine ⟨_, wideInt_valid, .cons l0 .nil, .cons l1 .nil, ?_,
    (transform_one_iff (by simp) hv hs (.cons (legal_within l0) .nil) _).2 ⟨_, .cons (hstep 0 (by norm_num) (by norm_num)) .nil, rfl⟩,
    (transform_one_iff (by simp) hv hs (.cons (legal_within l1) .nil) _).2 ⟨_, .cons (hstep 1 (by norm_num) (by norm_num)) .nil, ?_⟩⟩
  · intro he
    injection he with he
    injection he with he
    have := congrArg Subtype.val he
    rw [bin_zero, bin_one (by norm_num)] at this
    norm_num at this
  · rw [hsame]

/-- Double precision meets the hypotheses of `C14_normalize_monotone_rounded` for any `low ≤ x ≤ y ≤ high`. -/
example (zs : List (Bin 53)) (h : Normalize.transform (binArith 53) ⟨(binArith 53).ofInt (-3), (binArith 53).ofInt 7, false⟩
      [(binArith 53).ofInt 1, (binArith 53).ofInt 2] = .ok zs) :
    ∃ u v, zs = [u, v] ∧ (binArith 53).ofInt 0 ≤ u ∧ u ≤ v ∧ v ≤ (binArith 53).ofInt 1 :=
  have hm := (binArith_mono (p := 53) (by norm_num)).ofInt_mono
  C14_normalize_monotone_rounded (binArith 53) (binArith_mono (by norm_num)) _ _ (hm (by norm_num)) _ _ (hm (by norm_num))
    (hm (by norm_num)) (hm (by norm_num)) zs h

end Skopt

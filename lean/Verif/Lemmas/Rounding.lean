import Verif.Spec.Rounding
import Verif.Lemmas.RoundTrip

/-! Rounding errors of the round trip. -/

namespace Skopt

/-! ### Real analysis -/

theorem norm_err {u η a b y s1 s2 t m z : ℝ} (hu : 0 ≤ u) (hu' : u ≤ 1 / 1000) (hη : 0 ≤ η) (h1 : a ≤ y) (h2 : y ≤ b)
    (hab : a < b) (e1 : |s1 - (y - a)| ≤ u * |y - a|) (e2 : |s2 - (b - a)| ≤ u * |b - a|)
    (e3 : |t - s1 / s2| ≤ u * |s1 / s2| + η) (e4 : |m - t * s2| ≤ u * |t * s2| + η)
    (e5 : |z - (m + a)| ≤ u * |m + a|) :
    |z - y| ≤ 4 * u * (b - a) + u * |y| + 2 * η * (b - a + 1) := by
  have hw : 0 < b - a := by linarith
  rw [abs_of_nonneg (by linarith : (0 : ℝ) ≤ y - a)] at e1
  rw [abs_of_pos hw] at e2
  set w := b - a with hwdef
  have huw : u * w ≤ w / 1000 := by nlinarith
  have hys : u * (y - a) ≤ u * w := mul_le_mul_of_nonneg_left (by linarith) hu
  have hs2 : 0 < s2 := by have := abs_le.1 e2; linarith [this.1]
  have hs2' : s2 ≤ w + w / 1000 := by have := abs_le.1 e2; linarith [this.2]
  have hs1 : |s1| ≤ w + u * w := by
    have := abs_le.1 e1
    rw [abs_le]; constructor <;> linarith [this.1, this.2]
  have f3 : |t * s2 - s1| ≤ u * |s1| + η * s2 := by
    have : t * s2 - s1 = (t - s1 / s2) * s2 := by field_simp
    rw [this, abs_mul, abs_of_pos hs2]
    calc |t - s1 / s2| * s2 ≤ (u * |s1 / s2| + η) * s2 := mul_le_mul_of_nonneg_right e3 hs2.le
      _ = u * |s1| + η * s2 := by rw [abs_div, abs_of_pos hs2]; field_simp
  have hηs : η * s2 ≤ η * w + η * w / 1000 := by nlinarith
  have hus : u * |s1| ≤ u * w + u * w / 1000 := by
    have : u * |s1| ≤ u * (w + u * w) := mul_le_mul_of_nonneg_left hs1 hu
    nlinarith [mul_nonneg hu hw.le]
  have hts : |t * s2| ≤ 1003 / 1000 * w + 1001 / 1000 * (η * w) := by
    have := abs_sub_abs_le_abs_sub (t * s2) s1
    linarith
  have hηw : 0 ≤ η * w := mul_nonneg hη hw.le
  have huts : u * |t * s2| ≤ 1003 / 1000 * (u * w) + 2 / 1000 * (η * w) := by
    have h := mul_le_mul_of_nonneg_left hts hu
    have h' : u * (η * w) ≤ η * w / 1000 := by nlinarith
    nlinarith
  have hm : |m - (y - a)| ≤ 3005 / 1000 * (u * w) + 1003 / 1000 * (η * w) + η := by
    have : m - (y - a) = (m - t * s2) + (t * s2 - s1) + (s1 - (y - a)) := by ring
    rw [this]
    have k1 := abs_add_le ((m - t * s2) + (t * s2 - s1)) (s1 - (y - a))
    have k2 := abs_add_le (m - t * s2) (t * s2 - s1)
    have : 0 ≤ u * w := mul_nonneg hu hw.le
    linarith
  set E := 3005 / 1000 * (u * w) + 1003 / 1000 * (η * w) + η with hE
  have hE0 : 0 ≤ E := le_trans (abs_nonneg _) hm
  have hma : |m + a| ≤ |y| + E := by
    have : m + a = y + (m - (y - a)) := by ring
    rw [this]
    linarith [abs_add_le y (m - (y - a))]
  have huma : u * |m + a| ≤ u * |y| + E / 1000 := by
    have h := mul_le_mul_of_nonneg_left hma hu
    nlinarith
  have : z - y = (z - (m + a)) + (m - (y - a)) := by ring
  rw [this]
  have k := abs_add_le (z - (m + a)) (m - (y - a))
  have : 0 ≤ u * w := mul_nonneg hu hw.le
  have e : 4 * u * w + u * |y| + 2 * η * (w + 1) = 4 * (u * w) + u * |y| + 2 * (η * w) + 2 * η := by ring
  rw [e]
  linarith

theorem quot_err {u η lx lb p q r : ℝ} (hu : 0 ≤ u) (hu' : u ≤ 1 / 1000) (hlb : 0 < lb) (e1 : |p - lx| ≤ u * |lx|)
    (e2 : |q - lb| ≤ u * |lb|) (e3 : |r - p / q| ≤ u * |p / q| + η) :
    |r - lx / lb| ≤ 4 * u * |lx / lb| + η := by
  rw [abs_of_pos hlb] at e2
  have hq : 999 / 1000 * lb ≤ q := by
    have := (abs_le.1 e2).1
    nlinarith
  have hq0 : 0 < q := by linarith
  set R := |lx / lb| with hR
  have hR0 : 0 ≤ R := abs_nonneg _
  have hlx : |lx| = R * lb := by rw [hR, abs_div, abs_of_pos hlb]; field_simp
  have k : |p / q - lx / lb| ≤ 2010 / 1000 * (u * R) := by
    have e : p / q - lx / lb = ((p - lx) * lb + lx * (lb - q)) / (q * lb) := by field_simp; ring
    rw [e, abs_div, abs_of_pos (mul_pos hq0 hlb), div_le_iff₀ (mul_pos hq0 hlb)]
    have k1 : |(p - lx) * lb + lx * (lb - q)| ≤ |p - lx| * lb + |lx| * |q - lb| := by
      refine (abs_add_le _ _).trans ?_
      rw [abs_mul, abs_mul, abs_of_pos hlb, abs_sub_comm lb q]
    have k2 : |p - lx| * lb ≤ u * |lx| * lb := mul_le_mul_of_nonneg_right e1 hlb.le
    have k3 : |lx| * |q - lb| ≤ |lx| * (u * lb) := mul_le_mul_of_nonneg_left e2 (abs_nonneg _)
    rw [hlx] at k1 k2 k3
    have k4 : 0 ≤ u * R * lb := by positivity
    have k5 : u * R * lb * (999 / 1000 * lb) ≤ u * R * lb * q := mul_le_mul_of_nonneg_left hq k4
    nlinarith [mul_nonneg k4 hlb.le]
  have hpq : |p / q| ≤ R + 2010 / 1000 * (u * R) := by
    have := abs_sub_abs_le_abs_sub (p / q) (lx / lb)
    linarith
  have h0 : 0 ≤ u * R := mul_nonneg hu hR0
  have huu : u * (u * R) ≤ u * R / 1000 := by nlinarith
  have hupq : u * |p / q| ≤ u * R + 3 / 1000 * (u * R) := by
    have := mul_le_mul_of_nonneg_left hpq hu
    nlinarith
  have e : r - lx / lb = (r - p / q) + (p / q - lx / lb) := by ring
  rw [e]
  have := abs_add_le (r - p / q) (p / q - lx / lb)
  nlinarith

theorem pow_near {u η b x z p σ : ℝ} (hu : 0 ≤ u) (hu' : u ≤ 1 / 1000) (hb : 1 < b) (hx : 0 < x)
    (hz : |z - Real.logb b x| * Real.log b ≤ σ) (hσ : σ ≤ 1) (hp : |p - b ^ z| ≤ u * b ^ z + η) :
    |p - x| ≤ x * (3 * σ + u) + η := by
  have hlb : 0 < Real.log b := Real.log_pos hb
  have hσ0 : 0 ≤ σ := le_trans (mul_nonneg (abs_nonneg _) hlb.le) hz
  have hbz : b ^ z = x * Real.exp ((z - Real.logb b x) * Real.log b) := by
    have h1 : x = b ^ Real.logb b x := (Real.rpow_logb (by linarith) hb.ne' hx).symm
    have h2 : Real.exp ((z - Real.logb b x) * Real.log b) = b ^ (z - Real.logb b x) := by
      rw [Real.rpow_def_of_pos (by linarith), mul_comm]
    rw [h2]
    conv_rhs => rw [h1]
    rw [Real.logb_rpow (by linarith) hb.ne', ← Real.rpow_add (by linarith)]
    congr 1; ring
  set s := (z - Real.logb b x) * Real.log b with hs
  have hsa : |s| ≤ σ := by rw [hs, abs_mul, abs_of_pos hlb]; exact hz
  have hexp := Real.abs_exp_sub_one_le (le_trans hsa hσ)
  have hd : |b ^ z - x| ≤ x * (2 * σ) := by
    have : b ^ z - x = x * (Real.exp s - 1) := by rw [hbz]; ring
    rw [this, abs_mul, abs_of_pos hx]
    exact mul_le_mul_of_nonneg_left (by linarith) hx.le
  have hle : b ^ z ≤ x * (1 + 2 * σ) := by have := (abs_le.1 hd).2; linarith
  have hub : u * b ^ z ≤ x * (u + 2 / 1000 * σ) := by
    have h := mul_le_mul_of_nonneg_left hle hu
    have : u * (x * (2 * σ)) ≤ x * (2 * σ) / 1000 := by nlinarith [mul_nonneg hx.le hσ0]
    nlinarith
  have : p - x = (p - b ^ z) + (b ^ z - x) := by ring
  rw [this]
  have := abs_add_le (p - b ^ z) (b ^ z - x)
  nlinarith [mul_nonneg hx.le hσ0]

theorem abs_log_le {lo hi x : ℝ} (h0 : 0 < lo) (h1 : lo ≤ x) (h2 : x ≤ hi) :
    |Real.log x| ≤ max |Real.log lo| |Real.log hi| := by
  have a := Real.log_le_log h0 h1
  have b := Real.log_le_log (by linarith) h2
  rw [abs_le]
  constructor
  · have := neg_abs_le (Real.log lo)
    have := le_max_left |Real.log lo| |Real.log hi|
    linarith
  · have := le_abs_self (Real.log hi)
    have := le_max_right |Real.log lo| |Real.log hi|
    linarith

/-! ### Operations -/

variable {F : Type} [LinearOrder F] {A : Arith F} {val : F → ℝ} {u η : ℝ} {N : ℤ}

namespace FloatLike

theorem le_iff (h : FloatLike A val u η N) {x y : F} : val x ≤ val y ↔ x ≤ y := h.val_mono.le_iff_le
theorem lt_iff (h : FloatLike A val u η N) {x y : F} : val x < val y ↔ x < y := h.val_mono.lt_iff_lt

theorem val_zero (h : FloatLike A val u η N) : val (A.ofInt 0) = 0 := by
  rw [h.ofInt_eq 0 (by simpa using h.N_pos.trans' zero_le_one)]; simp

theorem val_one (h : FloatLike A val u η N) : val (A.ofInt 1) = 1 := by
  rw [h.ofInt_eq 1 (by simpa using h.N_pos)]; simp

theorem round_ofInt (h : FloatLike A val u η N) {k : ℤ} (hk : |k| ≤ N) : A.round (A.ofInt k) = k :=
  h.round_near _ _ (by rw [h.ofInt_eq k hk]; simp)

theorem sub_pos (h : FloatLike A val u η N) {a b : F} (hab : a < b) : A.ofInt 0 < A.sub b a := by
  rw [← h.lt_iff, h.val_zero]
  have hlt := h.lt_iff.2 hab
  have e := h.sub_err b a
  have := h.u_small
  have := h.u_nonneg
  rw [abs_of_pos (by linarith : (0 : ℝ) < val b - val a)] at e
  have := (abs_le.1 e).1
  nlinarith

theorem sub_self_val (h : FloatLike A val u η N) (a : F) : A.sub a a = A.ofInt 0 := h.mono.sub_self a

/-- The error of normalizing and undoing it. -/
noncomputable def normTol (val : F → ℝ) (u η : ℝ) (a b y : F) : ℝ :=
  4 * u * (val b - val a) + u * |val y| + 2 * η * (val b - val a + 1)

theorem undo_err (h : FloatLike A val u η N) {a b y : F} (h1 : a ≤ y) (h2 : y ≤ b) (hab : a < b) :
    |val (A.add (A.mul (A.div (A.sub y a) (A.sub b a)) (A.sub b a)) a) - val y| ≤ normTol val u η a b y := by
  have hs := h.lt_iff.2 (h.sub_pos hab)
  rw [h.val_zero] at hs
  exact norm_err h.u_nonneg h.u_small h.η_nonneg (h.le_iff.2 h1) (h.le_iff.2 h2) (h.lt_iff.2 hab) (h.sub_err y a)
    (h.sub_err b a) (h.div_err _ _ hs.ne') (h.mul_err _ _) (h.add_err _ _)

theorem undo_err_const (h : FloatLike A val u η N) (a y : F) (hy : y = a) :
    |val (A.add (A.mul (A.mul y (A.ofInt 0)) (A.sub a a)) a) - val y| ≤ normTol val u η a a y := by
  subst hy
  have e1 := h.mul_err (A.mul y (A.ofInt 0)) (A.sub y y)
  rw [h.mono.sub_self, h.val_zero] at e1
  simp only [mul_zero, sub_zero, abs_zero, zero_add] at e1
  rw [h.mono.sub_self]
  have e2 := h.add_err (A.mul (A.mul y (A.ofInt 0)) (A.ofInt 0)) y
  set m := val (A.mul (A.mul y (A.ofInt 0)) (A.ofInt 0))
  have hu := h.u_nonneg
  have hu' := h.u_small
  have hη := h.η_nonneg
  have hmy : |m + val y| ≤ η + |val y| := (abs_add_le _ _).trans (by linarith)
  have : u * |m + val y| ≤ u * |val y| + η / 1000 := by nlinarith [abs_nonneg (val y)]
  unfold normTol
  have k := abs_add_le (val (A.add (A.mul (A.mul y (A.ofInt 0)) (A.ofInt 0)) y) - (m + val y)) m
  have e : val (A.add (A.mul (A.mul y (A.ofInt 0)) (A.ofInt 0)) y) - (m + val y) + m =
    val (A.add (A.mul (A.mul y (A.ofInt 0)) (A.ofInt 0)) y) - val y := by ring
  rw [e] at k
  simp only [sub_self, mul_zero, zero_add, mul_one]
  linarith

/-- The encoding of a normalized value lies between 0 and 1. -/
theorem unit (h : FloatLike A val u η N) {a b y : F} (h1 : a ≤ y) (h2 : y ≤ b) (hab : a < b) :
    A.ofInt 0 ≤ A.div (A.sub y a) (A.sub b a) ∧ A.div (A.sub y a) (A.sub b a) ≤ A.ofInt 1 := by
  have hs := h.sub_pos hab
  constructor
  · rw [← h.mono.zero_div hs]
    refine h.mono.div_mono hs ?_
    rw [← h.mono.sub_self a]
    exact h.mono.sub_mono a h1
  · rw [← h.mono.div_self hs]
    exact h.mono.div_mono hs (h.mono.sub_mono a h2)

theorem inverse_ok (_h : FloatLike A val u η N) (a b : F) (i : Bool) {t : F} (h1 : A.sub (A.ofInt 0) A.eps ≤ t)
    (h2 : t ≤ A.add (A.ofInt 1) A.eps) :
    Normalize.inverse A ⟨a, b, i⟩ [t] = .ok [if i then A.ofInt (A.round (A.add (A.mul t (A.sub b a)) a))
      else A.add (A.mul t (A.sub b a)) a] := by
  unfold Normalize.inverse
  simp only [List.any_cons, List.any_nil, Bool.or_false, decide_eq_true_eq, not_lt.2 h1, not_lt.2 h2, if_false]
  cases i <;> rfl

theorem const_encoding (h : FloatLike A val u η N) (y : F) :
    A.sub (A.ofInt 0) A.eps ≤ A.mul y (A.ofInt 0) ∧ A.mul y (A.ofInt 0) ≤ A.add (A.ofInt 1) A.eps := by
  rw [h.mono.mul_zero]
  exact ⟨h.sub_le _ _ h.eps_nonneg, (h.mono.ofInt_mono zero_le_one).trans (h.add_ge _ _ h.eps_nonneg)⟩

/-- Normalizing a number between the bounds and undoing it. -/
theorem normalize_rt (h : FloatLike A val u η N) {a b y : F} (h1 : a ≤ y) (h2 : y ≤ b) :
    ∃ t z, Normalize.transform A ⟨a, b, false⟩ [y] = .ok [t] ∧ Normalize.inverse A ⟨a, b, false⟩ [t] = .ok [z] ∧
      |val z - val y| ≤ normTol val u η a b y := by
  have g1 : ¬ A.add b A.eps < y := not_lt.2 (h2.trans (h.add_ge _ _ h.eps_nonneg))
  have g2 : ¬ y < A.sub a A.eps := not_lt.2 ((h.sub_le _ _ h.eps_nonneg).trans h1)
  rcases eq_or_lt_of_le (h1.trans h2) with hab | hab
  · subst hab
    have hy : y = a := le_antisymm h2 h1
    refine ⟨A.mul y (A.ofInt 0), _, ?_, h.inverse_ok _ _ _ (h.const_encoding y).1 (h.const_encoding y).2, ?_⟩
    · unfold Normalize.transform
      simp [g1, g2, h.mono.sub_self]
    · exact h.undo_err_const a y hy
  · obtain ⟨u0, u1⟩ := h.unit h1 h2 hab
    refine ⟨A.div (A.sub y a) (A.sub b a), _, ?_, h.inverse_ok _ _ _ ((h.sub_le _ _ h.eps_nonneg).trans u0)
      (u1.trans (h.add_ge _ _ h.eps_nonneg)), ?_⟩
    · unfold Normalize.transform
      simp [g1, g2, (h.sub_pos hab).ne']
    · exact h.undo_err h1 h2 hab

/-- The same for integers, which come back exactly. -/
theorem normalize_int_rt (h : FloatLike A val u η N) {l k b : ℤ} (h1 : l ≤ k) (h2 : k ≤ b) (hk : |k| ≤ N)
    (hl : |l| ≤ N) (hb : |b| ≤ N) (hfine : normTol val u η (A.ofInt l) (A.ofInt b) (A.ofInt k) < 1 / 2) :
    ∃ t, Normalize.transform A ⟨A.ofInt l, A.ofInt b, true⟩ [A.ofInt k] = .ok [t] ∧
      Normalize.inverse A ⟨A.ofInt l, A.ofInt b, true⟩ [t] = .ok [A.ofInt k] := by
  have i1 : A.ofInt l ≤ A.ofInt k := h.mono.ofInt_mono h1
  have i2 : A.ofInt k ≤ A.ofInt b := h.mono.ofInt_mono h2
  have back : ∀ z, |val z - val (A.ofInt k)| < 1 / 2 → A.round z = k := fun z hz =>
    h.round_near _ _ (by rwa [h.ofInt_eq k hk] at hz)
  rcases eq_or_lt_of_le (h1.trans h2) with hab | hab
  · subst hab
    have hy : k = l := le_antisymm h2 h1
    refine ⟨A.mul (A.ofInt k) (A.ofInt 0), ?_, ?_⟩
    · unfold Normalize.transform
      simp [h.round_ofInt hk, not_lt.2 i1, not_lt.2 i2, h.mono.sub_self]
    · rw [h.inverse_ok _ _ _ (h.const_encoding _).1 (h.const_encoding _).2]
      simp only [if_true]
      rw [back _ (lt_of_le_of_lt (h.undo_err_const (A.ofInt l) (A.ofInt k) (by rw [hy])) hfine)]
  · have hlt : A.ofInt l < A.ofInt b := by
      rw [← h.lt_iff, h.ofInt_eq l hl, h.ofInt_eq b hb]; exact_mod_cast hab
    obtain ⟨u0, u1⟩ := h.unit i1 i2 hlt
    refine ⟨A.div (A.sub (A.ofInt k) (A.ofInt l)) (A.sub (A.ofInt b) (A.ofInt l)), ?_, ?_⟩
    · unfold Normalize.transform
      simp [h.round_ofInt hk, not_lt.2 i1, not_lt.2 i2, (h.sub_pos hlt).ne']
    · rw [h.inverse_ok _ _ _ ((h.sub_le _ _ h.eps_nonneg).trans u0) (u1.trans (h.add_ge _ _ h.eps_nonneg))]
      simp only [if_true]
      rw [back _ (lt_of_le_of_lt (h.undo_err i1 i2 hlt) hfine)]

/-! ### Logarithms -/

theorem lg_err (h : FloatLike A val u η N) {b x : F} (hb : 1 < val b) (hx : 0 < val x) :
    |val (logNTransform A b x) - Real.logb (val b) (val x)| ≤ 4 * u * |Real.logb (val b) (val x)| + η := by
  have hlb : 0 < Real.logb 10 (val b) := Real.logb_pos (by norm_num) hb
  have e2 := h.log10_err b (by linarith)
  have hq : val (A.log10 b) ≠ 0 := by
    rw [abs_of_pos hlb] at e2
    have := (abs_le.1 e2).1
    have := h.u_small
    have : 0 < val (A.log10 b) := by nlinarith
    exact this.ne'
  have := quot_err h.u_nonneg h.u_small hlb (h.log10_err x hx) e2 (h.div_err _ _ hq)
  have e : Real.logb 10 (val x) / Real.logb 10 (val b) = Real.logb (val b) (val x) := by
    simp only [Real.logb]
    have h10 : Real.log 10 ≠ 0 := (Real.log_pos (by norm_num)).ne'
    rw [div_div_div_cancel_right₀ h10]
  rw [e] at this
  exact this

theorem lg_mono (h : FloatLike A val u η N) {b x y : F} (hb : 1 < val b) (hx : 0 < val x) (hxy : x ≤ y) :
    logNTransform A b x ≤ logNTransform A b y := by
  have h0 : A.ofInt 0 < x := by rw [← h.lt_iff, h.val_zero]; exact hx
  have h1 : A.ofInt 1 < b := by rw [← h.lt_iff, h.val_one]; exact hb
  exact h.mono.div_mono (h.mono.log10_pos h1) (h.mono.log10_mono h0 hxy)

/-- Decoding a number near the logarithm. -/
theorem pow_back (h : FloatLike A val u η N) {low high b x z : F} (h0 : 0 < val low) (hb : 1 < val b)
    (hsize : u * logSize val low high b ≤ 1) (h1 : low ≤ x)
    (hz : |val z - Real.logb (val b) (val x)| * Real.log (val b) ≤
      u * (20 * max |Real.log (val low)| |Real.log (val high)| + 4 * Real.log (val b))) :
    |val (logNInverse A b z) - val x| ≤ u * logSize val low high b * val x + η := by
  have hu := h.u_nonneg
  have hlb : 0 < Real.log (val b) := Real.log_pos hb
  have hx : 0 < val x := lt_of_lt_of_le h0 (h.le_iff.2 h1)
  have hm : 0 ≤ max |Real.log (val low)| |Real.log (val high)| := le_trans (abs_nonneg _) (le_max_left _ _)
  unfold logSize at hsize ⊢
  set ℓ := max |Real.log (val low)| |Real.log (val high)|
  have key := pow_near h.u_nonneg h.u_small hb hx hz (by nlinarith [mul_nonneg hu hm, mul_nonneg hu hlb.le])
    (h.pow_err b z (by linarith))
  refine key.trans (le_of_eq ?_)
  ring

/-- Round trip of the logarithm alone. -/
theorem log_rt (h : FloatLike A val u η N) {low high b x : F} (h0 : 0 < val low) (hb : 1 < val b)
    (hsize : u * logSize val low high b ≤ 1) (h1 : low ≤ x) (h2 : x ≤ high) :
    |val (logNInverse A b (logNTransform A b x)) - val x| ≤ u * logSize val low high b * val x + η := by
  refine h.pow_back h0 hb hsize h1 ?_
  have hu := h.u_nonneg
  have hη := h.η_le
  have hlb : 0 < Real.log (val b) := Real.log_pos hb
  have hx : 0 < val x := lt_of_lt_of_le h0 (h.le_iff.2 h1)
  have hm := abs_log_le h0 (h.le_iff.2 h1) (h.le_iff.2 h2)
  have e := mul_le_mul_of_nonneg_right (h.lg_err hb hx) hlb.le
  have eL : |Real.logb (val b) (val x)| * Real.log (val b) = |Real.log (val x)| := by
    rw [Real.logb, abs_div, abs_of_pos hlb]; field_simp
  have : (4 * u * |Real.logb (val b) (val x)| + η) * Real.log (val b) =
      4 * u * |Real.log (val x)| + η * Real.log (val b) := by rw [← eL]; ring
  rw [this] at e
  have k1 := mul_le_mul_of_nonneg_left hm hu
  have k2 := mul_le_mul_of_nonneg_right hη hlb.le
  have k3 := mul_nonneg hu (abs_nonneg (Real.log (val x)))
  have k4 := mul_nonneg hu hlb.le
  nlinarith

/-- Round trip of the normalized logarithm. -/
theorem log_norm_rt (h : FloatLike A val u η N) {low high b x : F} (h0 : 0 < val low) (hb : 1 < val b)
    (hsize : u * logSize val low high b ≤ 1) (h1 : low ≤ x) (h2 : x ≤ high) :
    ∃ t z, Normalize.transform A ⟨logNTransform A b low, logNTransform A b high, false⟩ [logNTransform A b x] = .ok [t] ∧
      Normalize.inverse A ⟨logNTransform A b low, logNTransform A b high, false⟩ [t] = .ok [z] ∧
      |val (logNInverse A b z) - val x| ≤ u * logSize val low high b * val x + η := by
  have hx : 0 < val x := lt_of_lt_of_le h0 (h.le_iff.2 h1)
  have hh : 0 < val high := lt_of_lt_of_le hx (h.le_iff.2 h2)
  obtain ⟨t, z, e1, e2, e3⟩ := h.normalize_rt (h.lg_mono hb h0 h1) (h.lg_mono hb hx h2)
  refine ⟨t, z, e1, e2, h.pow_back h0 hb hsize h1 ?_⟩
  have hu := h.u_nonneg
  have hu' := h.u_small
  have hη := h.η_le
  have hη0 := h.η_nonneg
  have hlb : 0 < Real.log (val b) := Real.log_pos hb
  set ℓ := max |Real.log (val low)| |Real.log (val high)| with hℓ
  -- everything is measured by `Λ = ℓ / ln b`
  have bound : ∀ y : F, 0 < val y → |Real.log (val y)| ≤ ℓ →
      |Real.logb (val b) (val y)| ≤ ℓ / Real.log (val b) := by
    intro y _ hy
    rw [Real.logb, abs_div, abs_of_pos hlb]
    exact div_le_div_of_nonneg_right hy hlb.le
  set Λ := ℓ / Real.log (val b) with hΛ
  have hΛ0 : 0 ≤ Λ := div_nonneg (le_trans (abs_nonneg _) (le_max_left _ _)) hlb.le
  have huΛ : u * Λ ≤ Λ / 1000 := by nlinarith
  have size : ∀ y : F, 0 < val y → |Real.log (val y)| ≤ ℓ →
      |val (logNTransform A b y)| ≤ 1004 / 1000 * Λ + u := by
    intro y hy hy'
    have a1 := h.lg_err hb hy
    have a2 := bound y hy hy'
    have a3 := abs_sub_abs_le_abs_sub (val (logNTransform A b y)) (Real.logb (val b) (val y))
    have a4 := mul_le_mul_of_nonneg_left a2 hu
    nlinarith
  have sl := size low h0 (le_max_left _ _)
  have sh := size high hh (le_max_right _ _)
  have hxl := abs_log_le h0 (h.le_iff.2 h1) (h.le_iff.2 h2)
  have sx := size x hx hxl
  have bx := bound x hx hxl
  have ex := h.lg_err hb hx
  set W := val (logNTransform A b high) - val (logNTransform A b low) with hW
  have hW0 : 0 ≤ W := sub_nonneg.2 (h.le_iff.2 (h.lg_mono hb h0 (h1.trans h2)))
  have hW1 : W ≤ 2008 / 1000 * Λ + 2 * u := by
    have := le_abs_self (val (logNTransform A b high))
    have := neg_abs_le (val (logNTransform A b low))
    linarith
  have p1 : u * W ≤ 2008 / 1000 * (u * Λ) + u / 500 := by
    have := mul_le_mul_of_nonneg_left hW1 hu
    nlinarith
  have p2 : u * |val (logNTransform A b x)| ≤ 1004 / 1000 * (u * Λ) + u / 1000 := by
    have := mul_le_mul_of_nonneg_left sx hu
    nlinarith
  have p3 : η * W ≤ u * W := mul_le_mul_of_nonneg_right hη hW0
  have p4 : u * |Real.logb (val b) (val x)| ≤ u * Λ := mul_le_mul_of_nonneg_left bx hu
  have tot : |val z - Real.logb (val b) (val x)| ≤ 20 * (u * Λ) + 4 * u := by
    have e : val z - Real.logb (val b) (val x) = (val z - val (logNTransform A b x)) +
      (val (logNTransform A b x) - Real.logb (val b) (val x)) := by ring
    rw [e]
    refine (abs_add_le _ _).trans ?_
    unfold normTol at e3
    rw [← hW] at e3
    have q0 : 0 ≤ u * Λ := mul_nonneg hu hΛ0
    have : 4 * u * W + u * |val (logNTransform A b x)| + 2 * η * (W + 1) =
      4 * (u * W) + u * |val (logNTransform A b x)| + 2 * (η * W) + 2 * η := by ring
    rw [this] at e3
    linarith
  have := mul_le_mul_of_nonneg_right tot hlb.le
  have e : (20 * (u * Λ) + 4 * u) * Real.log (val b) = u * (20 * ℓ + 4 * Real.log (val b)) := by
    rw [hΛ]; field_simp
  rw [e] at this
  exact this

/-! ### Clipping -/

theorem clip_near (h : FloatLike A val u η N) {lo hi x p : F} (h1 : lo ≤ x) (h2 : x ≤ hi) {τ : ℝ}
    (hp : |val p - val x| ≤ τ) : |val (npClip lo hi p) - val x| ≤ τ := by
  have a1 := h.le_iff.2 h1
  have a2 := h.le_iff.2 h2
  rw [abs_le] at hp ⊢
  unfold npClip
  rcases le_total p lo with hl | hl
  · have := h.le_iff.2 hl
    rw [max_eq_right hl, min_eq_left (h1.trans h2)]
    constructor <;> linarith [hp.1, hp.2]
  · rw [max_eq_left hl]
    rcases le_total p hi with hh | hh
    · rw [min_eq_left hh]; exact hp
    · have := h.le_iff.2 hh
      rw [min_eq_right hh]
      constructor <;> linarith [hp.1, hp.2]

end FloatLike

end Skopt

import Verif.Props.FloatHedge
import Verif.Props.AskWarning

/-!
# C148: distances between points and the warning about repeated points in floating-point arithmetic
-/

namespace Skopt

variable {p : ℕ} {M R G : Type}

/-! ## Specification -/

open Classical in
/-- The distance of two components: the difference of numbers, one for different categories. -/
noncomputable def trueGap : Dim (Bin p) → Val (Bin p) → Val (Bin p) → ℝ
  | .cat _, a, b => if a = b then 0 else 1
  | _, .num x, .num y => |x.1 - y.1|
  | _, _, _ => 0

/-- The distance of two points: the sum of the distances of their components. -/
noncomputable def trueDist : List (Dim (Bin p)) → Point (Bin p) → Point (Bin p) → ℝ
  | d :: ds, a :: as, b :: bs => trueGap d a b + trueDist ds as bs
  | _, _, _ => 0

/-- No dimension is `Real`, and `Integer` coordinates are integers. -/
def WholePoint (dims : List (Dim (Bin p))) (q : Point (Bin p)) : Prop :=
  List.Forall₂ (fun d v => match d with
    | .real _ => False
    | .int _ => ∃ (x : Bin p) (z : ℤ), v = .num x ∧ x.1 = z
    | .cat _ => True) dims q

/-! ## Lemmas -/

theorem roundHalfEven_neg (x : ℝ) : roundHalfEven (-x) = -roundHalfEven x := by
  by_cases h0 : Int.fract x = 0
  · obtain ⟨k, hk⟩ : ∃ k : ℤ, x = k := ⟨⌊x⌋, by rw [Int.fract] at h0; linarith⟩
    rw [hk, ← Int.cast_neg, roundHalfEven_intCast, roundHalfEven_intCast]
  · have h1 := Int.fract_neg h0
    have h2 : ⌊-x⌋ = -⌊x⌋ - 1 := by
      have a := Int.floor_add_fract (-x)
      have b := Int.floor_add_fract x
      rw [h1] at a
      have : ((⌊-x⌋ : ℤ) : ℝ) = ((-⌊x⌋ - 1 : ℤ) : ℝ) := by push_cast; linarith
      exact_mod_cast this
    unfold roundHalfEven
    rw [h1, h2]
    rcases lt_trichotomy (Int.fract x) (1 / 2) with h | h | h
    · rw [if_neg (by linarith), if_pos (by linarith), if_pos h]; ring
    · rw [h]
      norm_num
      split_ifs <;> omega
    · rw [if_pos (by linarith), if_neg (by linarith), if_pos h]; ring

theorem rnd_one (hp : 1 ≤ p) : rnd p 1 = 1 := by
  have := bin_one hp
  rwa [show (((binArith p).ofInt 1).1 : ℝ) = rnd p ((1 : ℤ) : ℝ) from rfl, Int.cast_one] at this

theorem rnd_neg (x : ℝ) : rnd p (-x) = -rnd p x := by
  unfold rnd ulp
  rw [abs_neg, neg_div, roundHalfEven_neg]
  push_cast; ring

theorem rnd_abs (hp : 1 ≤ p) (x : ℝ) : |rnd p x| = rnd p |x| := by
  rcases le_total 0 x with h | h
  · rw [abs_of_nonneg h, abs_of_nonneg (rnd_nonneg hp h)]
  · have : rnd p x ≤ 0 := by have := rnd_mono hp h; rwa [rnd_zero] at this
    rw [abs_of_nonpos h, abs_of_nonpos this, rnd_neg]

theorem absDiff_rounded (hp : 1 ≤ p) (x y : Bin p) : (absDiff (binArith p) x y).1 = rnd p |x.1 - y.1| := by
  rw [← rnd_abs hp]
  have hlt : ((binArith p).sub x y < (binArith p).ofInt 0) ↔ rnd p (x.1 - y.1) < 0 := by
    show ((binArith p).sub x y).1 < ((binArith p).ofInt 0).1 ↔ _
    rw [bin_zero]; rfl
  unfold absDiff
  by_cases h : rnd p (x.1 - y.1) < 0
  · simp only [if_pos (hlt.2 h)]
    show rnd p (((binArith p).ofInt 0).1 - rnd p (x.1 - y.1)) = _
    rw [bin_zero, zero_sub, rnd_neg, rnd_of_isBinary hp (rnd_isBinary p _), abs_of_neg h]
  · simp only [if_neg (fun c => h (hlt.1 c))]
    rw [abs_of_nonneg (not_lt.1 h)]; rfl

theorem trueGap_nonneg (d : Dim (Bin p)) (a b : Val (Bin p)) : 0 ≤ trueGap d a b := by
  unfold trueGap
  split
  · split <;> norm_num
  · exact abs_nonneg _
  · exact le_rfl

theorem trueGap_symm (d : Dim (Bin p)) (a b : Val (Bin p)) : trueGap d a b = trueGap d b a := by
  cases d with
  | cat c => simp only [trueGap, eq_comm]
  | real c => cases a <;> cases b <;> simp [trueGap, abs_sub_comm]
  | int c => cases a <;> cases b <;> simp [trueGap, abs_sub_comm]

theorem trueGap_zero {d : Dim (Bin p)} {a b : Val (Bin p)} (ha : Within d a) (hb : Within d b) :
    trueGap d a b = 0 ↔ a = b := by
  cases d with
  | cat c => simp only [trueGap]; split <;> simp_all
  | real c =>
    obtain ⟨x, rfl, _⟩ := ha
    obtain ⟨y, rfl, _⟩ := hb
    simp only [trueGap, abs_eq_zero, sub_eq_zero, Val.num.injEq, Subtype.ext_iff]
  | int c =>
    obtain ⟨x, rfl, _⟩ := ha
    obtain ⟨y, rfl, _⟩ := hb
    simp only [trueGap, abs_eq_zero, sub_eq_zero, Val.num.injEq, Subtype.ext_iff]

theorem trueGap_triangle {d : Dim (Bin p)} {a b c : Val (Bin p)} (ha : Within d a) (hb : Within d b) (hc : Within d c) :
    trueGap d a c ≤ trueGap d a b + trueGap d b c := by
  cases d with
  | cat _ =>
    simp only [trueGap]
    split_ifs <;> simp_all
  | real r =>
    obtain ⟨x, rfl, _⟩ := ha
    obtain ⟨y, rfl, _⟩ := hb
    obtain ⟨z, rfl, _⟩ := hc
    exact abs_sub_le _ _ _
  | int r =>
    obtain ⟨x, rfl, _⟩ := ha
    obtain ⟨y, rfl, _⟩ := hb
    obtain ⟨z, rfl, _⟩ := hc
    exact abs_sub_le _ _ _

/-- The distance of two components is the true one, rounded. -/
theorem Dim.distance_rounded (hp : 1 ≤ p) {d : Dim (Bin p)} {a b : Val (Bin p)} (ha : Within d a) (hb : Within d b) :
    d.distance (binArith p) a b = .ok (.near p (trueGap d a b)) := by
  have h1 := Dim.contains_true.2 ha
  have h2 := Dim.contains_true.2 hb
  unfold Dim.distance
  rw [h1, h2]
  cases d with
  | cat c =>
    simp only [ok_bind, trueGap]
    by_cases hab : a = b
    · simp [hab, binArith]
    · simp [hab, binArith]
  | real c =>
    obtain ⟨x, rfl, _⟩ := ha
    obtain ⟨y, rfl, _⟩ := hb
    simp only [ok_bind, Val.toNum, trueGap]
    exact congrArg Except.ok (Subtype.ext (absDiff_rounded hp x y))
  | int c =>
    obtain ⟨x, rfl, _⟩ := ha
    obtain ⟨y, rfl, _⟩ := hb
    simp only [ok_bind, Val.toNum, trueGap]
    exact congrArg Except.ok (Subtype.ext (absDiff_rounded hp x y))

/-- The distances of the components, in order. -/
noncomputable def trueGaps : List (Dim (Bin p)) → Point (Bin p) → Point (Bin p) → List ℝ
  | d :: ds, a :: as, b :: bs => trueGap d a b :: trueGaps ds as bs
  | _, _, _ => []

theorem distanceFrom_rounded (hp : 1 ≤ p) {dims : List (Dim (Bin p))} {a b : Point (Bin p)}
    (ha : List.Forall₂ Within dims a) (hb : List.Forall₂ Within dims b) (acc : Bin p) :
    Space.distanceFrom (binArith p) acc dims a b =
      .ok (((trueGaps dims a b).map (Bin.near p)).foldl (binArith p).add acc) := by
  induction ha generalizing b acc with
  | nil => cases hb; rfl
  | @cons d x ds xs h1 _ ih =>
    cases hb with
    | @cons _ y _ ys g1 g2 =>
      simp only [Space.distanceFrom, Dim.distance_rounded hp h1 g1, ok_bind]
      exact ih g2 _

theorem trueGaps_spec {dims : List (Dim (Bin p))} {a b : Point (Bin p)}
    (ha : List.Forall₂ Within dims a) (hb : List.Forall₂ Within dims b) :
    (trueGaps dims a b).length = dims.length ∧ (trueGaps dims a b).sum = trueDist dims a b ∧
      trueGaps dims a b = trueGaps dims b a ∧ (∀ g ∈ trueGaps dims a b, 0 ≤ g) ∧
      ((∀ g ∈ trueGaps dims a b, g = 0) ↔ a = b) := by
  induction ha generalizing b with
  | nil => cases hb; simp [trueGaps, trueDist]
  | @cons d x ds xs h1 _ ih =>
    cases hb with
    | @cons _ y _ ys g1 g2 =>
      obtain ⟨i1, i2, i3, i4, i5⟩ := ih g2
      refine ⟨by simp [trueGaps, i1], by simp [trueGaps, trueDist, i2], ?_, ?_, ?_⟩
      · rw [trueGaps, trueGaps, ← i3, trueGap_symm]
      · intro g hg
        rcases List.mem_cons.1 hg with rfl | hg
        · exact trueGap_nonneg _ _ _
        · exact i4 g hg
      · rw [trueGaps, List.forall_mem_cons, i5, trueGap_zero h1 g1, List.cons.injEq]

theorem trueDist_triangle {dims : List (Dim (Bin p))} {a b c : Point (Bin p)} (ha : List.Forall₂ Within dims a)
    (hb : List.Forall₂ Within dims b) (hc : List.Forall₂ Within dims c) :
    trueDist dims a c ≤ trueDist dims a b + trueDist dims b c := by
  induction ha generalizing b c with
  | nil => cases hb; cases hc; simp [trueDist]
  | @cons d x ds xs h1 _ ih =>
    cases hb with
    | cons g1 g2 =>
      cases hc with
      | cons k1 k2 =>
        have := ih g2 k2
        have := trueGap_triangle h1 g1 k1
        simp only [trueDist]; linarith

/-! ## C148 -/

/-- **C148 (distances).** In floating-point arithmetic of any precision, `Space.distance` of two points of the space is still
exactly symmetric, non-negative and zero for equal points only; it is the exact distance up to one rounding per component and
one more, so that the triangle inequality holds up to that factor. -/
theorem C148_distance (hp : 1 ≤ p) {dims : List (Dim (Bin p))} {a b c : Point (Bin p)}
    (ha : List.Forall₂ Within dims a) (hb : List.Forall₂ Within dims b) (hc : List.Forall₂ Within dims c) :
    ∃ ab ac bc : Bin p, Space.distance (binArith p) dims a b = .ok ab ∧ Space.distance (binArith p) dims b a = .ok ab ∧
      Space.distance (binArith p) dims a c = .ok ac ∧ Space.distance (binArith p) dims b c = .ok bc ∧
      0 ≤ ab.1 ∧ (ab.1 = 0 ↔ a = b) ∧
      (1 - 1 / 2 ^ p) ^ (dims.length + 1) * trueDist dims a b ≤ ab.1 ∧
      ab.1 ≤ (1 + 1 / 2 ^ p) ^ (dims.length + 1) * trueDist dims a b ∧
      (1 - 1 / 2 ^ p) ^ (dims.length + 1) * ac.1 ≤ (1 + 1 / 2 ^ p) ^ (dims.length + 1) * (ab.1 + bc.1) := by
  have key : ∀ {a b : Point (Bin p)}, List.Forall₂ Within dims a → List.Forall₂ Within dims b →
      ∃ ab : Bin p, Space.distance (binArith p) dims a b = .ok ab ∧ Space.distance (binArith p) dims b a = .ok ab ∧
        0 ≤ ab.1 ∧ (ab.1 = 0 ↔ a = b) ∧
        (1 - 1 / 2 ^ p) ^ (dims.length + 1) * trueDist dims a b ≤ ab.1 ∧
        ab.1 ≤ (1 + 1 / 2 ^ p) ^ (dims.length + 1) * trueDist dims a b := by
    intro a b ha hb
    obtain ⟨u0, u1⟩ := unit_le_half hp
    obtain ⟨i1, i2, i3, i4, i5⟩ := trueGaps_spec ha hb
    have hnn : ∀ x ∈ (trueGaps dims a b).map (Bin.near p), 0 ≤ x.1 := by
      intro x hx
      obtain ⟨g, hg, rfl⟩ := List.mem_map.1 hx
      exact rnd_nonneg hp (i4 g hg)
    obtain ⟨g1, g2⟩ := bin_foldl_ge hp _ _ (bin_zero p).ge hnn
    obtain ⟨r1, r2⟩ := bin_foldl_rel hp _ _ (bin_zero p).ge hnn
    rw [List.length_map, i1, bin_zero, zero_add] at r1 r2
    rw [bin_zero] at g1
    have s1 : (1 - 1 / 2 ^ p) * trueDist dims a b ≤ (((trueGaps dims a b).map (Bin.near p)).map Subtype.val).sum := by
      rw [← i2, List.map_map]
      conv_lhs => rw [← List.map_id (trueGaps dims a b), ← List.sum_map_mul_left]
      exact sum_map_le_sum _ _ _ fun g hg => (rnd_rel (i4 g hg)).1
    have s2 : (((trueGaps dims a b).map (Bin.near p)).map Subtype.val).sum ≤ (1 + 1 / 2 ^ p) * trueDist dims a b := by
      rw [← i2, List.map_map]
      conv_rhs => rw [← List.map_id (trueGaps dims a b), ← List.sum_map_mul_left]
      exact sum_map_le_sum _ _ _ fun g hg => (rnd_rel (i4 g hg)).2
    refine ⟨_, distanceFrom_rounded hp ha hb _, ?_, g1, ?_, ?_, ?_⟩
    · rw [i3]; exact distanceFrom_rounded hp hb ha _
    · rw [← i5]
      constructor
      · intro h g hg
        by_contra hne
        have hpos := rnd_pos hp (lt_of_le_of_ne (i4 g hg) (Ne.symm hne))
        have := g2 _ (List.mem_map_of_mem hg)
        rw [h] at this
        exact absurd this (not_le.2 hpos)
      · intro h
        have h0 : trueDist dims a b = 0 := by rw [← i2]; exact List.sum_eq_zero h
        rw [h0, mul_zero] at s2
        refine le_antisymm (r2.trans ?_) g1
        exact mul_nonpos_of_nonneg_of_nonpos (pow_nonneg (by linarith) _) s2
    · rw [pow_succ, mul_assoc]
      exact (mul_le_mul_of_nonneg_left s1 (pow_nonneg (by linarith) _)).trans r1
    · rw [pow_succ, mul_assoc]
      exact r2.trans (mul_le_mul_of_nonneg_left s2 (pow_nonneg (by linarith) _))
  obtain ⟨u0, u1⟩ := unit_le_half hp
  obtain ⟨ab, e1, e2, e3, e4, e5, e6⟩ := key ha hb
  obtain ⟨ac, f1, -, f3, -, f5, f6⟩ := key ha hc
  obtain ⟨bc, k1, -, k3, -, k5, k6⟩ := key hb hc
  refine ⟨ab, ac, bc, e1, e2, f1, k1, e3, e4, e5, e6, ?_⟩
  have ht := trueDist_triangle ha hb hc
  have h0 : (0 : ℝ) ≤ (1 - 1 / 2 ^ p) ^ (dims.length + 1) := pow_nonneg (by linarith) _
  have h1 : (0 : ℝ) ≤ (1 + 1 / 2 ^ p) ^ (dims.length + 1) := pow_nonneg (by linarith) _
  calc _ ≤ (1 - 1 / 2 ^ p) ^ (dims.length + 1) * ((1 + 1 / 2 ^ p) ^ (dims.length + 1) * trueDist dims a c) :=
        mul_le_mul_of_nonneg_left f6 h0
    _ ≤ (1 - 1 / 2 ^ p) ^ (dims.length + 1) * ((1 + 1 / 2 ^ p) ^ (dims.length + 1) * (trueDist dims a b + trueDist dims b c)) :=
        mul_le_mul_of_nonneg_left (mul_le_mul_of_nonneg_left ht h1) h0
    _ = (1 + 1 / 2 ^ p) ^ (dims.length + 1) * ((1 - 1 / 2 ^ p) ^ (dims.length + 1) * trueDist dims a b +
          (1 - 1 / 2 ^ p) ^ (dims.length + 1) * trueDist dims b c) := by ring
    _ ≤ _ := mul_le_mul_of_nonneg_left (add_le_add e5 k5) h1

theorem eps_rounded (hp : 1 ≤ p) : 0 < ((binArith p).eps).1 ∧
    (1 - 1 / 2 ^ p) * (1 / 10 ^ 8) ≤ ((binArith p).eps).1 ∧ ((binArith p).eps).1 ≤ (1 + 1 / 2 ^ p) * (1 / 10 ^ 8) :=
  ⟨rnd_pos hp (by norm_num), rnd_rel (p := p) (show (0 : ℝ) ≤ 1 / 10 ^ 8 by norm_num)⟩

theorem closeToZero_rounded (d : Bin p) (ds : List (Bin p)) (h : ∀ x ∈ d :: ds, 0 ≤ x.1) :
    closeToZero (binArith p) d ds = true ↔ ∃ x ∈ d :: ds, x ≤ (binArith p).eps := by
  have h0 : ¬ (ds.foldl min d < (binArith p).ofInt 0) := by
    show ¬ ((ds.foldl min d).1 < ((binArith p).ofInt 0).1)
    rw [bin_zero]
    exact not_lt.2 (h _ (foldl_min_mem d ds))
  unfold closeToZero
  simp only [if_neg h0, decide_eq_true_eq]
  exact ⟨fun hl => ⟨_, foldl_min_mem d ds, hl⟩, fun ⟨x, hx, hl⟩ => (foldl_min_le d ds x hx).trans hl⟩

/-- In the model phase `ask` warns exactly when a computed distance is at most the threshold. -/
theorem askWarns_rounded (hp : 1 ≤ p) {W : World (Bin p) M R G} {dims : List (Dim (Bin p))} {s : Opt (Bin p) M R}
    {x : Point (Bin p)} (hm : ModelPhase s) (h : (askOne (binArith p) W dims s).2 = .ok x) (hx : x.length = dims.length)
    (hXi : ∀ v ∈ s.Xi, v.items.length = dims.length) :
    (∀ v ∈ s.Xi, List.Forall₂ Within dims x ∧ List.Forall₂ Within dims v.items) ∧
    (askWarns (binArith p) dims s = true ↔
      ∃ v ∈ s.Xi, ∃ r, Space.distance (binArith p) dims x v.items = .ok r ∧ r ≤ (binArith p).eps) := by
  have hc : ¬ (0 < s.nInit ∨ s.cfg.hasEst = false) := by
    rintro (h | h)
    · exact absurd h (not_lt.2 hm.1)
    · rw [hm.2] at h; cases h
  unfold askOne at h
  unfold askWarns
  rw [if_neg hc] at h ⊢
  by_cases hmod : s.models.isEmpty
  · rw [if_pos hmod] at h; cases h
  rw [if_neg hmod] at h ⊢
  cases hn : s.nextX with
  | none => rw [hn] at h; cases h
  | some x' =>
    rw [hn] at h
    simp only at h ⊢
    obtain ⟨ds, hd, h⟩ := bind_eq_ok.1 h
    rw [hd]
    split at h
    · cases h
    · injection h with h
      subst h
      have hmem := mapE_forall₂ hd
      have hw : ∀ v ∈ s.Xi, List.Forall₂ Within dims x' ∧ List.Forall₂ Within dims v.items := by
        intro v hv
        obtain ⟨r, _, hok⟩ := forall₂_mem_left hmem hv
        by_contra hcon
        obtain ⟨e, he, _⟩ := C06_distance_rejects (binArith p) dims x' v.items hx (hXi v hv) hcon
        rw [he] at hok
        cases hok
      refine ⟨hw, ?_⟩
      have hnn : ∀ r ∈ ds, 0 ≤ r.1 := by
        intro r hr
        obtain ⟨v, hv, hvr⟩ := forall₂_mem_right hmem hr
        obtain ⟨ab, _, _, e1, _, _, _, e2, _⟩ := C148_distance hp (hw v hv).1 (hw v hv).2 (hw v hv).1
        rw [e1] at hvr
        injection hvr with hvr
        rw [← hvr]; exact e2
      cases ds with
      | nil => simp at *
      | cons d ds =>
        simp only
        rw [closeToZero_rounded d ds hnn]
        constructor
        · rintro ⟨r, hr, hl⟩
          obtain ⟨v, hv, hvr⟩ := forall₂_mem_right hmem hr
          exact ⟨v, hv, r, hvr, hl⟩
        · rintro ⟨v, hv, r, hvr, hl⟩
          obtain ⟨r', hr', e⟩ := forall₂_mem_left hmem hv
          rw [hvr] at e
          injection e with e
          exact ⟨r', hr', e ▸ hl⟩

/-- **C148 (warning).** In floating-point arithmetic of any precision, when the surrogate makes the suggestions: `ask` warns
whenever its suggestion is on record; if it warns, a recorded point is at a distance of at most `1e-8`, and if a recorded
point is at such a distance it warns, up to the rounding of the distance and of the threshold. -/
theorem C148_warning (hp : 1 ≤ p) (W : World (Bin p) M R G) (dims : List (Dim (Bin p))) (s : Opt (Bin p) M R)
    (x : Point (Bin p)) (hm : ModelPhase s) (h : (askOne (binArith p) W dims s).2 = .ok x) (hx : x.length = dims.length)
    (hXi : ∀ v ∈ s.Xi, v.items.length = dims.length) :
    (x ∈ s.Xi.map Val.items → askWarns (binArith p) dims s = true) ∧
    (askWarns (binArith p) dims s = true → ∃ v ∈ s.Xi,
      (1 - 1 / 2 ^ p) ^ (dims.length + 1) * trueDist dims x v.items ≤ (1 + 1 / 2 ^ p) * (1 / 10 ^ 8)) ∧
    ((∃ v ∈ s.Xi, (1 + 1 / 2 ^ p) ^ (dims.length + 1) * trueDist dims x v.items ≤ (1 - 1 / 2 ^ p) * (1 / 10 ^ 8)) →
      askWarns (binArith p) dims s = true) := by
  obtain ⟨hw, hiff⟩ := askWarns_rounded hp hm h hx hXi
  obtain ⟨e0, e1, e2⟩ := eps_rounded hp
  rw [hiff]
  refine ⟨?_, ?_, ?_⟩
  · intro hmem
    obtain ⟨v, hv, rfl⟩ := List.mem_map.1 hmem
    obtain ⟨ab, _, _, d1, _, _, _, d2, d3, _⟩ := C148_distance hp (hw v hv).2 (hw v hv).2 (hw v hv).1
    refine ⟨v, hv, ab, d1, ?_⟩
    show ab.1 ≤ ((binArith p).eps).1
    rw [d3.2 rfl]; exact e0.le
  · rintro ⟨v, hv, r, hr, hl⟩
    obtain ⟨ab, _, _, d1, _, _, _, _, _, d4, _⟩ := C148_distance hp (hw v hv).1 (hw v hv).2 (hw v hv).1
    rw [hr] at d1
    injection d1 with d1
    subst d1
    exact ⟨v, hv, d4.trans (le_trans hl e2)⟩
  · rintro ⟨v, hv, hl⟩
    obtain ⟨ab, _, _, d1, _, _, _, _, _, _, d5, _⟩ := C148_distance hp (hw v hv).1 (hw v hv).2 (hw v hv).1
    exact ⟨v, hv, ab, d1, d5.trans (hl.trans e1)⟩

theorem wholeGaps {dims : List (Dim (Bin p))} {a b : Point (Bin p)} (ha : WholePoint dims a) (hb : WholePoint dims b) :
    ∀ g ∈ trueGaps dims a b, g = 0 ∨ 1 ≤ g := by
  induction ha generalizing b with
  | nil => cases hb; intro g hg; cases hg
  | @cons d v ds vs h1 _ ih =>
    cases hb with
    | @cons _ w _ ws g1 g2 =>
      intro g hg
      rcases List.mem_cons.1 hg with rfl | hg
      · cases d with
        | real r => exact h1.elim
        | cat c =>
          simp only [trueGap]
          split
          · exact Or.inl rfl
          · exact Or.inr le_rfl
        | int r =>
          obtain ⟨x, k, rfl, hk⟩ := h1
          obtain ⟨y, l, rfl, hl⟩ := g1
          simp only [trueGap, hk, hl]
          by_cases hkl : k = l
          · left; rw [hkl, sub_self, abs_zero]
          · right
            have : (1 : ℤ) ≤ |k - l| := Int.one_le_abs (sub_ne_zero.2 hkl)
            exact_mod_cast this
      · exact ih g2 g hg

/-- **C148 (warning, discrete spaces).** With `Integer` and `Categorical` dimensions only, whatever the precision: `ask` warns
exactly when the point it suggests is on record. -/
theorem C148_discrete_warning (hp : 1 ≤ p) (W : World (Bin p) M R G) (dims : List (Dim (Bin p))) (s : Opt (Bin p) M R)
    (x : Point (Bin p)) (hm : ModelPhase s) (h : (askOne (binArith p) W dims s).2 = .ok x) (hx : WholePoint dims x)
    (hXi : ∀ v ∈ s.Xi, WholePoint dims v.items) :
    askWarns (binArith p) dims s = true ↔ x ∈ s.Xi.map Val.items := by
  have hXl : ∀ v ∈ s.Xi, v.items.length = dims.length := fun v hv => (hXi v hv).length_eq.symm
  refine ⟨fun hwarn => ?_, (C148_warning hp W dims s x hm h hx.length_eq.symm hXl).1⟩
  obtain ⟨hw, hiff⟩ := askWarns_rounded hp hm h hx.length_eq.symm hXl
  obtain ⟨v, hv, r, hr, hl⟩ := hiff.1 hwarn
  obtain ⟨-, -, -, i4, i5⟩ := trueGaps_spec (hw v hv).1 (hw v hv).2
  have hnn : ∀ x' ∈ (trueGaps dims x v.items).map (Bin.near p), 0 ≤ x'.1 := by
    intro x' hx'
    obtain ⟨g, hg, rfl⟩ := List.mem_map.1 hx'
    exact rnd_nonneg hp (i4 g hg)
  have hge := (bin_foldl_ge hp _ _ (bin_zero p).ge hnn).2
  have hd : Space.distance (binArith p) dims x v.items = _ := distanceFrom_rounded hp (hw v hv).1 (hw v hv).2 _
  rw [hr] at hd
  injection hd with hd
  rw [← hd] at hge
  have heq : x = v.items := by
    rw [← i5]
    intro g hg
    rcases wholeGaps hx (hXi v hv) g hg with h0 | h1
    · exact h0
    · exfalso
      have a1 : 1 ≤ rnd p g := by
        have := rnd_mono hp h1
        rwa [rnd_one hp] at this
      have a2 := hge _ (List.mem_map_of_mem hg)
      have a3 : r.1 ≤ ((binArith p).eps).1 := hl
      obtain ⟨_, _, e2⟩ := eps_rounded hp
      obtain ⟨_, u1⟩ := unit_le_half hp
      have a4 : (Bin.near p g).1 = rnd p g := rfl
      rw [a4] at a2
      linarith
  exact List.mem_map.2 ⟨v, hv, heq.symm⟩

/-! ## Examples -/

/-- A log-uniform `Real`, an `Integer` and a `Categorical`: points that differ in the category only are apart, in both
directions alike.  Meets the hypotheses of `C148_distance`. -/
example : ∃ ab : Bin 53, Space.distance (binArith 53) dblDims dblPoint (dblPoint.take 2 ++ [.str "c"]) = .ok ab ∧
    Space.distance (binArith 53) dblDims (dblPoint.take 2 ++ [.str "c"]) dblPoint = .ok ab ∧ ab.1 ≠ 0 := by
  have hw : List.Forall₂ Within dblDims dblPoint := dblPoint_mem.imp fun d v h => by
    cases d with
    | real r => exact h
    | int r => obtain ⟨k, e, h1, h2⟩ := h; exact ⟨_, e, h1, h2⟩
    | cat c => exact h
  have hw' : List.Forall₂ Within dblDims (dblPoint.take 2 ++ [.str "c"]) := by
    cases hw with
    | cons h1 hw =>
      cases hw with
      | cons h2 hw => exact .cons h1 (.cons h2 (.cons (by simp [Within, dblCat]) .nil))
  obtain ⟨ab, _, _, h1, h2, _, _, _, h3, _⟩ := C148_distance (by norm_num) hw hw' hw
  exact ⟨ab, h1, h2, fun h => by simpa [dblPoint] using h3.1 h⟩

/-- `Integer(-1000, 1000000)` beside three categories, in double precision. -/
noncomputable def wholeDims : List (Dim (Bin 53)) := [.int dblInt, .cat dblCat]

/-- An optimizer that was told two points and suggests `x`. -/
noncomputable def wholeOpt (x : Point (Bin 53)) : Opt (Bin 53) Unit Unit :=
  { (Opt.fresh (binArith 53) (toyCfg .EI) () none : Opt (Bin 53) Unit Unit) with
    nInit := 0
    Xi := [.seq [.num ((binArith 53).ofInt 3), .str "a"], .seq [.num ((binArith 53).ofInt 4), .str "b"]]
    yi := [.num (.fin ((binArith 53).ofInt 1)), .num (.fin ((binArith 53).ofInt 2))]
    models := [()]
    nextX := some x }

theorem whole_point (z : ℤ) (hz : |z| ≤ 2 ^ 53) (t : String) :
    WholePoint wholeDims [.num ((binArith 53).ofInt z), .str t] :=
  .cons ⟨_, z, rfl, bin_ofInt (by norm_num) hz⟩ (.cons trivial .nil)

theorem wholeOpt_asks (W : World (Bin 53) Unit Unit G) (z : ℤ) (t : String) (hz : 0 ≤ z ∧ z ≤ 9) (ht : t = "a" ∨ t = "b") :
    (askOne (binArith 53) W wholeDims (wholeOpt [.num ((binArith 53).ofInt z), .str t])).2 =
      .ok [.num ((binArith 53).ofInt z), .str t] := by
  have hw : ∀ (z : ℤ) (t : String), (0 ≤ z ∧ z ≤ 9) → (t = "a" ∨ t = "b") →
      List.Forall₂ Within wholeDims [.num ((binArith 53).ofInt z), .str t] := by
    intro z t hz ht
    refine .cons ?_ (.cons ?_ .nil)
    · have hm := (binArith_orderly (p := 53) (by norm_num)).ofInt_mono
      exact ⟨_, rfl, hm (by omega), hm (by omega)⟩
    · rcases ht with rfl | rfl <;> simp [Within, dblCat]
  have h3 := hw 3 "a" (by norm_num) (.inl rfl)
  have h4 := hw 4 "b" (by norm_num) (.inr rfl)
  have hx := hw z t hz ht
  obtain ⟨a, _, _, h1, _⟩ := C148_distance (by norm_num) hx h3 h3
  obtain ⟨b, _, _, h2, _⟩ := C148_distance (by norm_num) hx h4 h4
  simp [askOne, wholeOpt, Opt.fresh, toyCfg, mapE, Val.items, h1, h2]

/-- Meets the hypotheses of `C148_warning` and `C148_discrete_warning`: 3 with category a has been told, 3 with category b
has not. -/
example (W : World (Bin 53) Unit Unit G) :
    askWarns (binArith 53) wholeDims (wholeOpt [.num ((binArith 53).ofInt 3), .str "a"]) = true ∧
      askWarns (binArith 53) wholeDims (wholeOpt [.num ((binArith 53).ofInt 3), .str "b"]) = false := by
  have hd : ∀ v ∈ [Val.seq [.num ((binArith 53).ofInt 3), .str "a"], .seq [.num ((binArith 53).ofInt 4), .str "b"]],
      WholePoint wholeDims (Val.items v) := by
    intro v hv
    simp only [List.mem_cons, List.not_mem_nil, or_false] at hv
    rcases hv with rfl | rfl
    · exact whole_point 3 (by norm_num) "a"
    · exact whole_point 4 (by norm_num) "b"
  constructor
  · exact (C148_discrete_warning (by norm_num) W wholeDims _ _ ⟨le_rfl, rfl⟩
      (wholeOpt_asks W 3 "a" (by norm_num) (.inl rfl)) (whole_point 3 (by norm_num) "a") hd).2 (by simp [wholeOpt, Val.items])
  · rw [← Bool.not_eq_true, C148_discrete_warning (by norm_num) W wholeDims _ _ ⟨le_rfl, rfl⟩
      (wholeOpt_asks W 3 "b" (by norm_num) (.inr rfl)) (whole_point 3 (by norm_num) "b") hd]
    simp only [wholeOpt, List.map_cons, List.map_nil, Val.items, List.mem_cons, List.cons.injEq, Val.num.injEq, Val.str.injEq,
      List.not_mem_nil, or_false, and_true]
    rintro (⟨_, h⟩ | h)
    · exact absurd h (by decide)
    · have h' := congrArg Subtype.val h
      rw [dbl_val (by decide), dbl_val (by decide)] at h'
      norm_num at h'

end Skopt

import Verif.Props.Callbacks
import Verif.Props.FloatDistance
import Verif.Props.FloatHedge

/-!
# C155: the stoppers in floating-point arithmetic

`DeltaYStopper` and `HollowIterationsStopper` compare a computed difference of two observed values with a number given by the
user.  C47 and C48 state the criteria with the computed difference; here they are compared with the true difference.
-/

namespace Skopt

variable {p : ℕ}

/-! ## Lemmas -/

theorem binArith_monoSub (hp : 1 ≤ p) : MonoSub (binArith p) where
  left a b c h := by
    have h' : a.1 ≤ b.1 := h
    exact rnd_mono hp (show a.1 - c.1 ≤ b.1 - c.1 by linarith)
  right a b c h := by
    have h' : a.1 ≤ b.1 := h
    exact rnd_mono hp (show c.1 - b.1 ≤ c.1 - a.1 by linarith)

/-- A list of real numbers that is a rearrangement of floating-point numbers comes from floating-point numbers. -/
theorem perm_lift {S T : List ℝ} {vs : List (Bin p)} (h : (S ++ T).Perm (vs.map Subtype.val)) :
    ∃ S' T' : List (Bin p), S'.map Subtype.val = S ∧ T'.map Subtype.val = T ∧ (S' ++ T').Perm vs := by
  classical
  let g : ℝ → Bin p := fun x => if hx : IsBinary p x then ⟨x, hx⟩ else (binArith p).ofInt 0
  have hg : ∀ y : Bin p, g y.1 = y := fun y => by simp only [g]; rw [dif_pos y.2]
  have hback : ∀ x ∈ S ++ T, (g x).1 = x := by
    intro x hx
    obtain ⟨y, _, rfl⟩ := List.mem_map.1 (h.mem_iff.1 hx)
    rw [hg]
  refine ⟨S.map g, T.map g, ?_, ?_, ?_⟩
  · rw [List.map_map]
    conv_rhs => rw [← List.map_id S]
    exact List.map_congr_left fun x hx => hback x (by simp [hx])
  · rw [List.map_map]
    conv_rhs => rw [← List.map_id T]
    exact List.map_congr_left fun x hx => hback x (by simp [hx])
  · have h1 := h.map g
    rw [List.map_append, List.map_map] at h1
    have h2 : vs.map (g ∘ Subtype.val) = vs := by
      conv_rhs => rw [← List.map_id vs]
      exact List.map_congr_left fun y _ => hg y
    rwa [h2] at h1

theorem least_map {s : List (Bin p)} {b : Bin p} :
    IsLeast {x | x ∈ s.map Subtype.val} b.1 ↔ IsLeast {x | x ∈ s} b := by
  constructor
  · rintro ⟨h1, h2⟩
    obtain ⟨y, hy, e⟩ := List.mem_map.1 h1
    refine ⟨by rwa [Subtype.ext e] at hy, fun z hz => ?_⟩
    exact h2 (List.mem_map_of_mem hz)
  · rintro ⟨h1, h2⟩
    refine ⟨List.mem_map_of_mem h1, ?_⟩
    intro x hx
    obtain ⟨y, hy, rfl⟩ := List.mem_map.1 hx
    exact h2 hy

theorem pyAbs_bin (hp : 1 ≤ p) (x : Bin p) : (pyAbs (binArith p) x).1 = |x.1| := by
  unfold pyAbs
  split
  · next h =>
    have h' : x.1 < ((binArith p).ofInt 0).1 := h
    rw [bin_zero] at h'
    show rnd p (((binArith p).ofInt 0).1 - x.1) = _
    rw [bin_zero, zero_sub, rnd_neg, rnd_of_isBinary hp x.2, abs_of_neg h']
  · next h =>
    have h' : ¬ x.1 < ((binArith p).ofInt 0).1 := h
    rw [bin_zero] at h'
    exact (abs_of_nonneg (not_lt.1 h')).symm

theorem rnd_just_below_one : rnd 53 (1 - 1 / 2 ^ 60) = 1 := by
  have hpos : (0 : ℝ) < 1 - 1 / 2 ^ 60 := by norm_num
  have hl : Int.log 2 |(1 - 1 / 2 ^ 60 : ℝ)| = -1 := by
    rw [abs_of_pos hpos]
    refine le_antisymm ?_ ?_
    · have : Int.log 2 (1 - 1 / 2 ^ 60 : ℝ) < 0 := by
        rw [← Int.lt_zpow_iff_log_lt (b := 2) (by norm_num) hpos]
        norm_num
      omega
    · rw [← Int.zpow_le_iff_le_log (b := 2) (by norm_num) hpos]
      norm_num
  have hu : ulp 53 (1 - 1 / 2 ^ 60) = 1 / 2 ^ 53 := by
    unfold ulp
    rw [hl]
    norm_num
  unfold rnd
  rw [hu, roundHalfEven_of_abs_lt (k := 2 ^ 53) (by rw [abs_lt]; norm_num)]
  norm_num

theorem rnd_slightly_above_one : rnd 53 (1 + 1 / 2 ^ 60) = 1 := by
  have hpos : (0 : ℝ) < 1 + 1 / 2 ^ 60 := by norm_num
  have hl : Int.log 2 |(1 + 1 / 2 ^ 60 : ℝ)| = 0 := by
    rw [abs_of_pos hpos]
    refine le_antisymm ?_ ?_
    · have : Int.log 2 (1 + 1 / 2 ^ 60 : ℝ) < 1 := by
        rw [← Int.lt_zpow_iff_log_lt (b := 2) (by norm_num) hpos]
        norm_num
      omega
    · rw [← Int.zpow_le_iff_le_log (b := 2) (by norm_num) hpos]
      norm_num
  have hu : ulp 53 (1 + 1 / 2 ^ 60) = 1 / 2 ^ 52 := by
    unfold ulp
    rw [hl]
    norm_num
  unfold rnd
  rw [hu, roundHalfEven_of_abs_lt (k := 2 ^ 52) (by rw [abs_lt]; norm_num)]
  norm_num

/-! ## Properties -/

/-- **C155, DeltaYStopper.** In floating-point arithmetic of any precision: when the stopper asks to stop, the `n_best` smallest
observed values truly differ by less than `delta`; and when they truly differ by less than some `d` with `(1 + u) d <= delta`,
it asks to stop.

Missing: differences between `delta / (1 + u)` and `delta`, see `C155_refuted_deltaY`. -/
theorem C155_deltaY_partial (hp : 1 ≤ p) (delta : Bin p) (n : ℕ) (hn : 1 ≤ n) (vals : List (Flt (Bin p))) :
    (deltaY (binArith p) delta n vals = .ok (some true) →
      SmallestWithin exact n delta.1 ((numbers vals).map Subtype.val)) ∧
    ∀ d : ℝ, (1 + 1 / 2 ^ p) * d ≤ delta.1 → SmallestWithin exact n d ((numbers vals).map Subtype.val) →
      deltaY (binArith p) delta n vals = .ok (some true) := by
  obtain ⟨u0, u1⟩ := unit_le_half hp
  have h47 := (C47_deltaY (binArith p) (binArith_monoSub hp) delta n hn vals).2.2
  constructor
  · intro h
    obtain ⟨S, T, h1, h2, h3, h4⟩ := h47.1 h
    refine ⟨S.map Subtype.val, T.map Subtype.val, by rw [← List.map_append]; exact h1.map _, by simpa using h2, ?_, ?_⟩
    · intro a ha b hb
      obtain ⟨a, ha', rfl⟩ := List.mem_map.1 ha
      obtain ⟨b, hb', rfl⟩ := List.mem_map.1 hb
      exact h3 a ha' b hb'
    · intro a ha b hb
      obtain ⟨a, ha', rfl⟩ := List.mem_map.1 ha
      obtain ⟨b, hb', rfl⟩ := List.mem_map.1 hb
      have h5 : rnd p (a.1 - b.1) < delta.1 := h4 a ha' b hb'
      show a.1 - b.1 < delta.1
      by_contra hc
      have h6 := rnd_mono hp (not_lt.1 hc)
      rw [rnd_of_isBinary hp delta.2] at h6
      linarith
  · rintro d hd ⟨S, T, h1, h2, h3, h4⟩
    obtain ⟨S', T', rfl, rfl, h5⟩ := perm_lift h1
    refine h47.2 ⟨S', T', h5, by simpa using h2, ?_, ?_⟩
    · intro a ha b hb
      exact h3 a.1 (List.mem_map_of_mem ha) b.1 (List.mem_map_of_mem hb)
    · intro a ha b hb
      have h6 : a.1 - b.1 < d := h4 a.1 (List.mem_map_of_mem ha) b.1 (List.mem_map_of_mem hb)
      have h7 : a.1 - a.1 < d := h4 a.1 (List.mem_map_of_mem ha) a.1 (List.mem_map_of_mem ha)
      show rnd p (a.1 - b.1) < delta.1
      have he := (abs_le.1 (rnd_err p (a.1 - b.1))).2
      rcases le_total 0 (a.1 - b.1) with h0 | h0
      · rw [abs_of_nonneg h0] at he
        nlinarith
      · have := rnd_mono hp h0
        rw [rnd_zero] at this
        nlinarith

/-- The values 3 and 3 (and 7) differ by less than 1/2 = d, and `delta` is 1.  Meets the hypotheses of `C155_deltaY_partial`. -/
example : ∃ (delta : Bin 53) (vals : List (Flt (Bin 53))), (1 + 1 / 2 ^ 53 : ℝ) * (1 / 2) ≤ delta.1 ∧
    SmallestWithin exact 2 (1 / 2) ((numbers vals).map Subtype.val) := by
  have e1 : ((binArith 53).ofInt 1).1 = 1 := by rw [bin_ofInt (by norm_num) (by norm_num)]; norm_num
  have e3 : ((binArith 53).ofInt 3).1 = 3 := by rw [bin_ofInt (by norm_num) (by norm_num)]; norm_num
  have e7 : ((binArith 53).ofInt 7).1 = 7 := by rw [bin_ofInt (by norm_num) (by norm_num)]; norm_num
  refine ⟨(binArith 53).ofInt 1, [.fin ((binArith 53).ofInt 3), .fin ((binArith 53).ofInt 3), .fin ((binArith 53).ofInt 7)],
    by rw [e1]; norm_num, [3, 3], [7], ?_, rfl, by simp; norm_num, ?_⟩
  · simp only [numbers, List.map_cons, List.map_nil, e3, e7]; exact .refl _
  · intro a ha b hb
    simp only [List.mem_cons, List.not_mem_nil, or_false, or_self] at ha hb
    subst ha; subst hb
    show (3 : ℝ) - 3 < 1 / 2
    norm_num

/-- **C155, DeltaXStopper.** In floating-point arithmetic of any precision, for points of the space: after two or more points the
stopper answers.  When it asks to stop, the last two points are truly closer than `delta` up to the factor `(1 - u) ** (n + 1)`,
`n` the number of dimensions; when they are truly closer than `delta` up to the factor `(1 + u) ** (n + 1)`, it asks to stop.
With `delta <= 0` it never does; two equal points make it stop for every positive `delta`. -/
theorem C155_deltaX (hp : 1 ≤ p) (dims : List (Dim (Bin p))) (delta : Bin p) (rest : List (Point (Bin p)))
    (a b : Point (Bin p)) (ha : List.Forall₂ Within dims a) (hb : List.Forall₂ Within dims b) :
    ∃ stop : Bool, deltaX (binArith p) dims delta ((rest ++ [a, b]).map Val.seq) = .ok (some stop) ∧
      (stop = true → (1 - 1 / 2 ^ p) ^ (dims.length + 1) * trueDist dims a b < delta.1) ∧
      ((1 + 1 / 2 ^ p) ^ (dims.length + 1) * trueDist dims a b < delta.1 → stop = true) ∧
      (delta.1 ≤ 0 → stop = false) ∧ (0 < delta.1 → a = b → stop = true) := by
  obtain ⟨d, _, _, h1, _, _, _, h5, h6, h7, h8, _⟩ := C148_distance hp ha hb hb
  refine ⟨decide (d < delta), ?_, ?_, ?_, ?_, ?_⟩
  · unfold deltaX
    rw [if_pos (by simp)]
    have g2 := pyGetI_neg ((rest ++ [a, b]).map Val.seq) 1 (by simp)
    have g1 := pyGetI_neg ((rest ++ [a, b]).map Val.seq) 0 (by simp)
    have e2 : ((-((1 : Nat) : ℤ) - 1)) = -2 := by norm_num
    have e1 : ((-((0 : Nat) : ℤ) - 1)) = -1 := by norm_num
    rw [e2] at g2
    rw [e1] at g1
    rw [g2, g1]
    have q2 : ((rest ++ [a, b]).map Val.seq)[((rest ++ [a, b]).map Val.seq).length - 1 - 1]'(by simp)
        = Val.seq a := by simp
    have q1 : ((rest ++ [a, b]).map Val.seq)[((rest ++ [a, b]).map Val.seq).length - 1 - 0]'(by simp)
        = Val.seq b := by simp
    rw [q2, q1]
    simp only [ok_bind, h1]
  · intro h
    have h' : d.1 < delta.1 := of_decide_eq_true h
    linarith
  · intro h
    exact decide_eq_true (show d.1 < delta.1 by linarith)
  · intro h
    exact decide_eq_false (fun hc => by
      have h' : d.1 < delta.1 := hc
      linarith)
  · intro h hab
    exact decide_eq_true (show d.1 < delta.1 by rw [h6.2 hab]; exact h)

/-- Two points of the space of a categorical dimension.  Meets the hypotheses of `C155_deltaX`. -/
example : ∃ (dims : List (Dim (Bin 53))) (a b : Point (Bin 53)), List.Forall₂ Within dims a ∧ List.Forall₂ Within dims b ∧
    a ≠ b :=
  ⟨[.cat ⟨[.str "a", .str "b"], none, .onehot, none, fun _ => "", fun s => .ok (.str s)⟩], [.str "a"], [.str "b"],
    .cons (by simp [Within]) .nil, .cons (by simp [Within]) .nil, by simp⟩

/-- **C155, HollowIterationsStopper.** In floating-point arithmetic of any precision and for histories of numbers: when the best
value truly improved by at most `|threshold|` during the last `n` of more than `n` evaluations, the stopper asks to stop; and
when it asks to stop, the best value truly improved by at most `|threshold| / (1 - u)`.

Missing: improvements between `|threshold|` and `|threshold| / (1 - u)`, see `C155_refuted_hollow`, and NaN, see C48. -/
theorem C155_hollow_partial (hp : 1 ≤ p) (n : ℕ) (thr : Bin p) (vs : List (Bin p)) :
    (n < vs.length → ImprovedAtMost exact n |thr.1| (vs.map Subtype.val) →
      hollow (binArith p) n thr (vs.map Flt.fin) = .ok (some true)) ∧
    (hollow (binArith p) n thr (vs.map Flt.fin) = .ok (some true) →
      n < vs.length ∧ ImprovedAtMost exact n (|thr.1| / (1 - 1 / 2 ^ p)) (vs.map Subtype.val)) := by
  obtain ⟨u0, u1⟩ := unit_le_half hp
  have h48 := (C48_hollow_partial (binArith p) n thr vs).2
  have habs := pyAbs_bin hp thr
  constructor
  · rintro hlen ⟨b, w, h1, h2, h3⟩
    rw [List.length_map, ← List.map_take] at h1
    obtain ⟨b, hb, rfl⟩ := List.mem_map.1 h1.1
    obtain ⟨w, hw, rfl⟩ := List.mem_map.1 h2.1
    refine h48.2 ⟨hlen, b, w, least_map.1 h1, least_map.1 h2, ?_⟩
    show rnd p (b.1 - w.1) ≤ (pyAbs (binArith p) thr).1
    rw [← rnd_of_isBinary hp (pyAbs (binArith p) thr).2, habs]
    exact rnd_mono hp h3
  · intro h
    obtain ⟨hlen, b, w, h1, h2, h3⟩ := h48.1 h
    refine ⟨hlen, b.1, w.1, ?_, least_map.2 h2, ?_⟩
    · rw [List.length_map, ← List.map_take]; exact least_map.2 h1
    · have h4 : rnd p (b.1 - w.1) ≤ (pyAbs (binArith p) thr).1 := h3
      rw [habs] at h4
      have hbw : w.1 ≤ b.1 := h2.2 (List.mem_of_mem_take h1.1)
      have he := (abs_le.1 (rnd_err p (b.1 - w.1))).1
      rw [abs_of_nonneg (by linarith)] at he
      show b.1 - w.1 ≤ _
      rw [le_div_iff₀ (by linarith)]
      linarith

/-- The history 5, 3, 3 with `n = 1` and threshold 0.  Meets the hypotheses of `C155_hollow_partial`. -/
example : ∃ (thr : Bin 53) (vs : List (Bin 53)), 1 < vs.length ∧ ImprovedAtMost exact 1 |thr.1| (vs.map Subtype.val) := by
  have e3 : ((binArith 53).ofInt 3).1 = 3 := by rw [bin_ofInt (by norm_num) (by norm_num)]; norm_num
  have e5 : ((binArith 53).ofInt 5).1 = 5 := by rw [bin_ofInt (by norm_num) (by norm_num)]; norm_num
  refine ⟨(binArith 53).ofInt 0, [(binArith 53).ofInt 5, (binArith 53).ofInt 3, (binArith 53).ofInt 3], by simp, 3, 3, ?_, ?_,
    ?_⟩
  · simp only [List.map_cons, List.map_nil, e3, e5]
    constructor
    · simp
    · intro x hx
      simp at hx
      rcases hx with rfl | rfl <;> norm_num
  · simp only [List.map_cons, List.map_nil, e3, e5]
    constructor
    · simp
    · intro x hx
      simp at hx
      rcases hx with rfl | rfl <;> norm_num
  · show (3 : ℝ) - 3 ≤ _
    simp

/-- **C155 is false of `delta` itself.** In doubles, `DeltaYStopper(delta=1, n_best=2)` does not ask to stop at the values
`1` and `2 ** -60`, which differ by less than 1: the difference is rounded to 1. -/
theorem C155_refuted_deltaY : ∃ (delta : Bin 53) (vals : List (Bin 53)), delta.1 = 1 ∧
    vals.map Subtype.val = [1, 1 / 2 ^ 60] ∧ SmallestWithin exact 2 delta.1 (vals.map Subtype.val) ∧
    deltaY (binArith 53) delta 2 (vals.map Flt.fin) ≠ .ok (some true) := by
  have e1 : ((binArith 53).ofInt 1).1 = 1 := by rw [bin_ofInt (by norm_num) (by norm_num)]; norm_num
  obtain ⟨w, hw⟩ : ∃ w : Bin 53, w.1 = 1 / 2 ^ 60 := ⟨⟨1 / 2 ^ 60, 1, -60, by norm_num, by norm_num⟩, rfl⟩
  refine ⟨(binArith 53).ofInt 1, [(binArith 53).ofInt 1, w], e1, ?_, ?_, ?_⟩
  · simp only [List.map_cons, List.map_nil, e1, hw]
  · refine ⟨[1, 1 / 2 ^ 60], [], ?_, rfl, by simp, ?_⟩
    · simp only [List.map_cons, List.map_nil, e1, hw, List.append_nil]; exact .refl _
    · intro a ha b hb
      simp only [List.mem_cons, List.not_mem_nil, or_false] at ha hb
      rw [e1]
      show a - b < 1
      rcases ha with rfl | rfl <;> rcases hb with rfl | rfl <;> norm_num
  · intro h
    have h47 := (C47_deltaY (binArith 53) (binArith_monoSub (by norm_num)) ((binArith 53).ofInt 1) 2 (by norm_num)
      ([(binArith 53).ofInt 1, w].map Flt.fin)).2.2
    obtain ⟨S, T, h1, h2, _, h4⟩ := h47.1 h
    have hT : T = [] := by
      have := h1.length_eq
      simp only [numbers, List.map_cons, List.map_nil, List.length_append, List.length_cons, List.length_nil, h2] at this
      exact List.length_eq_zero_iff.1 (by omega)
    subst hT
    rw [List.append_nil] at h1
    have m1 : (binArith 53).ofInt 1 ∈ S := h1.mem_iff.2 (by simp [numbers])
    have m2 : w ∈ S := h1.mem_iff.2 (by simp [numbers])
    have h5 : rnd 53 (((binArith 53).ofInt 1).1 - w.1) < ((binArith 53).ofInt 1).1 := h4 _ m1 _ m2
    rw [e1, hw, rnd_just_below_one] at h5
    exact lt_irrefl _ h5

/-- **C155 is false of the threshold itself.** In doubles, `HollowIterationsStopper(1, threshold=1)` asks to stop after the
values `1` and `-2 ** -60`, although the last evaluation improved the best value by more than 1. -/
theorem C155_refuted_hollow : ∃ (thr : Bin 53) (vs : List (Bin 53)), thr.1 = 1 ∧
    vs.map Subtype.val = [1, -(1 / 2 ^ 60)] ∧ ¬ ImprovedAtMost exact 1 |thr.1| (vs.map Subtype.val) ∧
    hollow (binArith 53) 1 thr (vs.map Flt.fin) = .ok (some true) := by
  have e1 : ((binArith 53).ofInt 1).1 = 1 := by rw [bin_ofInt (by norm_num) (by norm_num)]; norm_num
  have hs : IsBinary 53 (-(1 / 2 ^ 60) : ℝ) := ⟨-1, -60, by norm_num, by norm_num⟩
  refine ⟨(binArith 53).ofInt 1, [(binArith 53).ofInt 1, ⟨-(1 / 2 ^ 60), hs⟩], e1, ?_, ?_, ?_⟩
  · simp only [List.map_cons, List.map_nil, e1]
  · rintro ⟨b, w, h1, h2, h3⟩
    simp only [List.map_cons, List.map_nil, e1] at h1 h2
    have hb : b = 1 := by simpa using h1.1
    have hw : w ≤ -(1 / 2 ^ 60) := h2.2 (by simp)
    have h4 : b - w ≤ |((binArith 53).ofInt 1).1| := h3
    rw [e1, hb, abs_one] at h4
    have : (0 : ℝ) < 1 / 2 ^ 60 := by positivity
    linarith
  · have h48 := (C48_hollow_partial (binArith 53) 1 ((binArith 53).ofInt 1)
      [(binArith 53).ofInt 1, ⟨-(1 / 2 ^ 60), hs⟩]).2
    refine h48.2 ⟨by simp, (binArith 53).ofInt 1, ⟨-(1 / 2 ^ 60), hs⟩, ?_, ?_, ?_⟩
    · simp [IsLeast, lowerBounds]
    · refine ⟨by simp, ?_⟩
      intro x hx
      simp only [Set.mem_ofPred_eq, List.mem_cons, List.not_mem_nil, or_false] at hx
      rcases hx with rfl | rfl
      · show (-(1 / 2 ^ 60) : ℝ) ≤ ((binArith 53).ofInt 1).1
        rw [e1]; norm_num
      · exact le_rfl
    · show rnd 53 (((binArith 53).ofInt 1).1 - -(1 / 2 ^ 60)) ≤ (pyAbs (binArith 53) ((binArith 53).ofInt 1)).1
      rw [pyAbs_bin (by norm_num), e1, sub_neg_eq_add, rnd_slightly_above_one, abs_one]

/-- **C155, DeadlineStopper.** In floating-point arithmetic of any precision: let `ts` be the durations on record after a call of
the stopper (none negative).  If it does not ask to stop, all of them and one more as long as the longest fit into the time
limit up to the factor `(1 - u) ** n`; if it asks to stop, they do not, up to the factors `(1 + u) ** n` and `1 - u`. -/
theorem C155_deadline (hp : 1 ≤ p) (total : Bin p) (d : Deadline (Bin p)) (t₁ t₂ : Bin p) (xs : List (Val (Bin p)))
    (hxs : xs ≠ []) (ts : List (Bin p)) (hts : ts = (d.criterion (binArith p) total t₁ t₂ xs).1.iterTime)
    (h0 : ∀ t ∈ ts, 0 ≤ t.1) :
    ∃ (stop : Bool) (longest : Bin p), (d.criterion (binArith p) total t₁ t₂ xs).2 = .ok (some stop) ∧
      longest ∈ ts ∧ (∀ t ∈ ts, t.1 ≤ longest.1) ∧
      (stop = false → (1 - 1 / 2 ^ p) ^ ts.length * ((ts.map Subtype.val).sum + longest.1) < total.1) ∧
      (stop = true → (1 - 1 / 2 ^ p) * total.1 ≤ (1 + 1 / 2 ^ p) ^ ts.length * (ts.map Subtype.val).sum + longest.1) := by
  obtain ⟨u0, u1⟩ := unit_le_half hp
  have hd : ts = d.iterTime ++ [(binArith p).sub t₁ d.time] := hts
  have hlen : 1 ≤ ts.length := by rw [hd]; simp
  obtain ⟨m, hm, hmem, hmax⟩ : ∃ m, maxL ts = .ok m ∧ m ∈ ts ∧ ∀ t ∈ ts, t.1 ≤ m.1 := by
    have key : ∀ (l : List (Bin p)) (x : Bin p), l.foldl max x ∈ x :: l ∧ ∀ t ∈ x :: l, t ≤ l.foldl max x := by
      intro l
      induction l with
      | nil => intro x; simp
      | cons y l ih =>
        intro x
        obtain ⟨h1, h2⟩ := ih (max x y)
        rw [List.foldl_cons]
        refine ⟨?_, ?_⟩
        · rcases List.mem_cons.1 h1 with h | h
          · rw [h]
            rcases max_choice x y with e | e <;> rw [e] <;> simp
          · simp [h]
        · intro t ht
          have hxy := h2 (max x y) (by simp)
          rcases List.mem_cons.1 ht with rfl | ht
          · exact (le_max_left _ _).trans hxy
          · rcases List.mem_cons.1 ht with rfl | ht
            · exact (le_max_right _ _).trans hxy
            · exact h2 t (by simp [ht])
    match ts, hlen with
    | x :: l, _ => exact ⟨_, rfl, (key l x).1, (key l x).2⟩
  have hcrit : (d.criterion (binArith p) total t₁ t₂ xs).2 =
      .ok (some (decide ((binArith p).sub total (sumL (binArith p) ts) ≤ m))) := by
    simp only [Deadline.criterion, if_neg hxs, ← hd, hm, ok_bind]
  have hS0 : 0 ≤ (ts.map Subtype.val).sum := List.sum_nonneg fun y hy => by
    obtain ⟨z, hz, rfl⟩ := List.mem_map.1 hy
    exact h0 z hz
  have hm0 : 0 ≤ m.1 := h0 m hmem
  obtain ⟨s1, s2⟩ := bin_foldl_rel hp ts ((binArith p).ofInt 0) (bin_zero p).ge h0
  rw [bin_zero, zero_add] at s1 s2
  have hpow : (1 - 1 / 2 ^ p : ℝ) ^ ts.length ≤ 1 - 1 / 2 ^ p := by
    calc (1 - 1 / 2 ^ p : ℝ) ^ ts.length ≤ (1 - 1 / 2 ^ p) ^ 1 :=
          pow_le_pow_of_le_one (by linarith) (by linarith) hlen
      _ = _ := pow_one _
  have he := abs_le.1 (rnd_err p (total.1 - (sumL (binArith p) ts).1))
  have hsub : ((binArith p).sub total (sumL (binArith p) ts)).1 = rnd p (total.1 - (sumL (binArith p) ts).1) := rfl
  have hSc : (ts.foldl (binArith p).add ((binArith p).ofInt 0)) = sumL (binArith p) ts := rfl
  rw [hSc] at s1 s2
  have hScn : 0 ≤ (sumL (binArith p) ts).1 := le_trans (mul_nonneg (pow_nonneg (by linarith) _) hS0) s1
  refine ⟨_, m, hcrit, hmem, hmax, ?_, ?_⟩
  · intro hs
    have hs' : m.1 < rnd p (total.1 - (sumL (binArith p) ts).1) := by
      have : ¬ ((binArith p).sub total (sumL (binArith p) ts) ≤ m) := of_decide_eq_false hs
      exact not_le.1 this
    generalize (sumL (binArith p) ts).1 = S at *
    have hpos : 0 < total.1 - S := by
      by_contra hc
      have := rnd_mono hp (not_lt.1 hc)
      rw [rnd_zero] at this
      linarith
    rw [abs_of_pos hpos] at he
    have h1 : (1 - 1 / 2 ^ p : ℝ) ^ ts.length * m.1 ≤ (1 - 1 / 2 ^ p) * m.1 := mul_le_mul_of_nonneg_right hpow hm0
    have h2 : (1 - 1 / 2 ^ p : ℝ) * m.1 < total.1 - S := by
      have h3 : m.1 < (1 + 1 / 2 ^ p) * (total.1 - S) := by linarith [he.2]
      have h4 : (1 - 1 / 2 ^ p : ℝ) * m.1 < (1 - 1 / 2 ^ p) * ((1 + 1 / 2 ^ p) * (total.1 - S)) :=
        mul_lt_mul_of_pos_left h3 (by linarith)
      nlinarith [mul_nonneg (mul_nonneg u0.le u0.le) hpos.le]
    linarith
  · intro hs
    have hs' : rnd p (total.1 - (sumL (binArith p) ts).1) ≤ m.1 := by
      have : (binArith p).sub total (sumL (binArith p) ts) ≤ m := of_decide_eq_true hs
      exact this
    generalize (sumL (binArith p) ts).1 = S at *
    rcases le_total 0 (total.1 - S) with hpos | hneg
    · rw [abs_of_nonneg hpos] at he
      nlinarith [he.1, mul_nonneg u0.le hScn]
    · have h1 : total.1 ≤ S := by linarith
      rcases le_total 0 total.1 with ht | ht
      · nlinarith [mul_nonneg u0.le ht]
      · nlinarith [mul_nonneg (pow_nonneg (show (0 : ℝ) ≤ 1 + 1 / 2 ^ p by linarith) ts.length) hS0,
          mul_nonneg (show (0 : ℝ) ≤ 1 - 1 / 2 ^ p by linarith) (show 0 ≤ -total.1 by linarith)]

/-- A limit of 60 seconds, 10 seconds on record, and the clock readings 15 (previous) and 18, 18.  Meets the hypotheses of
`C155_deadline`. -/
example : ∃ (total : Bin 53) (d : Deadline (Bin 53)) (t₁ t₂ : Bin 53),
    ∀ t ∈ (d.criterion (binArith 53) total t₁ t₂ [.seq [.num total]]).1.iterTime, 0 ≤ t.1 := by
  have e : ∀ k : ℤ, |k| ≤ 2 ^ 53 → ((binArith 53).ofInt k).1 = k := fun k hk => bin_ofInt (by norm_num) hk
  refine ⟨(binArith 53).ofInt 60, ⟨(binArith 53).ofInt 15, [(binArith 53).ofInt 10]⟩, (binArith 53).ofInt 18,
    (binArith 53).ofInt 18, ?_⟩
  intro t ht
  simp only [Deadline.criterion, List.cons_append, List.nil_append, List.mem_cons, List.not_mem_nil, or_false] at ht
  rcases ht with rfl | rfl
  · rw [e 10 (by norm_num)]; norm_num
  · show 0 ≤ rnd 53 (((binArith 53).ofInt 18).1 - ((binArith 53).ofInt 15).1)
    rw [e 18 (by norm_num), e 15 (by norm_num)]
    exact rnd_nonneg (by norm_num) (by norm_num)

end Skopt

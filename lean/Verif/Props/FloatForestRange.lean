import Verif.Props.FloatLie

/-!
# C154: what the averaging of a forest keeps in floating-point arithmetic

The prediction of a forest is the sum of the predictions of its trees divided by their number.  In exact arithmetic it lies
between the smallest and the largest of them (C128).
-/

namespace Skopt

variable {p : ℕ}

/-! ## Lemmas -/

theorem foldl_add_le (hp : 1 ≤ p) {ms ms' : List (Bin p)} (h : List.Forall₂ (fun a b => a.1 ≤ b.1) ms ms') :
    ∀ {a b : Bin p}, a.1 ≤ b.1 → (ms.foldl (binArith p).add a).1 ≤ (ms'.foldl (binArith p).add b).1 := by
  induction h with
  | nil => intro a b hab; exact hab
  | cons h1 _ ih =>
    intro a b hab
    exact ih (rnd_mono hp (add_le_add hab h1))

theorem bin_count (hp : 1 ≤ p) {n : ℕ} (hn : n ≤ 2 ^ p) : ((binArith p).ofInt (n : ℤ)).1 = (n : ℝ) := by
  rw [bin_ofInt hp (by rw [abs_of_nonneg (by positivity)]; exact_mod_cast hn)]; simp

theorem forall₂_const {α β : Type} {r : α → β → Prop} {l : List α} {b : β} (h : ∀ a ∈ l, r a b) :
    List.Forall₂ r l (l.map fun _ => b) := by
  induction l with
  | nil => exact .nil
  | cons a l ih => exact .cons (h a (by simp)) (ih fun x hx => h x (by simp [hx]))

theorem forall₂_const_left {α β : Type} {r : β → α → Prop} {l : List α} {b : β} (h : ∀ a ∈ l, r b a) :
    List.Forall₂ r (l.map fun _ => b) l := by
  induction l with
  | nil => exact .nil
  | cons a l ih => exact .cons (h a (by simp)) (ih fun x hx => h x (by simp [hx]))

theorem foldl_add_zeros (ms : List (Bin p)) :
    ((ms.map fun _ => (binArith p).ofInt 0).foldl (binArith p).add ((binArith p).ofInt 0)).1 = 0 := by
  have key : ∀ a : Bin p, a.1 = 0 → ((ms.map fun _ => (binArith p).ofInt 0).foldl (binArith p).add a).1 = 0 := by
    induction ms with
    | nil => intro a ha; exact ha
    | cons m ms ih =>
      intro a ha
      refine ih _ ?_
      show rnd p (a.1 + ((binArith p).ofInt 0).1) = 0
      rw [ha, bin_zero, add_zero, rnd_zero]
  exact key _ (bin_zero p)

/-! ## Properties -/

/-- **C154, order.** In floating-point arithmetic of any precision: if no tree predicts more at one candidate than at another,
the prediction of the forest is not larger there either. -/
theorem C154_order (hp : 1 ≤ p) (ms ms' : List (Bin p)) (hn : ms.length ≤ 2 ^ p)
    (h : List.Forall₂ (fun a b => a.1 ≤ b.1) ms ms') :
    (forestMeanAt (binArith p) ms).1 ≤ (forestMeanAt (binArith p) ms').1 := by
  have hl := h.length_eq
  have h1 := foldl_add_le hp h (le_refl ((binArith p).ofInt 0).1)
  show rnd p ((ms.foldl (binArith p).add ((binArith p).ofInt 0)).1 / ((binArith p).ofInt (ms.length : ℤ)).1) ≤
    rnd p ((ms'.foldl (binArith p).add ((binArith p).ofInt 0)).1 / ((binArith p).ofInt (ms'.length : ℤ)).1)
  rw [← hl, bin_count hp hn]
  exact rnd_mono hp (div_le_div_of_nonneg_right h1 (Nat.cast_nonneg _))

/-- **C154, sign.** If no tree predicts a negative value, neither does the forest; if no tree predicts a positive value,
neither does the forest. -/
theorem C154_sign (hp : 1 ≤ p) (ms : List (Bin p)) (hn : ms.length ≤ 2 ^ p) :
    ((∀ m ∈ ms, 0 ≤ m.1) → 0 ≤ (forestMeanAt (binArith p) ms).1) ∧
    ((∀ m ∈ ms, m.1 ≤ 0) → (forestMeanAt (binArith p) ms).1 ≤ 0) := by
  have hz : (forestMeanAt (binArith p) (ms.map fun _ => (binArith p).ofInt 0)).1 = 0 := by
    show rnd p (((ms.map fun _ => (binArith p).ofInt 0).foldl (binArith p).add ((binArith p).ofInt 0)).1 / _) = 0
    rw [foldl_add_zeros, zero_div, rnd_zero]
  constructor
  · intro h
    rw [← hz]
    exact C154_order hp _ _ (by simpa using hn) (forall₂_const_left fun m hm => by rw [bin_zero]; exact h m hm)
  · intro h
    rw [← hz]
    exact C154_order hp _ _ hn (forall₂_const fun m hm => by rw [bin_zero]; exact h m hm)

/-- Predictions of three trees at two candidates.  Meets the hypotheses of `C154_order` and `C154_sign`. -/
example : ∃ ms ms' : List (Bin 53), ms.length = 3 ∧ List.Forall₂ (fun a b => a.1 ≤ b.1) ms ms' ∧ (∀ m ∈ ms, 0 ≤ m.1) := by
  have e : ∀ k : ℤ, |k| ≤ 2 ^ 53 → ((binArith 53).ofInt k).1 = k := fun k hk => bin_ofInt (by norm_num) hk
  have e1 := e 1 (by norm_num)
  have e2 := e 2 (by norm_num)
  have e5 := e 5 (by norm_num)
  push_cast at e1 e2 e5
  refine ⟨[(binArith 53).ofInt 1, (binArith 53).ofInt 2, (binArith 53).ofInt 1],
    [(binArith 53).ofInt 1, (binArith 53).ofInt 5, (binArith 53).ofInt 2], rfl, ?_, ?_⟩
  · refine .cons le_rfl (.cons ?_ (.cons ?_ .nil))
    · rw [e2, e5]; norm_num
    · rw [e1, e2]; norm_num
  · intro m hm
    simp only [List.mem_cons, List.not_mem_nil, or_false] at hm
    rcases hm with rfl | rfl | rfl
    · rw [e1]; norm_num
    · rw [e2]; norm_num
    · rw [e1]; norm_num

/-- **C154, range.** If the predictions of the `n` trees lie between `lo` and `hi`, the prediction of the forest leaves this
interval by at most `(1 + u) ** (n + 1) - 1` times the largest absolute value of a prediction.  One tree or two trees predict
inside the interval.

Missing: three and more trees inside the interval, see `C154_refuted_range`. -/
theorem C154_range_partial (hp : 1 ≤ p) (ms : List (Bin p)) (hne : ms ≠ []) (hn : ms.length ≤ 2 ^ p) (lo hi : ℝ)
    (h : ∀ m ∈ ms, lo ≤ m.1 ∧ m.1 ≤ hi) :
    lo - ((1 + 1 / 2 ^ p) ^ (ms.length + 1) - 1) * max |lo| |hi| ≤ (forestMeanAt (binArith p) ms).1 ∧
    (forestMeanAt (binArith p) ms).1 ≤ hi + ((1 + 1 / 2 ^ p) ^ (ms.length + 1) - 1) * max |lo| |hi| ∧
    (ms.length ≤ 2 → lo ≤ (forestMeanAt (binArith p) ms).1 ∧ (forestMeanAt (binArith p) ms).1 ≤ hi) := by
  obtain ⟨u0, u1⟩ := unit_le_half hp
  have hpos : (0 : ℝ) < ms.length := by exact_mod_cast List.length_pos_iff.2 hne
  have hr := mean_rounded hp ms hne hn
  have habs : meanOf (ms.map fun m => |m.1|) ≤ max |lo| |hi| := by
    rw [meanOf, List.length_map, div_le_iff₀ hpos]
    have h3 := abs_sum_le_of (ms.map fun m => |m.1|) (B := max |lo| |hi|) (by
      intro x hx
      obtain ⟨z, hz, rfl⟩ := List.mem_map.1 hx
      rw [abs_abs]
      exact abs_le_max_abs_abs (h z hz).1 (h z hz).2)
    have := (le_abs_self _).trans h3
    rw [List.length_map] at this
    linarith
  have hlo : lo ≤ meanOf (ms.map Subtype.val) := by
    rw [meanOf, List.length_map, le_div_iff₀ hpos]
    have := List.card_nsmul_le_sum (ms.map Subtype.val) lo (by
      intro x hx
      obtain ⟨z, hz, rfl⟩ := List.mem_map.1 hx
      exact (h z hz).1)
    rw [List.length_map, nsmul_eq_mul] at this
    linarith
  have hhi : meanOf (ms.map Subtype.val) ≤ hi := by
    rw [meanOf, List.length_map, div_le_iff₀ hpos]
    have := List.sum_le_card_nsmul (ms.map Subtype.val) hi (by
      intro x hx
      obtain ⟨z, hz, rfl⟩ := List.mem_map.1 hx
      exact (h z hz).2)
    rw [List.length_map, nsmul_eq_mul] at this
    linarith
  have hK : 1 ≤ (1 + 1 / 2 ^ p : ℝ) ^ (ms.length + 1) := one_le_pow₀ (by linarith)
  have hb := abs_le.1 (hr.trans (mul_le_mul_of_nonneg_left habs (by linarith)))
  refine ⟨by linarith [hb.1], by linarith [hb.2], fun h2 => ?_⟩
  clear hb hK hhi hlo habs hr hpos
  match ms, hne, h2, h, hn with
  | [a], _, _, h, _ =>
    have ha : (forestMeanAt (binArith p) [a]).1 = a.1 := by
      have h1 := bin_count (p := p) hp (n := 1) (Nat.one_le_two_pow)
      push_cast at h1
      show rnd p (rnd p (((binArith p).ofInt 0).1 + a.1) / ((binArith p).ofInt 1).1) = a.1
      rw [bin_zero, zero_add, h1, div_one, rnd_of_isBinary hp a.2, rnd_of_isBinary hp a.2]
    rw [ha]
    exact h a (by simp)
  | [a, b], _, _, h, hn =>
    have h2 := bin_count (p := p) hp (n := 2) (by simpa using hn)
    push_cast at h2
    have hv : (forestMeanAt (binArith p) [a, b]).1 = rnd p (rnd p (a.1 + b.1) / 2) := by
      rw [← h2]
      show rnd p (rnd p (rnd p (((binArith p).ofInt 0).1 + a.1) + b.1) / ((binArith p).ofInt 2).1) = _
      rw [bin_zero, zero_add, rnd_of_isBinary hp a.2]
    have ha := h a (by simp)
    have hb := h b (by simp)
    rw [hv]
    have two : ∀ c : Bin p, (c.1 ≤ a.1 → c.1 ≤ b.1 → c.1 ≤ rnd p (rnd p (a.1 + b.1) / 2)) ∧
        (a.1 ≤ c.1 → b.1 ≤ c.1 → rnd p (rnd p (a.1 + b.1) / 2) ≤ c.1) := by
      intro c
      have hd := rnd_of_isBinary hp (isBinary_double c.2)
      have hc := rnd_of_isBinary hp c.2
      constructor
      · intro h1 h2
        have : c.1 + c.1 ≤ rnd p (a.1 + b.1) := by
          rw [← hd]; exact rnd_mono hp (add_le_add h1 h2)
        calc c.1 = rnd p c.1 := hc.symm
          _ ≤ _ := rnd_mono hp (by linarith)
      · intro h1 h2
        have : rnd p (a.1 + b.1) ≤ c.1 + c.1 := by
          rw [← hd]; exact rnd_mono hp (add_le_add h1 h2)
        calc _ ≤ rnd p c.1 := rnd_mono hp (by linarith)
          _ = c.1 := hc
    rcases le_total a.1 b.1 with hab | hab
    · exact ⟨ha.1.trans ((two a).1 le_rfl hab), ((two b).2 hab le_rfl).trans hb.2⟩
    · exact ⟨hb.1.trans ((two b).1 hab le_rfl), ((two a).2 le_rfl hab).trans ha.2⟩

/-- Two trees predicting 1 and 5.  Meets the hypotheses of `C154_range_partial`. -/
example : ∃ ms : List (Bin 53), ms.length = 2 ∧ ∀ m ∈ ms, (1 : ℝ) ≤ m.1 ∧ m.1 ≤ 5 := by
  have e1 : ((binArith 53).ofInt 1).1 = 1 := by rw [bin_ofInt (by norm_num) (by norm_num)]; norm_num
  have e5 : ((binArith 53).ofInt 5).1 = 5 := by rw [bin_ofInt (by norm_num) (by norm_num)]; norm_num
  refine ⟨[(binArith 53).ofInt 1, (binArith 53).ofInt 5], rfl, ?_⟩
  intro m hm
  simp only [List.mem_cons, List.not_mem_nil, or_false] at hm
  rcases hm with rfl | rfl
  · rw [e1]; norm_num
  · rw [e5]; norm_num

/-- **C154 is false of the range of three trees.** In doubles, three trees that all predict `2 ** 53 - 2` give a forest that
predicts `2 ** 53 - 3`. -/
theorem C154_refuted_range : ∃ x : Bin 53, x.1 = 2 ^ 53 - 2 ∧
    (forestMeanAt (binArith 53) [x, x, x]).1 = 2 ^ 53 - 3 := by
  have rp : (1 : ℕ) ≤ 53 := by norm_num
  have hx : ((binArith 53).ofInt (2 ^ 53 - 2)).1 = 2 ^ 53 - 2 := by
    rw [bin_ofInt rp (by norm_num)]; norm_num
  have h3 : ((binArith 53).ofInt 3).1 = 3 := by rw [bin_ofInt rp (by norm_num)]; norm_num
  set x := (binArith 53).ofInt (2 ^ 53 - 2) with hxd
  refine ⟨x, hx, ?_⟩
  show rnd 53 (rnd 53 (rnd 53 (rnd 53 (((binArith 53).ofInt 0).1 + x.1) + x.1) + x.1) / ((binArith 53).ofInt 3).1) = _
  rw [bin_zero, zero_add, rnd_of_isBinary rp x.2, rnd_of_isBinary rp (isBinary_double x.2), h3, hx,
    show ((2 : ℝ) ^ 53 - 2 + (2 ^ 53 - 2) + (2 ^ 53 - 2)) = 3 * (2 ^ 53 - 2) by ring, rnd_three, rnd_third]

end Skopt

import Verif.Props.FloatGenerators
import Verif.Props.HedgeRegret

/-!
# C147: the probabilities of `gp_hedge` in floating-point arithmetic

C60 and C117 treat the probabilities with which `gp_hedge` picks a proposal in exact arithmetic, where they sum to one.
The code computes them in floating point and hands them to `numpy.random.RandomState.multinomial`, which raises if one of
them is not in `[0, 1]` or if all but the last sum to more than `1 + 1e-12`.
-/

namespace Skopt

variable {p : ℕ} {M R G : Type}

/-! ## Specification -/

/-- Probabilities `RandomState.multinomial` takes: each in `[0, 1]`, and all but the last sum to at most `1 + 1e-12`, also
when that sum is rounded. -/
structure AcceptedProbs (ps : List (Bin p)) : Prop where
  unit : ∀ q ∈ ps, 0 ≤ q.1 ∧ q.1 ≤ 1
  sum : (ps.dropLast.map Subtype.val).sum ≤ 1 + 1 / 10 ^ 12
  rounded : (ps.dropLast.foldl (binArith p).add ((binArith p).ofInt 0)).1 ≤ 1 + 1 / 10 ^ 12

/-- What is needed of `np.exp`: it never returns a negative number, and `np.exp(0)` is 1.  (Small results may well be
rounded down to zero.) -/
structure ExpLike (exp : Bin p → Bin p) : Prop where
  nonneg : ∀ x, 0 ≤ (exp x).1
  zero : ∀ x : Bin p, x.1 = 0 → (exp x).1 = 1

/-! ## Lemmas -/

theorem bin_foldl_ge (hp : 1 ≤ p) (l : List (Bin p)) : ∀ a : Bin p, 0 ≤ a.1 → (∀ x ∈ l, 0 ≤ x.1) →
    a.1 ≤ (l.foldl (binArith p).add a).1 ∧ ∀ x ∈ l, x.1 ≤ (l.foldl (binArith p).add a).1 := by
  induction l with
  | nil => intro a _ _; exact ⟨le_rfl, fun x hx => absurd hx List.not_mem_nil⟩
  | cons x l ih =>
    intro a ha hl
    have hx := hl x List.mem_cons_self
    have e1 : a.1 ≤ ((binArith p).add a x).1 := by
      show a.1 ≤ rnd p (a.1 + x.1)
      conv_lhs => rw [← rnd_self hp a]
      exact rnd_mono hp (by linarith)
    have e2 : x.1 ≤ ((binArith p).add a x).1 := by
      show x.1 ≤ rnd p (a.1 + x.1)
      conv_lhs => rw [← rnd_self hp x]
      exact rnd_mono hp (by linarith)
    obtain ⟨h1, h2⟩ := ih _ (ha.trans e1) fun y hy => hl y (List.mem_cons_of_mem _ hy)
    refine ⟨e1.trans h1, fun y hy => ?_⟩
    rcases List.mem_cons.1 hy with rfl | hy
    · exact e2.trans h1
    · exact h2 y hy

theorem rnd_rel {x : ℝ} (hx : 0 ≤ x) : (1 - 1 / 2 ^ p) * x ≤ rnd p x ∧ rnd p x ≤ (1 + 1 / 2 ^ p) * x := by
  have := rnd_err p x
  rw [abs_of_nonneg hx, abs_le] at this
  constructor <;> nlinarith [this.1, this.2]

theorem unit_le_half (hp : 1 ≤ p) : 0 < (1 : ℝ) / 2 ^ p ∧ (1 : ℝ) / 2 ^ p ≤ 1 / 2 := by
  refine ⟨by positivity, one_div_le_one_div_of_le (by norm_num) ?_⟩
  calc (2 : ℝ) = 2 ^ 1 := by norm_num
    _ ≤ 2 ^ p := pow_le_pow_right₀ (by norm_num) hp

/-- Adding up non-negative numbers with rounding: the result is the exact sum up to one rounding per number. -/
theorem bin_foldl_rel (hp : 1 ≤ p) (l : List (Bin p)) : ∀ a : Bin p, 0 ≤ a.1 → (∀ x ∈ l, 0 ≤ x.1) →
    (1 - 1 / 2 ^ p) ^ l.length * (a.1 + (l.map Subtype.val).sum) ≤ (l.foldl (binArith p).add a).1 ∧
    (l.foldl (binArith p).add a).1 ≤ (1 + 1 / 2 ^ p) ^ l.length * (a.1 + (l.map Subtype.val).sum) := by
  obtain ⟨u0, u1⟩ := unit_le_half hp
  induction l with
  | nil => intro a _ _; simp
  | cons x l ih =>
    intro a ha hl
    have hx := hl x List.mem_cons_self
    obtain ⟨r1, r2⟩ := rnd_rel (p := p) (add_nonneg ha hx)
    have hs : 0 ≤ (l.map Subtype.val).sum := List.sum_nonneg fun y hy => by
      obtain ⟨z, hz, rfl⟩ := List.mem_map.1 hy
      exact hl z (List.mem_cons_of_mem _ hz)
    have hb : 0 ≤ ((binArith p).add a x).1 := rnd_nonneg hp (add_nonneg ha hx)
    obtain ⟨h1, h2⟩ := ih ((binArith p).add a x) hb fun y hy => hl y (List.mem_cons_of_mem _ hy)
    have hb' : ((binArith p).add a x).1 = rnd p (a.1 + x.1) := rfl
    rw [List.foldl_cons, List.map_cons, List.sum_cons, List.length_cons]
    set s := (l.map Subtype.val).sum
    set b := ((binArith p).add a x).1
    rw [← hb'] at r1 r2
    generalize (1 : ℝ) / 2 ^ p = w at *
    constructor
    · refine le_trans ?_ h1
      rw [pow_succ, mul_assoc]
      refine mul_le_mul_of_nonneg_left ?_ (pow_nonneg (by linarith) _)
      nlinarith
    · refine le_trans h2 ?_
      rw [pow_succ, mul_assoc]
      refine mul_le_mul_of_nonneg_left ?_ (pow_nonneg (by linarith) _)
      nlinarith

theorem foldl_max_mem {F : Type} [LinearOrder F] (l : List F) : ∀ a : F,
    (l.foldl max a = a ∨ l.foldl max a ∈ l) ∧ a ≤ l.foldl max a ∧ ∀ x ∈ l, x ≤ l.foldl max a := by
  induction l with
  | nil => intro a; exact ⟨Or.inl rfl, le_rfl, fun x hx => absurd hx List.not_mem_nil⟩
  | cons y l ih =>
    intro a
    obtain ⟨h1, h2, h3⟩ := ih (max a y)
    rw [List.foldl_cons]
    refine ⟨?_, (le_max_left _ _).trans h2, fun x hx => ?_⟩
    · rcases h1 with h1 | h1
      · rcases max_choice a y with h | h
        · exact Or.inl (by rw [h1, h])
        · exact Or.inr (by rw [h1, h]; exact List.mem_cons_self)
      · exact Or.inr (List.mem_cons_of_mem _ h1)
    · rcases List.mem_cons.1 hx with rfl | hx
      · exact (le_max_right _ _).trans h2
      · exact h3 x hx

section
variable {exp : Bin p → Bin p} {eta : Bin p} {gains : List (Bin p)}

/-- The exponentials of the differences to the largest gain, and their rounded sum. -/
theorem hedge_parts (hp : 1 ≤ p) (hexp : ExpLike exp) (eta : Bin p) (hne : gains ≠ []) :
    ∃ (m : Bin p) (es : List (Bin p)) (T : Bin p), m ∈ gains ∧ (∀ g ∈ gains, g ≤ m) ∧
      es = (gains.map fun g => exp ((binArith p).mul eta ((binArith p).sub g m))) ∧
      T = es.foldl (binArith p).add ((binArith p).ofInt 0) ∧
      hedgeProbs (binArith p) exp eta gains = es.map (fun e => (binArith p).div e T) ∧
      (∀ e ∈ es, 0 ≤ e.1 ∧ e.1 ≤ T.1) ∧ (exp ((binArith p).mul eta ((binArith p).sub m m))).1 = 1 ∧ 1 ≤ T.1 := by
  obtain ⟨g, gs, rfl⟩ := List.exists_cons_of_ne_nil hne
  obtain ⟨h1, -, h3⟩ := foldl_max_mem (g :: gs) ((g :: gs).headD ((binArith p).ofInt 0))
  have hm : (g :: gs).foldl max ((g :: gs).headD ((binArith p).ofInt 0)) ∈ g :: gs := by
    rcases h1 with h1 | h1
    · rw [h1]; exact List.mem_cons_self
    · exact h1
  have hone : (exp ((binArith p).mul eta ((binArith p).sub
      ((g :: gs).foldl max ((g :: gs).headD ((binArith p).ofInt 0)))
      ((g :: gs).foldl max ((g :: gs).headD ((binArith p).ofInt 0)))))).1 = 1 := by
    apply hexp.zero
    show rnd p (eta.1 * rnd p (_ - _)) = 0
    rw [sub_self, rnd_zero, mul_zero, rnd_zero]
  refine ⟨_, _, _, hm, h3, rfl, rfl, rfl, ?_, hone, ?_⟩
  · intro e he
    have hnn : ∀ e ∈ ((g :: gs).map fun x => exp ((binArith p).mul eta ((binArith p).sub x
        ((g :: gs).foldl max ((g :: gs).headD ((binArith p).ofInt 0)))))), 0 ≤ e.1 := by
      intro e he
      obtain ⟨x, _, rfl⟩ := List.mem_map.1 he
      exact hexp.nonneg _
    exact ⟨hnn e he, (bin_foldl_ge hp _ _ (bin_zero p).ge hnn).2 e he⟩
  · have hnn : ∀ e ∈ ((g :: gs).map fun x => exp ((binArith p).mul eta ((binArith p).sub x
        ((g :: gs).foldl max ((g :: gs).headD ((binArith p).ofInt 0)))))), 0 ≤ e.1 := by
      intro e he
      obtain ⟨x, _, rfl⟩ := List.mem_map.1 he
      exact hexp.nonneg _
    have := (bin_foldl_ge hp _ _ (bin_zero p).ge hnn).2 _ (List.mem_map_of_mem hm)
    rw [hone] at this
    exact this

theorem sum_map_le_sum {α : Type} (f g : α → ℝ) (l : List α) (h : ∀ x ∈ l, f x ≤ g x) : (l.map f).sum ≤ (l.map g).sum :=
  List.sum_le_sum h

/-! ## C147 -/

/-- **C147.** In floating-point arithmetic of any precision, whatever the gains: every probability `gp_hedge` computes lies
in `[0, 1]`, and together they sum to one up to one rounding error per gain and one for the division. -/
theorem C147_probabilities (hp : 1 ≤ p) (hexp : ExpLike exp) (eta : Bin p) (hne : gains ≠ []) :
    (hedgeProbs (binArith p) exp eta gains).length = gains.length ∧
    (∀ q ∈ hedgeProbs (binArith p) exp eta gains, 0 ≤ q.1 ∧ q.1 ≤ 1) ∧
    (1 - 1 / 2 ^ p) / (1 + 1 / 2 ^ p) ^ gains.length ≤ ((hedgeProbs (binArith p) exp eta gains).map Subtype.val).sum ∧
    ((hedgeProbs (binArith p) exp eta gains).map Subtype.val).sum ≤ (1 + 1 / 2 ^ p) / (1 - 1 / 2 ^ p) ^ gains.length := by
  obtain ⟨m, es, T, hm, -, hes, hT, hq, hb, hone, hT1⟩ := hedge_parts hp hexp eta hne
  have hlen : es.length = gains.length := by rw [hes, List.length_map]
  have hT0 : 0 < T.1 := lt_of_lt_of_le one_pos hT1
  obtain ⟨u0, u1⟩ := unit_le_half hp
  rw [hq]
  refine ⟨by rw [List.length_map, hlen], ?_, ?_⟩
  · intro q hq
    obtain ⟨e, he, rfl⟩ := List.mem_map.1 hq
    obtain ⟨e0, e1⟩ := hb e he
    refine ⟨rnd_nonneg hp (div_nonneg e0 hT0.le), ?_⟩
    have h1 : e.1 / T.1 ≤ 1 := (div_le_one hT0).2 e1
    exact rnd_just_above_one hp (h1.trans (by linarith [show (0 : ℝ) < 1 / 2 ^ (p + 1) by positivity]))
  · have hE : (1 - 1 / 2 ^ p) ^ es.length * (es.map Subtype.val).sum ≤ T.1 ∧
        T.1 ≤ (1 + 1 / 2 ^ p) ^ es.length * (es.map Subtype.val).sum := by
      have := bin_foldl_rel hp es ((binArith p).ofInt 0) (bin_zero p).ge fun e he => (hb e he).1
      rwa [bin_zero, zero_add, ← hT] at this
    have hlo : (1 - 1 / 2 ^ p) * ((es.map Subtype.val).sum / T.1) ≤
        ((es.map fun e => (binArith p).div e T).map Subtype.val).sum := by
      rw [List.map_map, ← mul_div_assoc, ← List.sum_map_mul_left, div_eq_mul_inv, ← List.sum_map_mul_right]
      refine sum_map_le_sum _ _ es fun e he => ?_
      have := (rnd_rel (p := p) (div_nonneg (hb e he).1 hT0.le)).1
      rw [mul_assoc, ← div_eq_mul_inv]
      exact this
    have hhi : ((es.map fun e => (binArith p).div e T).map Subtype.val).sum ≤
        (1 + 1 / 2 ^ p) * ((es.map Subtype.val).sum / T.1) := by
      rw [List.map_map, ← mul_div_assoc, ← List.sum_map_mul_left, div_eq_mul_inv, ← List.sum_map_mul_right]
      refine sum_map_le_sum _ _ es fun e he => ?_
      have := (rnd_rel (p := p) (div_nonneg (hb e he).1 hT0.le)).2
      rw [mul_assoc, ← div_eq_mul_inv]
      exact this
    rw [← hlen]
    generalize (es.map Subtype.val).sum = E at *
    generalize (1 : ℝ) / 2 ^ p = w at *
    have a1 : 0 < (1 - w) ^ es.length := pow_pos (by linarith) _
    have a2 : 0 < (1 + w) ^ es.length := pow_pos (by linarith) _
    constructor
    · refine le_trans ?_ hlo
      rw [div_eq_mul_one_div]
      refine mul_le_mul_of_nonneg_left ?_ (by linarith)
      rw [div_le_div_iff₀ a2 hT0]
      linarith [hE.2]
    · refine hhi.trans ?_
      rw [div_eq_mul_one_div (1 + w)]
      refine mul_le_mul_of_nonneg_left ?_ (by linarith)
      rw [div_le_div_iff₀ hT0 a1]
      linarith [hE.1]

/-- **C147, order.** With a monotone `np.exp` and a non-negative `eta`, rounding never reverses a preference: the larger gain
never gets the smaller probability, and the largest gets at least its share of `1 / n`, up to rounding. -/
theorem C147_order (hp : 1 ≤ p) (hexp : ExpLike exp) (hmono : Monotone exp) (eta : Bin p) (heta : 0 ≤ eta.1)
    (hne : gains ≠ []) :
    (∀ (i j : Nat) (a b q r : Bin p), gains[i]? = some a → gains[j]? = some b → a ≤ b →
      (hedgeProbs (binArith p) exp eta gains)[i]? = some q → (hedgeProbs (binArith p) exp eta gains)[j]? = some r →
      q ≤ r) ∧
    ∀ (i : Nat) (a q : Bin p), gains[i]? = some a → (∀ g ∈ gains, g ≤ a) →
      (hedgeProbs (binArith p) exp eta gains)[i]? = some q →
      (1 - 1 / 2 ^ p) / ((1 + 1 / 2 ^ p) ^ gains.length * gains.length) ≤ q.1 := by
  obtain ⟨m, es, T, hm, hmax, hes, hT, hq, hb, hone, hT1⟩ := hedge_parts hp hexp eta hne
  have hT0 : 0 < T.1 := lt_of_lt_of_le one_pos hT1
  obtain ⟨u0, u1⟩ := unit_le_half hp
  have hstep : ∀ a b : Bin p, a ≤ b → exp ((binArith p).mul eta ((binArith p).sub a m)) ≤
      exp ((binArith p).mul eta ((binArith p).sub b m)) := by
    intro a b hab
    apply hmono
    show rnd p (eta.1 * rnd p (a.1 - m.1)) ≤ rnd p (eta.1 * rnd p (b.1 - m.1))
    have hab' : a.1 ≤ b.1 := hab
    exact rnd_mono hp (mul_le_mul_of_nonneg_left (rnd_mono hp (by linarith)) heta)
  have hget : ∀ (i : Nat) (a q : Bin p), gains[i]? = some a → (hedgeProbs (binArith p) exp eta gains)[i]? = some q →
      q = (binArith p).div (exp ((binArith p).mul eta ((binArith p).sub a m))) T := by
    intro i a q ha hqi
    rw [hq, hes, List.getElem?_map, List.getElem?_map, ha] at hqi
    simpa using hqi.symm
  refine ⟨fun i j a b q r ha hb' hab hqi hrj => ?_, fun i a q ha hmaxa hqi => ?_⟩
  · rw [hget i a q ha hqi, hget j b r hb' hrj]
    show rnd p (_ / T.1) ≤ rnd p (_ / T.1)
    exact rnd_mono hp (div_le_div_of_nonneg_right (hstep a b hab) hT0.le)
  · have hma : a = m := le_antisymm (hmax a (List.mem_of_getElem? ha)) (hmaxa m hm)
    rw [hget i a q ha hqi, hma]
    have h1 := (rnd_rel (p := p) (show 0 ≤ (1 : ℝ) / T.1 by positivity)).1
    have h2 : ((binArith p).div (exp ((binArith p).mul eta ((binArith p).sub m m))) T).1 = rnd p (1 / T.1) := by
      rw [← hone]; rfl
    rw [h2]
    refine le_trans ?_ h1
    have hE : T.1 ≤ (1 + 1 / 2 ^ p) ^ es.length * (es.map Subtype.val).sum := by
      have := bin_foldl_rel hp es ((binArith p).ofInt 0) (bin_zero p).ge fun e he => (hb e he).1
      rw [bin_zero, zero_add, ← hT] at this
      exact this.2
    have hsum : (es.map Subtype.val).sum ≤ (gains.length : ℝ) := by
      have : (es.map Subtype.val).sum ≤ (es.map fun _ => (1 : ℝ)).sum := by
        refine sum_map_le_sum _ _ es fun e he => ?_
        rw [hes] at he
        obtain ⟨g, hg, rfl⟩ := List.mem_map.1 he
        rw [← hone]
        exact hstep g m (hmax g hg)
      refine this.trans (le_of_eq ?_)
      rw [hes]; simp
    have hlen : es.length = gains.length := by rw [hes, List.length_map]
    rw [hlen] at hE
    have a2 : (0 : ℝ) < (1 + 1 / 2 ^ p) ^ gains.length := pow_pos (by linarith) _
    have hn : (0 : ℝ) < gains.length := by exact_mod_cast List.length_pos_iff.2 hne
    rw [div_eq_mul_one_div]
    refine mul_le_mul_of_nonneg_left ?_ (by linarith)
    exact one_div_le_one_div_of_le hT0 (hE.trans (mul_le_mul_of_nonneg_left hsum a2.le))

/-- **C147, accepted.** In double precision or better, `RandomState.multinomial` takes the three probabilities: whatever the
gains, rounding never makes the draw raise.  Their sum is one up to `1e-15`. -/
theorem C147_accepted (hp : 53 ≤ p) (hexp : ExpLike exp) (eta : Bin p) (h3 : gains.length = 3) :
    AcceptedProbs (hedgeProbs (binArith p) exp eta gains) ∧
    |((hedgeProbs (binArith p) exp eta gains).map Subtype.val).sum - 1| ≤ 1 / 10 ^ 15 := by
  have hp1 : 1 ≤ p := by omega
  have hne : gains ≠ [] := by rintro rfl; simp at h3
  obtain ⟨hl, hu, h1, h2⟩ := C147_probabilities hp1 hexp eta hne
  rw [h3] at hl h1 h2
  obtain ⟨a, b, c, habc⟩ := List.length_eq_three.1 hl
  rw [habc] at hu h1 h2 ⊢
  obtain ⟨u0, -⟩ := unit_le_half hp1
  have u1 : (1 : ℝ) / 2 ^ p ≤ 1 / 2 ^ 53 :=
    one_div_le_one_div_of_le (by norm_num) (pow_le_pow_right₀ (by norm_num) hp)
  have ha := hu a (by simp)
  have hb := hu b (by simp)
  have hc := hu c (by simp)
  have hr := (bin_foldl_rel hp1 [a, b] ((binArith p).ofInt 0) (bin_zero p).ge (by
    intro x hx
    simp only [List.mem_cons, List.not_mem_nil, or_false] at hx
    rcases hx with rfl | rfl
    · exact ha.1
    · exact hb.1)).2
  rw [bin_zero] at hr
  simp only [List.map_cons, List.map_nil, List.sum_cons, List.sum_nil, List.length_cons, List.length_nil] at h1 h2 hr ⊢
  generalize (1 : ℝ) / 2 ^ p = w at *
  have e1 : (1 + w) / (1 - w) ^ 3 ≤ 1 + 1 / 10 ^ 15 := by
    rw [div_le_iff₀ (pow_pos (by linarith) 3)]
    have : (1 - 1 / 2 ^ 53 : ℝ) ^ 3 ≤ (1 - w) ^ 3 := pow_le_pow_left₀ (by norm_num) (by linarith) 3
    nlinarith
  have e2 : 1 - 1 / 10 ^ 15 ≤ (1 - w) / (1 + w) ^ 3 := by
    rw [le_div_iff₀ (pow_pos (by linarith) 3)]
    have : (1 + w) ^ 3 ≤ (1 + 1 / 2 ^ 53 : ℝ) ^ 3 := pow_le_pow_left₀ (by linarith) (by linarith) 3
    nlinarith
  refine ⟨⟨hu, ?_, ?_⟩, ?_⟩
  · simp only [List.dropLast, List.map_cons, List.map_nil, List.sum_cons, List.sum_nil]
    linarith [hc.1]
  · simp only [List.dropLast]
    refine hr.trans ?_
    have e3 : (1 + w) ^ (0 + 1 + 1) ≤ (1 + 1 / 2 ^ 53 : ℝ) ^ 2 := pow_le_pow_left₀ (by linarith) (by linarith) 2
    have e4 : 0 + (a.1 + (b.1 + 0)) ≤ 1 + 1 / 10 ^ 15 := by linarith [hc.1]
    calc _ ≤ (1 + 1 / 2 ^ 53 : ℝ) ^ 2 * (1 + 1 / 10 ^ 15) :=
          mul_le_mul e3 e4 (by linarith [ha.1, hb.1]) (by positivity)
      _ ≤ _ := by norm_num
  · rw [abs_le]
    constructor <;> linarith

end

theorem updateGains_length {A : Arith (Bin p)} {W : World (Bin p) M R G} {u : Opt (Bin p) M R} {est : M}
    {g g' : List (Bin p)} (hg : u.gains = some g) (h : updateGains A W u est = .ok (some g')) : g'.length = g.length := by
  unfold updateGains at h
  split at h
  · rw [hg] at h
    dsimp only at h
    split at h
    · cases h
    · obtain ⟨q, hq, h⟩ := bind_eq_ok.1 h
      split at h
      · obtain rfl := Option.some.inj (Except.ok.inj h)
        simp
      · split at h
        · cases h
        · next hl =>
          obtain rfl := Option.some.inj (Except.ok.inj h)
          rw [List.length_zipWith, not_not.1 hl, min_self]
  · rw [hg] at h
    rw [Option.some.inj (Except.ok.inj h)]

/-- **C147, draws.** A new `gp_hedge` optimizer in double precision or better, used by any sequence of calls of its methods of
which every `tell` returns: whenever a fit has just chosen the next suggestion, the one draw that chose it was from
probabilities `RandomState.multinomial` takes, and the suggestion is the proposal on which it fell. -/
theorem C147_draws (hp : 53 ≤ p) (W : World (Bin p) M R G) (hexp : ExpLike W.exp) (hpred : PredictsEach W)
    (sh : Shared (Bin p) G) (cfg : Config) (hacq : cfg.acq = .gpHedge) (hest : cfg.hasEst = true) (rng : R)
    (pts : Option (List (Point (Bin p)))) (ops : List (Op (Bin p)))
    (hok : ∀ q ∈ ops.zip (runOps (binArith p) W sh (Opt.fresh (binArith p) cfg rng pts : Opt (Bin p) M R) ops).2.2,
      (∃ x y fit, q.1 = .tell x y fit) → Returns q.2)
    (x : XArg (Bin p)) (y : YArg (Bin p)) (r : Result (Bin p) M)
    (s : Opt (Bin p) M R) (hs : s = (runOps (binArith p) W sh (Opt.fresh (binArith p) cfg rng pts) ops).2.1)
    (dims : List (Dim (Bin p)))
    (h : (tell (binArith p) W dims s x y true).2 = .ok r) (hn : (tell (binArith p) W dims s x y true).1.nInit ≤ 0) :
    ∃ ps rows rng' i row q qs, AcceptedProbs ps ∧ ps.length = 3 ∧
      (tell (binArith p) W dims s x y true).1.nextXs = some rows ∧ rows.length = 3 ∧
      npArgmax (W.multinomial rng' ps).2 = .ok i ∧ rows[i]? = some row ∧
      Space.inverseTransform (binArith p) dims [row] = .ok (q :: qs) ∧
      (tell (binArith p) W dims s x y true).1.nextX = some q := by
  obtain ⟨log, hlog⟩ := C87_gains (binArith p) W hpred sh cfg hacq rng pts ops hok
  rw [← hs] at hlog
  have hcfg : s.cfg = cfg := by
    rw [hs]
    exact (runOps_frame (binArith p) W sh _ ops).1
  obtain ⟨g, rows, rng', i, row, q, qs, d1, d2, d3, d4, d5, d6, d7⟩ :=
    C117_draw (binArith p) W dims s (hcfg ▸ hacq) (hcfg ▸ hest) x y r h hn
  obtain ⟨_, g0, _, hg0, hg3, _⟩ := hlog.gains
  have hlen : g.length = 3 := by
    obtain ⟨-, ⟨-, c3, -⟩ | ⟨u, -, -, u3, m, _, -, p2, -⟩⟩ := tell_gains h
    · rw [d1, hg0] at c3
      rw [Option.some.inj c3, hg3]
    · rw [d1] at p2
      rw [updateGains_length (u3.trans hg0) p2, hg3]
  exact ⟨_, rows, rng', i, row, q, qs, (C147_accepted hp hexp W.eta hlen).1, by simp [hedgeProbs, hlen], d2, d3, d4, d5,
    d6, d7⟩

/-- **C147, whole runs.** The contract of `RandomState.multinomial` for probabilities it takes is all that C145 needs of it:
it may do anything on others. -/
theorem C147_multinomial (hp : 53 ≤ p) (W : World (Bin p) M R G) (hexp : ExpLike W.exp)
    (hmult : ∀ r (ps : List (Bin p)), AcceptedProbs ps → (W.multinomial r ps).2.length = ps.length) (r : R)
    (g : List (Bin p)) (hg : g.length = 3) :
    (W.multinomial r (hedgeProbs (binArith p) W.exp W.eta g)).2.length = 3 := by
  rw [hmult _ _ (C147_accepted hp hexp W.eta hg).1]
  simp [hedgeProbs, hg]

/-! ## Examples -/

/-- The exponential function rounded to the nearest floating-point number. -/
noncomputable def binExp (p : ℕ) (x : Bin p) : Bin p := .near p (Real.exp x.1)

theorem binExp_like (hp : 1 ≤ p) : ExpLike (binExp p) where
  nonneg x := rnd_nonneg hp (Real.exp_pos _).le
  zero x hx := by
    show rnd p (Real.exp x.1) = 1
    rw [hx, Real.exp_zero]
    have := bin_one hp
    rwa [show (((binArith p).ofInt 1).1 : ℝ) = rnd p ((1 : ℤ) : ℝ) from rfl, Int.cast_one] at this

theorem binExp_mono (hp : 1 ≤ p) : Monotone (binExp p) := fun _ _ h => rnd_mono hp (Real.exp_le_exp.2 h)

/-- Gains far apart: the exponentials of the differences are not representable exactly, in any precision.
Meets the hypotheses of `C147_probabilities` and `C147_order`. -/
example (hp : 1 ≤ p) : ∀ q ∈ hedgeProbs (binArith p) (binExp p) ((binArith p).ofInt 1)
      [(binArith p).ofInt (-7), (binArith p).ofInt 3, (binArith p).ofInt 1000], 0 ≤ q.1 ∧ q.1 ≤ 1 :=
  (C147_probabilities hp (binExp_like hp) _ (by simp)).2.1

/-- Larger gains get no smaller probabilities. -/
example (q r t : Bin 53) (h : hedgeProbs (binArith 53) (binExp 53) ((binArith 53).ofInt 1)
      [(binArith 53).ofInt 1, (binArith 53).ofInt 3, (binArith 53).ofInt 2] = [q, r, t]) : q ≤ t ∧ t ≤ r := by
  have he : 0 ≤ ((binArith 53).ofInt 1).1 := by rw [bin_one (by norm_num)]; norm_num
  have hm : ∀ a b : ℤ, a ≤ b → (binArith 53).ofInt a ≤ (binArith 53).ofInt b := fun a b hab =>
    (binArith_orderly (p := 53) (by norm_num)).ofInt_mono hab
  have := (C147_order (p := 53) (by norm_num) (binExp_like (by norm_num)) (binExp_mono (by norm_num)) ((binArith 53).ofInt 1) he
    (gains := [(binArith 53).ofInt 1, (binArith 53).ofInt 3, (binArith 53).ofInt 2]) (by simp)).1
  rw [h] at this
  exact ⟨this 0 2 _ _ _ _ rfl rfl (hm 1 2 (by norm_num)) rfl rfl, this 2 1 _ _ _ _ rfl rfl (hm 2 3 (by norm_num)) rfl rfl⟩

/-- Meets the hypotheses of `C147_accepted`. -/
example : AcceptedProbs (hedgeProbs (binArith 53) (binExp 53) ((binArith 53).ofInt 1)
    [(binArith 53).ofInt (-7), (binArith 53).ofInt 3, (binArith 53).ofInt 1000]) :=
  (C147_accepted le_rfl (binExp_like (by norm_num)) _ rfl).1

open Classical in
/-- `zeroWorld` with the exponential function and a `multinomial` that draws from probabilities it takes only. -/
noncomputable def pickyWorld : World (Bin 53) Unit Unit Unit :=
  { zeroWorld (binArith 53) with
    exp := binExp 53
    multinomial := fun _ ps => ((), if AcceptedProbs ps then (List.range ps.length).map fun i => if i = 1 then 1 else 0
      else []) }

open Classical in
theorem pickyWorld_reliable {dims : List (Dim (Bin 53))} (hv : ∀ d ∈ dims, ValidDim (binArith 53) d) :
    Rounded.Reliable (binArith 53) pickyWorld dims := by
  have hr := zeroWorld_reliable (binArith_orderly (show 10 ≤ 53 by norm_num)) hv
  refine ⟨hr.fit, hr.predict, hr.draws, hr.acquisition, hr.argsort, hr.lbfgs, ?_, hr.log⟩
  refine C147_multinomial le_rfl pickyWorld (binExp_like (by norm_num)) fun r ps hps => ?_
  show (if AcceptedProbs ps then (List.range ps.length).map (fun i => if i = 1 then 1 else 0) else []).length = _
  rw [if_pos hps]
  simp

/-- Meets the hypotheses of `C147_multinomial`: `gp_minimize` with `gp_hedge` in double precision, with a `multinomial` that
draws from proper probabilities only, completes. -/
example : Rounded.Completes (binArith 53) dblDims .none 8 (gpMinimize (binArith 53) pickyWorld ⟨dblDims, none⟩
    firstObjective none dblCall ()) :=
  C145_double_gp_minimize pickyWorld ⟨dblDims, none⟩ firstObjective dblCall (.point dblPoint) ()
    dblDims_float.nonempty dblDims_valid dblDims_ordinary dblCall_sane
    (Or.inr (Or.inr ⟨rfl, .real dblReal, by simp [dblDims], rfl⟩))
    (pickyWorld_reliable (by
      intro d hd
      obtain ⟨e, he, rfl⟩ := List.mem_map.1 hd
      exact (dblDims_valid e he).normalized))
    (Or.inl rfl) firstObjective_total dblCall_wellPosed

/-- Meets the hypotheses of `C147_draws`: the first `tell` ends the initial phase, the draw is from proper probabilities. -/
example : ∃ ps rng' i, AcceptedProbs (p := 53) ps ∧ npArgmax (pickyWorld.multinomial rng' ps).2 = .ok i := by
  obtain ⟨sh', s, h, hall⟩ := C145_every_call (binArith_floatLike (p := 53) (by norm_num))
    (binArith_orderly (by norm_num)) pickyWorld ⟨dblDims, none⟩
    liveCfg ⟨(by decide), fun _ => (by decide), fun k hk => (by cases hk; decide)⟩ (by decide)
    dblDims_float (pickyWorld_reliable dblDims_valid) (Or.inl rfl) ()
  have h' : (⟨dblDims, none⟩ : Shared (Bin 53) Unit) = sh' ∧ (Opt.fresh (binArith 53) liveCfg () none : Opt (Bin 53) Unit Unit) = s := by
    simpa [Opt.init, liveCfg] using h
  obtain ⟨rfl, rfl⟩ := h'
  have hret := hall [.one dblPoint (.num (.fin ((binArith 53).ofInt 7))) true] ⟨⟨dblPoint_mem, ⟨_, rfl⟩, rfl⟩, trivial⟩
    (step (binArith 53) pickyWorld ⟨dblDims, none⟩ (Opt.fresh (binArith 53) liveCfg () none)
      (.tell (.lst dblPoint) (.num (.fin ((binArith 53).ofInt 7))) true)).2.2 (by simp [runOps, Call.toOp])
  obtain ⟨out, ho⟩ := hret
  simp only [step, bind_eq_ok] at ho
  obtain ⟨r, hr, -⟩ := ho
  have hn : (tell (binArith 53) pickyWorld dblDims (Opt.fresh (binArith 53) liveCfg () none) (.lst dblPoint)
      (.num (.fin ((binArith 53).ofInt 7))) true).1.nInit ≤ 0 := by
    rcases tell_cases (binArith 53) pickyWorld dblDims (Opt.fresh (binArith 53) liveCfg () none) (.lst dblPoint)
      (.num (.fin ((binArith 53).ofInt 7))) true with ⟨e, he⟩ | ⟨y', _, _, hy', he⟩
    · rw [he] at hr; cases hr
    · rw [he]
      obtain rfl := Except.ok.inj hy'
      rw [(tellCore_frame (binArith 53) pickyWorld dblDims _ _ _ true rfl).nInit]
      exact le_rfl
  obtain ⟨ps, _, rng', i, _, _, _, a1, _, _, _, a4, _⟩ := C147_draws le_rfl pickyWorld (binExp_like (by norm_num))
    (fun m rows q hq => by cases hq; simp) ⟨dblDims, none⟩ liveCfg rfl rfl () none [] (by intro q hq; cases hq)
    (.lst dblPoint) (.num (.fin ((binArith 53).ofInt 7))) r _ rfl dblDims hr hn
  exact ⟨ps, rng', i, a1, a4⟩

end Skopt

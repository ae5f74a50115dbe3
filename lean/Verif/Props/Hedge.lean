import Verif.Model.Optimizer
import Verif.Model.Exact
import Verif.Lemmas.Basic
import Mathlib.Analysis.SpecialFunctions.Exp

/-!
# C60: the probabilities with which `gp_hedge` picks a proposal
-/

namespace Skopt

variable {M R G : Type}

/-- The exponential weights of the Hedge algorithm: the probability of option `i` is proportional to the exponential
of `eta` times its gain. -/
noncomputable def hedgeWeight (eta : ℝ) (gains : List ℝ) (g : ℝ) : ℝ :=
  Real.exp (eta * g) / (gains.map fun h => Real.exp (eta * h)).sum

theorem foldl_add_eq_sum (xs : List ℝ) : ∀ a : ℝ, xs.foldl exact.add a = a + xs.sum := by
  induction xs with
  | nil => intro a; simp
  | cons x xs ih =>
    intro a
    rw [List.foldl_cons, ih, List.sum_cons]
    show a + x + xs.sum = _
    ring

/-- The probabilities computed after subtracting the largest gain are the Hedge weights. -/
theorem hedgeProbs_eq (eta : ℝ) (gains : List ℝ) :
    hedgeProbs exact Real.exp eta gains = gains.map (hedgeWeight eta gains) := by
  set m := gains.foldl max (gains.headD (exact.ofInt 0)) with hm
  have hes : ∀ g, Real.exp (exact.mul eta (exact.sub g m)) = Real.exp (eta * g) * Real.exp (-(eta * m)) := by
    intro g
    rw [← Real.exp_add]
    congr 1
    show eta * (g - m) = _
    ring
  have hsum : ∀ l : List ℝ, (l.map fun g => Real.exp (exact.mul eta (exact.sub g m))).sum
      = (l.map fun g => Real.exp (eta * g)).sum * Real.exp (-(eta * m)) := by
    intro l
    induction l with
    | nil => simp
    | cons g l ih => rw [List.map_cons, List.sum_cons, ih, hes]; simp [add_mul]
  simp only [hedgeProbs, ← hm, List.map_map]
  apply List.map_congr_left
  intro g _
  show Real.exp (exact.mul eta (exact.sub g m)) / _ = _
  rw [foldl_add_eq_sum, hsum, hes, hedgeWeight]
  have h0 : exact.ofInt 0 = (0 : ℝ) := by show ((0 : ℤ) : ℝ) = 0; simp
  rw [h0, zero_add, mul_div_mul_right _ _ (Real.exp_ne_zero _)]

theorem sum_exp_pos (eta : ℝ) {gains : List ℝ} (h : gains ≠ []) :
    0 < (gains.map fun g => Real.exp (eta * g)).sum := by
  apply List.sum_pos
  · intro x hx
    obtain ⟨g, _, rfl⟩ := List.mem_map.1 hx
    exact Real.exp_pos _
  · simpa using h

/-- **C60.** For every vector of gains, not empty, and every `eta`, the vector handed to `rng.multinomial` is the
vector of Hedge weights; these are positive and sum to one. -/
theorem C60_hedge_distribution (eta : ℝ) (gains : List ℝ) (h : gains ≠ []) :
    hedgeProbs exact Real.exp eta gains = gains.map (hedgeWeight eta gains) ∧
    (∀ p ∈ hedgeProbs exact Real.exp eta gains, 0 < p ∧ p ≤ 1) ∧
    (hedgeProbs exact Real.exp eta gains).sum = 1 := by
  have hp := sum_exp_pos eta h
  have hs : (hedgeProbs exact Real.exp eta gains).sum = 1 := by
    have : ∀ (c : ℝ) (l : List ℝ), (l.map fun g => Real.exp (eta * g) / c).sum
        = (l.map fun g => Real.exp (eta * g)).sum / c := by
      intro c l
      induction l with
      | nil => simp
      | cons g l ih => simp [ih, add_div]
    rw [hedgeProbs_eq]
    unfold hedgeWeight
    rw [this, div_self hp.ne']
  have hpos : ∀ p ∈ hedgeProbs exact Real.exp eta gains, 0 < p := by
    intro p hpm
    rw [hedgeProbs_eq] at hpm
    obtain ⟨g, _, rfl⟩ := List.mem_map.1 hpm
    exact div_pos (Real.exp_pos _) hp
  refine ⟨hedgeProbs_eq eta gains, fun p hpm => ⟨hpos p hpm, ?_⟩, hs⟩
  rw [← hs]
  exact List.single_le_sum (fun x hx => (hpos x hx).le) p hpm

example : ([0, 1, -3] : List ℝ) ≠ [] := by simp

/-- **C60, preference.** Options with larger gains are picked with larger probability when `eta` is positive, and the
odds of two options depend only on the difference of their gains. -/
theorem C60_hedge_preference (eta : ℝ) (gains : List ℝ) (i j : Nat) (gi gj : ℝ) (hi : gains[i]? = some gi)
    (hj : gains[j]? = some gj) :
    ∃ pi pj, (hedgeProbs exact Real.exp eta gains)[i]? = some pi ∧
      (hedgeProbs exact Real.exp eta gains)[j]? = some pj ∧ pi / pj = Real.exp (eta * (gi - gj)) ∧
      (0 < eta → (pi < pj ↔ gi < gj)) ∧ (eta = 0 → pi = 1 / gains.length) := by
  have hne : gains ≠ [] := by rintro rfl; simp at hi
  have hp := sum_exp_pos eta hne
  rw [hedgeProbs_eq]
  refine ⟨hedgeWeight eta gains gi, hedgeWeight eta gains gj, by simp [hi], by simp [hj], ?_, ?_, ?_⟩
  · unfold hedgeWeight
    rw [div_div_div_cancel_right₀ hp.ne', ← Real.exp_sub]
    congr 1
    ring
  · intro heta
    unfold hedgeWeight
    rw [div_lt_div_iff_of_pos_right hp, Real.exp_lt_exp, mul_lt_mul_iff_right₀ heta]
  · rintro rfl
    simp [hedgeWeight]

example : ([0, 1, -3] : List ℝ)[1]? = some 1 ∧ ([0, 1, -3] : List ℝ)[2]? = some (-3 : ℝ) := by simp

/-- **C60, shift.** Adding the same number to all gains changes nothing. -/
theorem C60_hedge_shift (eta c : ℝ) (gains : List ℝ) :
    hedgeProbs exact Real.exp eta (gains.map fun g => g + c) = hedgeProbs exact Real.exp eta gains := by
  rw [hedgeProbs_eq, hedgeProbs_eq, List.map_map]
  apply List.map_congr_left
  intro g _
  have hsum : ∀ l : List ℝ, ((l.map fun g => g + c).map fun h => Real.exp (eta * h)).sum
      = (l.map fun h => Real.exp (eta * h)).sum * Real.exp (eta * c) := by
    intro l
    induction l with
    | nil => simp
    | cons g l ih => simp only [List.map_cons, List.sum_cons, ih, mul_add, Real.exp_add]; ring
  simp only [Function.comp, hedgeWeight, hsum, mul_add, Real.exp_add]
  rw [mul_div_mul_right _ _ (Real.exp_ne_zero _)]

example : hedgeProbs exact Real.exp 1 [5, 5] = [1 / 2, 1 / 2] := by
  rw [hedgeProbs_eq]
  have : Real.exp 5 ≠ 0 := Real.exp_ne_zero _
  simp only [List.map_cons, List.map_nil, hedgeWeight, one_mul, List.sum_cons, List.sum_nil, add_zero]
  congr 1
  · field_simp; ring
  · congr 1; field_simp; ring

/-- A draw of one item: a vector of counts with a single one, at position `i`. -/
def IsOneHot (counts : List Nat) (i : Nat) : Prop :=
  i < counts.length ∧ ∀ k c, counts[k]? = some c → c = if k = i then 1 else 0

theorem npArgmax_oneHot {counts : List Nat} {i : Nat} (h : IsOneHot counts i) : npArgmax counts = .ok i := by
  obtain ⟨hlt, hc⟩ := h
  have hne : counts ≠ [] := by rintro rfl; simp at hlt
  obtain ⟨b, hb⟩ := npArgmax_ok hne
  have ⟨hbl, hmax⟩ := npArgmax_spec hb
  rw [hb]
  congr 1
  by_contra hbi
  have hci := hc i counts[i] (List.getElem?_eq_getElem hlt)
  have hcb := hc b counts[b] (List.getElem?_eq_getElem hbl)
  rw [if_pos rfl] at hci
  rw [if_neg hbi] at hcb
  have := hmax.1 counts[i] (List.getElem_mem hlt)
  omega

/-- **C60, the choice.** With `gp_hedge`, three gains and three proposals, the optimizer draws from the multinomial
distribution with the Hedge weights of its gains, and takes the proposal at the position drawn. -/
theorem C60_hedge_choice (W : World ℝ M R G) (hexp : W.exp = Real.exp) (s : Opt ℝ M R) (hacq : s.cfg.acq = .gpHedge)
    (gains : List ℝ) (hg : s.gains = some gains) (xs : List (List (Val ℝ))) (hx : s.nextXs = some xs) (i : Nat)
    (hdraw : IsOneHot (W.multinomial s.rng (gains.map (hedgeWeight W.eta gains))).2 i)
    (row : List (Val ℝ)) (hrow : xs[i]? = some row) :
    choose exact W s = ((W.multinomial s.rng (gains.map (hedgeWeight W.eta gains))).1, .ok row) := by
  simp only [choose, hacq, hg, hx, hexp, hedgeProbs_eq, Option.getD_some, npArgmax_oneHot hdraw]
  simp only [bind, Except.bind, pyGet_eq_ok.2 hrow]

example : IsOneHot [0, 1, 0] 1 := by
  refine ⟨by simp, ?_⟩
  intro k c hk
  match k, hk with
  | 0, hk => simp_all
  | 1, hk => simp_all
  | 2, hk => simp_all
  | k + 3, hk => simp at hk

end Skopt

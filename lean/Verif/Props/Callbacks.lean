import Verif.Model.Callbacks
import Verif.Model.Exact
import Verif.Props.SpaceChecks
import Verif.Props.Minimize
import Mathlib.Data.List.Sort
import Mathlib.Order.Bounds.Basic
import Mathlib.Tactic.Linarith

/-!
# C47–C50 – the early stoppers
-/

namespace Skopt

variable {F M : Type}

/-! ## Vocabulary -/

/-- The numbers of a history, NaN left out. -/
def numbers : List (Flt F) → List F
  | [] => []
  | .nan :: vs => numbers vs
  | .fin x :: vs => x :: numbers vs

/-- Subtraction is monotone in its first and antitone in its second argument (true of IEEE floats without
NaN and of the real numbers). -/
structure MonoSub [LinearOrder F] (A : Arith F) : Prop where
  left : ∀ a b c, a ≤ b → A.sub a c ≤ A.sub b c
  right : ∀ a b c, a ≤ b → A.sub c b ≤ A.sub c a

theorem exact_monoSub : MonoSub exact :=
  ⟨fun a b c h => by show a - c ≤ b - c; linarith, fun a b c h => by show c - b ≤ c - a; linarith⟩

/-- `vs` has `n` smallest entries, and these differ pairwise by less than `delta`. -/
def SmallestWithin [LinearOrder F] (A : Arith F) (n : Nat) (delta : F) (vs : List F) : Prop :=
  ∃ S T : List F, (S ++ T).Perm vs ∧ S.length = n ∧ (∀ a ∈ S, ∀ b ∈ T, a ≤ b) ∧
    ∀ a ∈ S, ∀ b ∈ S, A.sub a b < delta

/-! ## C47 -/

theorem numbers_perm {a b : List (Flt F)} (h : a.Perm b) : (numbers a).Perm (numbers b) := by
  induction h with
  | nil => exact .nil
  | cons x _ ih => cases x with
    | nan => exact ih
    | fin x => exact ih.cons x
  | swap x y l =>
    cases x with
    | nan => cases y <;> exact .refl _
    | fin x => cases y with
      | nan => exact .refl _
      | fin y => exact .swap x y _
  | trans _ _ h1 h2 => exact h1.trans h2

theorem sortLe_trans [LinearOrder F] (a b c : Flt F) (h1 : Flt.sortLe a b = true)
    (h2 : Flt.sortLe b c = true) : Flt.sortLe a c = true := by
  cases a <;> cases b <;> cases c <;> simp_all [Flt.sortLe]
  exact h1.trans h2

theorem sortLe_total [LinearOrder F] (a b : Flt F) : (Flt.sortLe a b || Flt.sortLe b a) = true := by
  cases a <;> cases b <;> simp [Flt.sortLe]
  exact le_total _ _

theorem sorted_shape [LinearOrder F] {s : List (Flt F)} (h : s.Pairwise fun a b => Flt.sortLe a b = true) :
    ∃ k, s = (numbers s).map Flt.fin ++ List.replicate k .nan ∧ (numbers s).Pairwise (· ≤ ·) := by
  induction s with
  | nil => exact ⟨0, rfl, .nil⟩
  | cons v s ih =>
    obtain ⟨hv, hs⟩ := List.pairwise_cons.1 h
    obtain ⟨k, e, p⟩ := ih hs
    cases v with
    | nan =>
      have hnil : numbers s = [] := by
        cases hn : numbers s with
        | nil => rfl
        | cons x l =>
          exfalso
          have : Flt.fin x ∈ s := by rw [e, hn]; simp
          have := hv _ this
          simp [Flt.sortLe] at this
      refine ⟨k + 1, ?_, ?_⟩
      · rw [hnil] at e
        simp only [List.map_nil, List.nil_append] at e
        show Flt.nan :: s = (numbers s).map Flt.fin ++ _
        rw [hnil, e]
        simp [List.replicate_succ]
      · show (numbers s).Pairwise _
        exact p
    | fin x =>
      refine ⟨k, ?_, ?_⟩
      · show Flt.fin x :: s = Flt.fin x :: (numbers s).map Flt.fin ++ _
        rw [List.cons_append, ← e]
      · show (x :: numbers s).Pairwise _
        refine List.pairwise_cons.2 ⟨fun y hy => ?_, p⟩
        have : Flt.fin y ∈ s := by
          rw [e]; exact List.mem_append_left _ (List.mem_map_of_mem hy)
        simpa [Flt.sortLe] using hv _ this

/-- **C47.** For every history of values (NaN included), every `n_best ≥ 1` and every `delta`:
`DeltaYStopper` never raises, makes no decision exactly while fewer than `n_best` values were observed,
and asks to stop exactly when the `n_best` smallest numbers observed differ pairwise by less than
`delta`. -/
theorem C47_deltaY [LinearOrder F] (A : Arith F) (hA : MonoSub A) (delta : F) (n : Nat) (hn : 1 ≤ n)
    (vals : List (Flt F)) :
    (∃ r, deltaY A delta n vals = .ok r) ∧
    (deltaY A delta n vals = .ok none ↔ vals.length < n) ∧
    (deltaY A delta n vals = .ok (some true) ↔ SmallestWithin A n delta (numbers vals)) := by
  have hlen : (numbers vals).length ≤ vals.length := by
    clear hA hn
    induction vals with
    | nil => simp [numbers]
    | cons v vs ih => cases v <;> simp [numbers] <;> omega
  unfold deltaY
  by_cases hle : n ≤ vals.length
  · rw [if_pos (by exact_mod_cast hle)]
    obtain ⟨s, hs⟩ : ∃ s, s = vals.insertionSort (fun a b => Flt.sortLe a b = true) := ⟨_, rfl⟩
    have hperm : s.Perm vals := hs ▸ List.perm_insertionSort _ _
    have hsort : s.Pairwise fun a b => Flt.sortLe a b = true :=
      hs ▸ (by
        have : Std.Total fun a b : Flt F => Flt.sortLe a b = true :=
          ⟨fun a b => by simpa using sortLe_total a b⟩
        have : IsTrans (Flt F) fun a b => Flt.sortLe a b = true := ⟨sortLe_trans⟩
        exact List.pairwise_insertionSort _ _)
    obtain ⟨k, hshape, hpw⟩ := sorted_shape hsort
    have hnum := numbers_perm hperm
    have hsl : s.length = vals.length := hperm.length_eq
    simp only [← hs]
    have hi : ((n : ℤ) - 1) = ((n - 1 : Nat) : ℤ) := by omega
    have g1 : pyGetI s ((n : ℤ) - 1) = .ok (s[n - 1]'(by omega)) := by
      unfold pyGetI
      rw [hi, if_pos (Int.natCast_nonneg _), Int.toNat_natCast]
      exact pyGet_lt _
    have g0 : pyGet s 0 = .ok (s[0]'(by omega)) := pyGet_lt _
    rw [g1, g0]
    simp only [ok_bind]
    refine ⟨⟨_, rfl⟩, ⟨fun h => by simp at h, fun h => by omega⟩, ?_⟩
    have hb : (Except.ok (some (Flt.ltF (Flt.sub A s[n - 1] s[0]) delta)) :
        Except PyErr (Option Bool)) = .ok (some true) ↔
        Flt.ltF (Flt.sub A s[n - 1] s[0]) delta = true := by simp
    rw [hb]
    by_cases hnn : n ≤ (numbers s).length
    · have e1 : s[n - 1]'(by omega) = .fin ((numbers s)[n - 1]'(by omega)) := by
        have : s[n - 1]? = some (.fin ((numbers s)[n - 1]'(by omega))) := by
          conv_lhs => rw [hshape]
          rw [List.getElem?_append_left (by simp; omega)]
          simp
        rw [List.getElem?_eq_getElem (by omega)] at this
        exact Option.some.inj this
      have e0 : s[0]'(by omega) = .fin ((numbers s)[0]'(by omega)) := by
        have : s[0]? = some (.fin ((numbers s)[0]'(by omega))) := by
          conv_lhs => rw [hshape]
          rw [List.getElem?_append_left (by simp; omega)]
          simp
        rw [List.getElem?_eq_getElem (by omega)] at this
        exact Option.some.inj this
      rw [e1, e0]
      simp only [Flt.sub, Flt.ltF, decide_eq_true_eq]
      constructor
      · intro h
        refine ⟨(numbers s).take n, (numbers s).drop n, ?_, ?_, ?_, ?_⟩
        · rw [List.take_append_drop]; exact hnum
        · simp; omega
        · have := hpw
          rw [← List.take_append_drop n (numbers s), List.pairwise_append] at this
          exact this.2.2
        · intro a ha b hb
          obtain ⟨i, hi, rfl⟩ := List.mem_take_iff_getElem.1 ha
          obtain ⟨j, hj, rfl⟩ := List.mem_take_iff_getElem.1 hb
          have m1 : (numbers s)[i]'(by omega) ≤ (numbers s)[n - 1]'(by omega) := by
            rcases Nat.lt_or_ge i (n - 1) with h' | h'
            · exact List.pairwise_iff_getElem.1 hpw i (n - 1) _ _ h'
            · have : i = n - 1 := by omega
              subst this; exact le_refl _
          have m2 : (numbers s)[0]'(by omega) ≤ (numbers s)[j]'(by omega) := by
            rcases Nat.eq_zero_or_pos j with h' | h'
            · subst h'; exact le_refl _
            · exact List.pairwise_iff_getElem.1 hpw 0 j _ _ h'
          exact lt_of_le_of_lt ((hA.left _ _ _ m1).trans (hA.right _ _ _ m2)) h
      · rintro ⟨S, T, hST, hS, hle', hd⟩
        have hsorted : (S.mergeSort (· ≤ ·) ++ T.mergeSort (· ≤ ·)).Pairwise (· ≤ ·) := by
          rw [List.pairwise_append]
          refine ⟨List.pairwise_mergeSort' _ _, List.pairwise_mergeSort' _ _, fun a ha b hb => ?_⟩
          exact hle' a ((List.mergeSort_perm _ _).mem_iff.1 ha) b ((List.mergeSort_perm _ _).mem_iff.1 hb)
        have heq : numbers s = S.mergeSort (· ≤ ·) ++ T.mergeSort (· ≤ ·) :=
          List.Perm.eq_of_pairwise (fun a b _ _ h1 h2 => le_antisymm h1 h2) hpw hsorted
            (hnum.trans (hST.symm.trans
              ((List.mergeSort_perm S _).symm.append (List.mergeSort_perm T _).symm)))
        have hSl : (S.mergeSort (· ≤ ·)).length = n := by rw [List.length_mergeSort]; exact hS
        have mem : ∀ i (hi : i < n), (numbers s)[i]'(by omega) ∈ S := by
          intro i hi
          have : (numbers s)[i]'(by omega) = (S.mergeSort (· ≤ ·))[i]'(by omega) := by
            simp only [heq]
            rw [List.getElem_append_left]
          rw [this]
          exact (List.mergeSort_perm S _).mem_iff.1 (List.getElem_mem _)
        exact hd _ (mem _ (by omega)) _ (mem _ (by omega))
    · have e1 : s[n - 1]'(by omega) = .nan := by
        have hk : s.length = (numbers s).length + k := by
          conv_lhs => rw [hshape]
          simp
        have : s[n - 1]? = some .nan := by
          conv_lhs => rw [hshape]
          rw [List.getElem?_append_right (by simp; omega)]
          rw [List.getElem?_replicate, if_pos (by simp; omega)]
        rw [List.getElem?_eq_getElem (by omega)] at this
        exact Option.some.inj this
      rw [e1]
      simp only [Flt.sub, Flt.ltF]
      constructor
      · intro h; simp at h
      · rintro ⟨S, T, hST, hS, _, _⟩
        have := (hnum.trans hST.symm).length_eq
        simp at this
        omega
  · rw [if_neg (by exact_mod_cast hle)]
    refine ⟨⟨_, rfl⟩, ⟨fun _ => by omega, fun _ => rfl⟩, ⟨fun h => by simp at h, ?_⟩⟩
    rintro ⟨S, T, hST, hS, _, _⟩
    have := hST.length_eq
    simp at this
    omega

/-- Non-vacuity of C47: the three smallest of these values lie within 1. -/
example : deltaY ratArith 1 3 [.fin 5, .nan, .fin (1/2), .fin 0, .fin (3/4)] = .ok (some true) ∧
    deltaY ratArith 1 4 [.fin 5, .nan, .fin (1/2), .fin 0, .fin (3/4)] = .ok (some false) ∧
    deltaY ratArith 1 6 [.fin 5, .nan, .fin (1/2), .fin 0, .fin (3/4)] = .ok none ∧
    MonoSub ratArith := by
  refine ⟨?_, ?_, ?_, ?_⟩
  · decide +kernel
  · decide +kernel
  · decide +kernel
  · exact ⟨fun a b c h => by show a - c ≤ b - c; linarith,
      fun a b c h => by show c - b ≤ c - a; linarith⟩

/-! ## C48 -/

theorem cumminFrom_length [LinearOrder F] (m : Flt F) (vs : List (Flt F)) :
    (cumminFrom m vs).length = vs.length + 1 := by
  induction vs generalizing m with
  | nil => rfl
  | cons v vs ih => simp [cumminFrom, ih]

theorem cummin_length [LinearOrder F] (vs : List (Flt F)) : (cummin vs).length = vs.length := by
  cases vs with
  | nil => rfl
  | cons v vs => exact cumminFrom_length v vs

theorem cumminFrom_spec [LinearOrder F] (m : F) (vs : List F) (i : Nat) (hi : i ≤ vs.length) :
    ∃ b, (cumminFrom (.fin m) (vs.map Flt.fin))[i]? = some (.fin b) ∧
      IsLeast {x | x ∈ (m :: vs).take (i + 1)} b := by
  induction vs generalizing m i with
  | nil =>
    have : i = 0 := by simpa using hi
    subst this
    exact ⟨m, rfl, by simp [IsLeast, lowerBounds]⟩
  | cons v vs ih =>
    cases i with
    | zero => exact ⟨m, rfl, by simp [IsLeast, lowerBounds]⟩
    | succ i =>
      obtain ⟨b, h1, h2⟩ := ih (if v < m then v else m) i (by simpa using hi)
      refine ⟨b, h1, ?_⟩
      simp only [List.take_succ_cons, List.mem_cons, IsLeast, lowerBounds, Set.mem_ofPred_eq] at h2 ⊢
      obtain ⟨h3, h4⟩ := h2
      have hb := h4 (Or.inl rfl)
      constructor
      · rcases h3 with h3 | h3
        · split at h3
          · exact Or.inr (Or.inl h3)
          · exact Or.inl h3
        · exact Or.inr (Or.inr h3)
      · rintro a (rfl | rfl | ha)
        · refine hb.trans ?_
          split
          · next h => exact h.le
          · exact le_refl _
        · refine hb.trans ?_
          split
          · exact le_refl _
          · next h => exact not_lt.1 h
        · exact h4 (Or.inr ha)

theorem cummin_spec [LinearOrder F] (vs : List F) (i : Nat) (hi : i < vs.length) :
    ∃ b, (cummin (vs.map Flt.fin))[i]? = some (.fin b) ∧ IsLeast {x | x ∈ vs.take (i + 1)} b := by
  cases vs with
  | nil => simp at hi
  | cons v vs => exact cumminFrom_spec v vs i (by simpa [Nat.lt_succ_iff] using hi)

theorem pyGetI_neg {α : Type} (xs : List α) (k : Nat) (hk : k < xs.length) :
    pyGetI xs (-(k : ℤ) - 1) = .ok (xs[xs.length - 1 - k]'(by omega)) := by
  unfold pyGetI
  rw [if_neg (by omega), if_pos (by omega)]
  have : ((xs.length : ℤ) + (-(k : ℤ) - 1)).toNat = xs.length - 1 - k := by omega
  rw [this]
  exact pyGet_lt _

/-- The best of the values before the last `n`, minus the best of all of them, is at most `thr`. -/
def ImprovedAtMost [LinearOrder F] (A : Arith F) (n : Nat) (thr : F) (vs : List F) : Prop :=
  ∃ before now, IsLeast {x | x ∈ vs.take (vs.length - n)} before ∧ IsLeast {x | x ∈ vs} now ∧
    A.sub before now ≤ thr

/-- **C48**, for histories of numbers.  Missing for the full property: histories containing NaN, for
which it is false (`C48_refuted_nan`).  For every arithmetic: `HollowIterationsStopper` always answers,
and asks to stop exactly when more than `n` values were observed and the best value improved by at most
`|threshold|` during the last `n` of them. -/
theorem C48_hollow_partial [LinearOrder F] (A : Arith F) (n : Nat) (thr : F) (vs : List F) :
    (∃ b, hollow A n thr (vs.map Flt.fin) = .ok (some b)) ∧
    (hollow A n thr (vs.map Flt.fin) = .ok (some true) ↔
      n < vs.length ∧ ImprovedAtMost A n (pyAbs A thr) vs) := by
  unfold hollow
  simp only [List.length_map]
  by_cases hle : vs.length ≤ n
  · rw [if_pos (by exact_mod_cast hle)]
    refine ⟨⟨_, rfl⟩, ⟨fun h => by simp at h, fun h => by omega⟩⟩
  · rw [if_neg (by exact_mod_cast hle)]
    have hl : (cummin (vs.map Flt.fin)).length = vs.length := by rw [cummin_length, List.length_map]
    obtain ⟨b, hb1, hb2⟩ := cummin_spec vs (vs.length - 1 - n) (by omega)
    obtain ⟨c, hc1, hc2⟩ := cummin_spec vs (vs.length - 1) (by omega)
    rw [pyGetI_neg _ n (by omega)]
    have h0 := pyGetI_neg (cummin (vs.map Flt.fin)) 0 (by omega)
    simp only [Nat.cast_zero, Int.neg_zero, zero_sub, Nat.sub_zero] at h0
    rw [h0]
    simp only [ok_bind, hl]
    have e1 : (cummin (vs.map Flt.fin))[vs.length - 1 - n]'(by omega) = .fin b := by
      rw [List.getElem?_eq_getElem (by omega)] at hb1
      exact Option.some.inj hb1
    have e2 : (cummin (vs.map Flt.fin))[vs.length - 1]'(by omega) = .fin c := by
      rw [List.getElem?_eq_getElem (by omega)] at hc1
      exact Option.some.inj hc1
    rw [e1, e2]
    simp only [Flt.sub, Flt.leF]
    refine ⟨⟨_, rfl⟩, ?_⟩
    have t1 : vs.length - 1 - n + 1 = vs.length - n := by omega
    have t2 : vs.take (vs.length - 1 + 1) = vs := List.take_of_length_le (by omega)
    rw [t1] at hb2
    rw [t2] at hc2
    constructor
    · intro h
      simp only [Except.ok.injEq, Option.some.injEq, decide_eq_true_eq] at h
      exact ⟨by omega, b, c, hb2, hc2, h⟩
    · rintro ⟨_, b', c', hb', hc', h⟩
      rw [hb2.unique hb', hc2.unique hc']
      simpa using h

/-- The threshold used is the absolute value. -/
theorem pyAbs_exact (x : ℝ) : pyAbs exact x = |x| := by
  unfold pyAbs
  simp only [exact, Int.cast_zero]
  split
  · rename_i h; rw [abs_of_neg h]; ring
  · rename_i h; rw [abs_of_nonneg (not_lt.1 h)]

/-- Non-vacuity of C48: no improvement during the last two values; an improvement by 1.
Meets the hypotheses of `C48_hollow_partial`. -/
example : hollow ratArith 2 0 [.fin 5, .fin 3, .fin 4, .fin 3] = .ok (some true) ∧
    hollow ratArith 2 (1/2) [.fin 5, .fin 3, .fin 4, .fin 2] = .ok (some false) ∧
    hollow ratArith 2 (-1) [.fin 5, .fin 3, .fin 4, .fin 2] = .ok (some true) ∧
    hollow ratArith 4 0 [.fin 5, .fin 3, .fin 4, .fin 2] = .ok (some false) := by
  refine ⟨?_, ?_, ?_, ?_⟩ <;> decide +kernel

/-- **C48 fails with NaN.**  After one NaN value the stopper never asks to stop again, for every
arithmetic, every threshold and every continuation of the history. -/
theorem C48_refuted_nan [LinearOrder F] (A : Arith F) (n : Nat) (thr : F) (before after : List (Flt F)) :
    hollow A n thr (before ++ .nan :: after) = .ok (some false) := by
  have nanTail : ∀ vs : List (Flt F), ∀ i (hi : i < (cumminFrom (.nan : Flt F) vs).length),
      (cumminFrom (.nan : Flt F) vs)[i] = .nan := by
    intro vs
    induction vs with
    | nil => intro i hi; simp [cumminFrom]
    | cons v vs ih =>
      intro i hi
      have hm : Flt.minimum (.nan : Flt F) v = .nan := by cases v <;> rfl
      cases i with
      | zero => rfl
      | succ i =>
        simp only [cumminFrom, hm, List.getElem_cons_succ]
        exact ih i _
  have last : ∀ (b : List (Flt F)) (m : Flt F),
      (cumminFrom m (b ++ .nan :: after))[b.length + after.length + 1]? = some .nan := by
    intro b
    induction b with
    | nil =>
      intro m
      have hm : Flt.minimum m (.nan : Flt F) = .nan := by cases m <;> rfl
      simp only [List.nil_append, cumminFrom, hm, List.length_nil, Nat.zero_add,
        List.getElem?_cons_succ]
      rw [List.getElem?_eq_getElem (by rw [cumminFrom_length]; omega), nanTail]
    | cons v b ih =>
      intro m
      have : (v :: b).length + after.length + 1 = (b.length + after.length + 1) + 1 := by
        simp; omega
      rw [this]
      simp only [List.cons_append, cumminFrom, List.getElem?_cons_succ]
      exact ih _
  have hlast : (cummin (before ++ .nan :: after))[(before ++ Flt.nan :: after).length - 1]?
      = some .nan := by
    cases before with
    | nil =>
      simp only [List.nil_append, cummin, List.length_cons, Nat.add_sub_cancel]
      rw [List.getElem?_eq_getElem (by rw [cumminFrom_length]; omega), nanTail]
    | cons v b =>
      have : ((v :: b) ++ Flt.nan :: after).length - 1 = b.length + after.length + 1 := by
        simp; omega
      rw [this]
      exact last b v
  unfold hollow
  generalize hv : before ++ Flt.nan :: after = vs at hlast
  have hl := cummin_length vs
  have hpos : 0 < vs.length := by rw [← hv]; simp
  by_cases hle : (vs.length : ℤ) ≤ n
  · rw [if_pos hle]
  · rw [if_neg hle, pyGetI_neg _ n (by omega)]
    have h0 := pyGetI_neg (cummin vs) 0 (by omega)
    simp only [Nat.cast_zero, Int.neg_zero, zero_sub, Nat.sub_zero] at h0
    rw [h0]
    simp only [ok_bind, hl]
    rw [List.getElem?_eq_getElem (by omega)] at hlast
    rw [Option.some.inj hlast]
    have : ∀ a : Flt F, Flt.sub A a .nan = .nan := fun a => by cases a <;> rfl
    rw [this]
    rfl

/-- A history where the best value did not improve at all, yet the stopper does not stop. -/
example : hollow ratArith 2 0 [.fin 0, .nan, .fin 1, .fin 1, .fin 1] = .ok (some false) ∧
    hollow ratArith 2 0 [.fin 0, .fin 1, .fin 1, .fin 1, .fin 1] = .ok (some true) := by
  refine ⟨?_, ?_⟩ <;> decide +kernel

/-! ## C49 -/

/-- **C49 (threshold).** `ThresholdStopper` asks to stop exactly when some observed number is at most the
threshold, and once it does, it does for every longer history. -/
theorem C49_threshold [LinearOrder F] (thr : F) (vals more : List (Flt F)) :
    (∃ b, threshold thr vals = .ok (some b)) ∧
    (threshold thr vals = .ok (some true) ↔ ∃ x ∈ numbers vals, x ≤ thr) ∧
    (threshold thr vals = .ok (some true) → threshold thr (vals ++ more) = .ok (some true)) := by
  refine ⟨⟨_, rfl⟩, ?_, ?_⟩
  · simp only [threshold, Except.ok.injEq, Option.some.injEq]
    induction vals with
    | nil => simp [numbers]
    | cons v vs ih =>
      cases v with
      | nan => simpa [numbers, Flt.leF] using ih
      | fin x =>
        simp only [List.map_cons, List.any_cons, id, Bool.or_eq_true, numbers, List.mem_cons,
          exists_eq_or_imp, ih]
        simp [Flt.leF]
  · intro h
    simp only [threshold, Except.ok.injEq, Option.some.injEq] at h ⊢
    simp [h]

example : threshold (1 : ℚ) [.fin 5, .nan, .fin 1] = .ok (some true) ∧
    threshold (1 : ℚ) [.fin 5, .nan, .fin 2] = .ok (some false) := by
  refine ⟨?_, ?_⟩ <;> decide +kernel

/-- **C49 (points).** In exact arithmetic, for histories of points of the space: `DeltaXStopper` makes no
decision before two points were observed, and afterwards asks to stop exactly when the distance of the last
two is less than `delta`. -/
theorem C49_deltaX (dims : List (Dim ℝ)) (delta : ℝ) (pts : List (Point ℝ))
    (hpts : ∀ p ∈ pts, List.Forall₂ Within dims p) :
    (pts.length < 2 → deltaX exact dims delta (pts.map Val.seq) = .ok none) ∧
    (∀ rest a b, pts = rest ++ [a, b] → ∃ d, PointDist dims a b d ∧
      deltaX exact dims delta (pts.map Val.seq) = .ok (some (decide (d < delta)))) := by
  constructor
  · intro h
    unfold deltaX
    rw [if_neg (by simpa using h)]
  · rintro rest a b rfl
    obtain ⟨d, _, _, _, h1, _, _, _, h2, _⟩ := C06_distance_is_metric dims a b b
      (hpts a (by simp)) (hpts b (by simp)) (hpts b (by simp))
    refine ⟨d, h2, ?_⟩
    unfold deltaX
    rw [if_pos (by simp)]
    have g2 := pyGetI_neg ((rest ++ [a, b]).map Val.seq) 1 (by simp)
    have g1 := pyGetI_neg ((rest ++ [a, b]).map Val.seq) 0 (by simp)
    have e2 : ((-((1 : Nat) : ℤ) - 1)) = -2 := by norm_num
    have e1 : ((-((0 : Nat) : ℤ) - 1)) = -1 := by norm_num
    rw [e2] at g2
    rw [e1] at g1
    rw [g2, g1]
    have q2 : ((rest ++ [a, b]).map Val.seq)[((rest ++ [a, b]).map Val.seq).length - 1 - 1]'(by simp)
        = Val.seq a := by simp
    have q1 : ((rest ++ [a, b]).map Val.seq)[((rest ++ [a, b]).map Val.seq).length - 1 - 0]'(by simp)
        = Val.seq b := by simp
    rw [q2, q1]
    simp only [ok_bind, h1]

/-- Non-vacuity of C49 (points): the last two points of a mixed space are 1/2 apart. -/
example : deltaX ratArith exDims 1 [.seq [.num 5, .num 1, .str "a"], .seq [.num 5, .num (-2), .str "b"],
      .seq [.num (11/2), .num (-2), .str "b"]] = .ok (some true) ∧
    deltaX ratArith exDims 1 [.seq [.num 5, .num (-2), .str "a"], .seq [.num 5, .num (-2), .str "b"]]
      = .ok (some false) := by
  refine ⟨?_, ?_⟩ <;> decide +kernel

/-- **C49 (runs).** In a run of `base_minimize` that returns, with a `ThresholdStopper` among the
callbacks, every step but the last left all observed numbers above the threshold: the run ends with the
first step that reaches it. -/
theorem C49_threshold_ends_run {R G : Type} [LinearOrder F] (A : Arith F) (W : World F M R G)
    (sh : Shared F G) (func : Objective F) (m : MinArgs F M) (rng : R) (res : Option (Result F M)) (thr : F)
    (hcb : stopperCallback (fun r : Result F M => threshold thr r.funcVals) ∈ m.callback.callables)
    (h : (baseMinimize A W sh func m rng).result = .ok res) :
    ∃ steps : List (List (Val F) × Result F M),
      (baseMinimize A W sh func m rng).trace =
        traceOf (m.callback.callables ++ (if m.verbose then [verboseCallback] else [])) [] steps ∧
      res = steps.getLast?.map Prod.snd ∧
      ∀ pre st last, steps = pre ++ st :: last → last ≠ [] → ∀ x ∈ numbers st.2.funcVals, thr < x := by
  obtain ⟨steps, h1, h2, h3, _⟩ := C43_callbacks_observe_and_stop A W sh func m rng res h
  refine ⟨steps, h1, h3, ?_⟩
  rintro pre st last rfl hlast x hx
  have hl : 0 < last.length := List.length_pos_iff.2 hlast
  have := h2 pre.length (by simp; omega)
  by_contra hlt
  apply this
  refine ⟨_, List.mem_append_left _ hcb, ?_⟩
  have e : (((pre ++ st :: last).take (pre.length + 1)).map Prod.snd) = pre.map Prod.snd ++ [st.2] := by
    rw [List.take_append]
    simp
  rw [e]
  simp only [stopperCallback, List.getLast?_append, List.getLast?_singleton, Option.some_or]
  exact (C49_threshold thr st.2.funcVals []).2.1.2 ⟨x, hx, not_lt.1 hlt⟩

/-- Non-vacuity: values 5, 4, 3, 2 and threshold 4; the run ends after two of four evaluations. -/
example :
    let cb : Callback ℚ Nat := stopperCallback fun r => threshold 4 r.funcVals
    let out := baseMinimize ratArith okWorld toyShared
      (fun done _ => .ok (.num (.fin (5 - (done.length : ℚ))))) (toyMin (.one cb)) 0
    cb ∈ (toyMin (.one cb)).callback.callables ∧ (evalsOf out.trace).length = 2 ∧
    (out.result.toOption.bind fun r => r.map fun r => r.funcVals) = some [.fin 5, .fin 4] := by
  refine ⟨List.mem_singleton.2 rfl, ?_, ?_⟩ <;> decide +kernel

/-! ## C50 -/

/-- Clock readings of a run whose iterations take the given times: each entry is the duration of an
iteration (from one call of the stopper to the next) and the time between the two clock readings inside the
call. -/
def clockReadings (xs : List (Val ℝ)) : ℝ → List (ℝ × ℝ) → List (ℝ × ℝ × List (Val ℝ))
  | _, [] => []
  | t, (e, g) :: rest => (t + e, t + e + g, xs) :: clockReadings xs (t + e + g) rest

theorem foldl_add_real (l : List ℝ) (a : ℝ) : l.foldl exact.add a = a + l.sum := by
  induction l generalizing a with
  | nil => simp
  | cons x l ih => rw [List.foldl_cons, ih, List.sum_cons]; show a + x + l.sum = _; ring

theorem sumL_exact (l : List ℝ) : sumL exact l = l.sum := by
  unfold sumL; rw [foldl_add_real]; simp [exact]

theorem le_foldl_max {l : List ℝ} {a x : ℝ} (h : x = a ∨ x ∈ l) : x ≤ l.foldl max a := by
  induction l generalizing a x with
  | nil => simpa using h.elim le_of_eq (fun h => by simp at h)
  | cons y l ih =>
    rcases h with rfl | h
    · exact (le_max_left _ y).trans (ih (Or.inl rfl))
    · rcases List.mem_cons.1 h with rfl | h
      · exact (le_max_right a _).trans (ih (Or.inl rfl))
      · exact ih (Or.inr h)

theorem deadline_answers (xs : List (Val ℝ)) (hxs : xs ≠ []) (total : ℝ) (its : List (ℝ × ℝ))
    (d : Deadline ℝ) (i : Nat) (hi : i < its.length) :
    ∃ m : ℝ, (d.answers exact total (clockReadings xs d.time its))[i]? =
        some (.ok (some (decide (total - (d.iterTime.sum + ((its.take (i + 1)).map Prod.fst).sum) ≤ m)))) ∧
      ∀ e, e ∈ d.iterTime ∨ e ∈ (its.take (i + 1)).map Prod.fst → e ≤ m := by
  induction its generalizing d i with
  | nil => simp at hi
  | cons it its ih =>
    obtain ⟨e, g⟩ := it
    simp only [clockReadings, Deadline.answers, Deadline.criterion]
    have hsub : exact.sub (d.time + e) d.time = e := by show d.time + e - d.time = e; ring
    rw [hsub]
    cases i with
    | zero =>
      rw [if_neg hxs]
      cases hq : d.iterTime with
      | nil =>
        refine ⟨e, ?_, ?_⟩
        · simp [maxL, ok_bind, sumL_exact]
          simp [exact]
        · simp
      | cons a l =>
        refine ⟨(l ++ [e]).foldl max a, ?_, ?_⟩
        · simp [maxL, ok_bind, sumL_exact]
          simp [exact]
          simp only [add_assoc]
        · intro e' he'
          apply le_foldl_max
          simp at he' ⊢
          tauto
    | succ i =>
      obtain ⟨m, h1, h2⟩ := ih ⟨d.time + e + g, d.iterTime ++ [e]⟩ i (by simpa using hi)
      refine ⟨m, ?_, ?_⟩
      · rw [List.getElem?_cons_succ, h1]
        simp [add_assoc]
      · intro e' he'
        apply h2
        simp at he' ⊢
        tauto

/-- **C50.** Exact arithmetic.  A run whose iterations take times `e₀, e₁, …`, the stopper's two clock
readings being `g₀, g₁, …` apart, with observed points from the first call on: if the first iteration fits in
the budget, no iteration takes longer than the longest earlier one, and the stopper did not ask to stop
before the last call, then the iterations took at most `total` together, and the last reading of the clock
is at most the budget plus the gaps after the start. -/
theorem C50_deadline (total t₀ : ℝ) (xs : List (Val ℝ)) (hxs : xs ≠ []) (its : List (ℝ × ℝ))
    (hfirst : ∀ e g rest, its = (e, g) :: rest → e ≤ total)
    (hslow : ∀ pre e g rest, its = pre ++ (e, g) :: rest → pre ≠ [] → ∃ e' ∈ pre.map Prod.fst, e ≤ e')
    (hrun : ∀ i, i + 1 < its.length →
      ((Deadline.init t₀).answers exact total (clockReadings xs t₀ its))[i]? ≠ some (.ok (some true))) :
    (its ≠ [] → (its.map Prod.fst).sum ≤ total) ∧
    ∀ pre e g, its = pre ++ [(e, g)] →
      ∃ t₁ t₂, (clockReadings xs t₀ its).getLast? = some (t₁, t₂, xs) ∧
        t₁ - t₀ ≤ total + (pre.map Prod.snd).sum := by
  have hsum : its ≠ [] → (its.map Prod.fst).sum ≤ total := by
    intro hne
    obtain ⟨pre, ⟨e, g⟩, rfl⟩ := List.eq_nil_or_concat its |>.resolve_left hne
    rcases List.eq_nil_or_concat pre with rfl | ⟨pre', last, rfl⟩
    · simpa using hfirst e g [] (by simp)
    · simp only [List.concat_eq_append] at *
      obtain ⟨m, h1, h2⟩ := deadline_answers xs hxs total (pre' ++ [last] ++ [(e, g)]) (Deadline.init t₀)
        pre'.length (by simp)
      have h3 := hrun pre'.length (by simp)
      have ht : (pre' ++ [last] ++ [(e, g)]).take (pre'.length + 1) = pre' ++ [last] := by
        rw [List.take_append_of_le_length (by simp), List.take_of_length_le (by simp)]
      rw [ht] at h1 h2
      have htime : (Deadline.init t₀).time = t₀ := rfl
      rw [htime] at h1
      rw [h1] at h3
      have h4 : ¬ total - ((Deadline.init t₀).iterTime.sum + ((pre' ++ [last]).map Prod.fst).sum) ≤ m := by
        intro hh
        exact h3 (by simp only [hh, decide_true])
      obtain ⟨e', he', hle⟩ := hslow (pre' ++ [last]) e g [] rfl (by simp)
      have := h2 e' (Or.inr he')
      simp only [Deadline.init, List.sum_nil, zero_add] at h4
      rw [List.map_append, List.sum_append]
      simp only [List.map_cons, List.map_nil, List.sum_cons, List.sum_nil, add_zero]
      linarith [not_le.1 h4]
  refine ⟨hsum, ?_⟩
  rintro pre e g rfl
  have key : ∀ (pre : List (ℝ × ℝ)) (t : ℝ), (clockReadings xs t (pre ++ [(e, g)])).getLast? =
      some (t + (pre.map Prod.fst).sum + (pre.map Prod.snd).sum + e,
        t + (pre.map Prod.fst).sum + (pre.map Prod.snd).sum + e + g, xs) := by
    intro pre
    induction pre with
    | nil => intro t; simp [clockReadings]
    | cons it pre ih =>
      intro t
      obtain ⟨a, b⟩ := it
      simp only [List.cons_append, clockReadings]
      rw [List.getLast?_cons, ih]
      simp only [Option.getD_some, List.map_cons, List.sum_cons, Option.some.injEq, Prod.mk.injEq,
        and_true]
      constructor <;> ring
  have hs := hsum (by simp)
  simp only [List.map_append, List.sum_append, List.map_cons, List.map_nil, List.sum_cons, List.sum_nil,
    add_zero] at hs
  exact ⟨_, _, key pre t₀, by linarith⟩

/-- Non-vacuity of C50: three iterations of 2, 1, 2 seconds in a budget of 6; the stopper lets the run go on
after the first two and stops it after the third. -/
example : (Deadline.init (0 : ℚ)).answers ratArith 6
      [(2, 2, [.seq [.num 1]]), (3, 3, [.seq [.num 1]]), (5, 5, [.seq [.num 1]])] =
    [.ok (some false), .ok (some false), .ok (some true)] := by decide +kernel

example : ∃ its : List (ℝ × ℝ), 2 < its.length ∧
    (∀ e g rest, its = (e, g) :: rest → e ≤ 6) ∧
    (∀ pre e g rest, its = pre ++ (e, g) :: rest → pre ≠ [] → ∃ e' ∈ pre.map Prod.fst, e ≤ e') ∧
    ∀ i, i + 1 < its.length → ((Deadline.init 0).answers exact 6
      (clockReadings [.seq [.num 1]] 0 its))[i]? ≠ some (.ok (some true)) := by
  refine ⟨[(2, 0), (1, 0), (2, 0)], by simp, ?_, ?_, ?_⟩
  · intro e g rest h
    simp at h
    rw [← h.1.1]; norm_num
  · intro pre e g rest h hp
    have he : e ≤ 2 := by
      have : (e, g) ∈ [((2 : ℝ), (0 : ℝ)), (1, 0), (2, 0)] := by rw [h]; simp
      simp only [List.mem_cons, Prod.mk.injEq, List.not_mem_nil, or_false] at this
      rcases this with ⟨rfl, _⟩ | ⟨rfl, _⟩ | ⟨rfl, _⟩ <;> norm_num
    cases pre with
    | nil => exact absurd rfl hp
    | cons a pre =>
      simp only [List.cons_append, List.cons.injEq] at h
      exact ⟨2, by rw [← h.1]; simp, he⟩
  · intro i hi
    have : i = 0 ∨ i = 1 := by simp at hi; omega
    rcases this with rfl | rfl <;>
      norm_num [clockReadings, Deadline.answers, Deadline.criterion, Deadline.init, maxL, sumL, ok_bind,
        exact]

end Skopt

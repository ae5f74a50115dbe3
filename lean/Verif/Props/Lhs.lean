import Verif.Lemmas.Lhs
import Verif.Props.Halton

/-!
# C22, C23: Latin hypercube designs
-/

namespace Skopt

/-- **C22.** In exact arithmetic, for every random outcome, every design type and every criterion:
if a design is chosen, each of its columns has exactly one sample in each of the `n` equal strata,
and all coordinates lie in `[0,1)`. -/
theorem C22_one_sample_per_stratum (num : LhsNum ℝ) (l : Lhs) (nDim n : Nat) (first : LhsDraw ℝ)
    (draws : List (LhsDraw ℝ)) (hd : ∀ d ∈ first :: draws, GoodDraw nDim n d) (M : List (List ℝ))
    (h : l.choose exact num nDim n first draws = .ok M) :
    M.length = n ∧ (∀ r ∈ M, r.length = nDim ∧ ∀ x ∈ r, 0 ≤ x ∧ x < 1) ∧
      ∀ j < nDim, (column j M).length = n ∧ Stratified (column j M) := by
  obtain ⟨d, hm, hg⟩ := Lhs.choose_mem h
  have hk : l.lhsType ≠ .other := by
    intro h0
    unfold lhsNormalized at hg
    rw [if_pos h0] at hg
    simp at hg
  rw [lhsNormalized_exact hk (hd d hm)] at hg
  injection hg with hg
  subst hg
  have := lhsDesign_unit hk (hd d hm)
  refine ⟨this.1, this.2, fun j hj => ⟨?_, lhsDesign_stratified hk (hd d hm) hj⟩⟩
  rw [lhsDesign_column hj]
  simp

/-- **C22.** What `generate` returns is the image of such a design: exactly `n` points of the
space. -/
theorem C22_generate_is_image (num : LhsNum ℝ) (l : Lhs) (dims : List (Dim ℝ))
    (hv : ∀ d ∈ dims, ValidDim exact d) (n : Nat) (first : LhsDraw ℝ) (draws : List (LhsDraw ℝ))
    (hd : ∀ d ∈ first :: draws, GoodDraw dims.length n d) (pts : List (Point ℝ))
    (h : (l.generate exact num dims n first draws).2 = .ok pts) :
    (∃ M, (∀ j < dims.length, (column j M).length = n ∧ Stratified (column j M)) ∧
      Space.inverseTransform exact (dims.map Dim.normalized) (numRows M) = .ok pts) ∧
    pts.length = n ∧ ∀ p ∈ pts, InSpace exact dims p := by
  unfold Lhs.generate at h
  rw [withNormalized_snd dims fun d hd => (hv d hd).legalTransform, bind_eq_ok] at h
  obtain ⟨M, hM, h⟩ := h
  have hc := C22_one_sample_per_stratum num l dims.length n first draws hd M hM
  have hs := unit_points_in_space exact_orderly hv h
  exact ⟨⟨M, hc.2.2, h⟩, by rw [hs.1, hc.1], hs.2⟩

/-- **C22.** For the default criterion (maximin), for `ratio` and without criterion the generator
does return a design, for every random outcome and `n ≥ 1`. -/
theorem C22_generate_succeeds (num : LhsNum ℝ) (l : Lhs) (hk : l.lhsType ≠ .other)
    (hc : l.criterion = .none ∨ l.criterion = .maximin ∨ l.criterion = .ratio)
    (dims : List (Dim ℝ)) (hne : dims ≠ []) (hv : ∀ d ∈ dims, ValidDim exact d) (n : Nat)
    (hn : 0 < n) (first : LhsDraw ℝ) (draws : List (LhsDraw ℝ))
    (hd : ∀ d ∈ first :: draws, GoodDraw dims.length n d) :
    ∃ pts, (l.generate exact num dims n first draws).2 = .ok pts := by
  have hgen : ∀ d ∈ first :: draws, lhsNormalized exact l.lhsType dims.length n d =
      .ok (lhsDesign l.lhsType dims.length n d) := fun d h => lhsNormalized_exact hk (hd d h)
  have hloop : ∀ {S : Type} (step : List (List ℝ) → S → Except PyErr S) (s : S),
      (∀ h s, h.length = n → ∃ s', step h s = .ok s') →
      ∃ s', lhsLoop (lhsNormalized exact l.lhsType dims.length n) step draws s = .ok s' := by
    intro S step s hs
    have hd' : ∀ d ∈ draws, lhsNormalized exact l.lhsType dims.length n d =
      .ok (lhsDesign l.lhsType dims.length n d) := fun d h => hgen d (by simp [h])
    clear hgen hd
    induction draws generalizing s with
    | nil => exact ⟨s, rfl⟩
    | cons d ds ih =>
      obtain ⟨s1, h1⟩ := hs (lhsDesign l.lhsType dims.length n d) s (by simp [lhsDesign])
      obtain ⟨s2, h2⟩ := ih s1 fun d hd => hd' d (by simp [hd])
      refine ⟨s2, ?_⟩
      rw [lhsLoop, hd' d (by simp), ok_bind, h1, ok_bind, h2]
  have hpd : n ≠ 1 → ∀ h : List (List ℝ), h.length = n → ∃ a b, pdist num.dist h = a :: b := by
    intro hn1 h hl
    match h, hl with
    | [], hl => simp at hl; omega
    | [_], hl => simp at hl; omega
    | a :: b :: t, _ => exact ⟨num.dist a b, _, rfl⟩
  have hchoose : ∃ M, l.choose exact num dims.length n first draws = .ok M := by
    unfold Lhs.choose
    rw [hgen first (by simp), ok_bind]
    by_cases h1 : l.criterion = .none ∨ n = 1
    · rw [if_pos h1]; exact ⟨_, rfl⟩
    · rw [if_neg h1]
      rw [not_or] at h1
      rcases hc with hc | hc | hc
      · exact absurd hc h1.1
      · rw [hc]
        obtain ⟨s', hs'⟩ := hloop (maximinStep num) (exact.ofInt 0, none) (by
          intro h s hl
          obtain ⟨a, b, e⟩ := hpd h1.2 h hl
          rw [maximinStep, e]
          simp only [npMin, ok_bind]
          split <;> exact ⟨_, rfl⟩)
        simp only [hs', ok_bind]
        exact ⟨_, rfl⟩
      · rw [hc]
        obtain ⟨s', hs'⟩ := hloop (ratioStep exact num) (none, none) (by
          intro h s hl
          obtain ⟨a, b, e⟩ := hpd h1.2 h hl
          rw [ratioStep, lhsRatio, e]
          simp only [npMin, npMax, ok_bind]
          split <;> (rw [ok_bind]; split <;> exact ⟨_, rfl⟩))
        simp only [hs', ok_bind]
        exact ⟨_, rfl⟩
  obtain ⟨M, hM⟩ := hchoose
  have hu := C22_one_sample_per_stratum num l dims.length n first draws hd M hM
  obtain ⟨pts, hp, _⟩ := unit_inverse_ok hne hv (M := M)
    (by rintro rfl; have := hu.1; simp at this; omega)
    (fun r hr => (hu.2.1 r hr).1)
    (fun r hr x hx => ⟨((hu.2.1 r hr).2 x hx).1, ((hu.2.1 r hr).2 x hx).2.le⟩)
  refine ⟨pts, ?_⟩
  unfold Lhs.generate
  rw [withNormalized_snd dims fun d hd => (hv d hd).legalTransform, hM, ok_bind, hp]

section Examples

/-- A possible random outcome for 3 samples in 2 dimensions. -/
noncomputable def exDraw : LhsDraw ℝ :=
  ⟨[[0, 1/2], [1/4, 9/10], [1/3, 0]], [[1, 2, 0], [0, 1, 2]]⟩

theorem exDraw_good : GoodDraw 2 3 exDraw := by
  refine ⟨rfl, ?_, ?_, rfl, ?_⟩
  · simp [exDraw]
  · intro r hr x hx
    simp only [exDraw, List.mem_cons, List.not_mem_nil, or_false] at hr
    rcases hr with rfl | rfl | rfl <;>
      (simp only [List.mem_cons, List.not_mem_nil, or_false] at hx
       rcases hx with rfl | rfl <;> norm_num)
  · intro o ho
    simp only [exDraw, List.mem_cons, List.not_mem_nil, or_false] at ho
    rcases ho with rfl | rfl <;> decide

/-- Meets the hypotheses of `C22_one_sample_per_stratum`, `C22_generate_is_image`, `C22_generate_succeeds`. -/
example : ∀ d ∈ exDraw :: [exDraw], GoodDraw genDims.length 3 d := by
  intro d hd
  simp only [List.mem_cons, List.not_mem_nil, or_false, or_self] at hd
  exact hd ▸ exDraw_good

/-- The classic design of that outcome: one coordinate per third in both columns. -/
example : lhsNormalized ratArith .classic 2 3
    ⟨[[0, 1/2], [1/4, 9/10], [1/3, 0]], [[1, 2, 0], [0, 1, 2]]⟩ =
    .ok [[5/12, 1/6], [7/9, 19/30], [0, 2/3]] := by decide +kernel

example : lhsNormalized ratArith .centered 2 3
    ⟨[[0, 1/2], [1/4, 9/10], [1/3, 0]], [[1, 2, 0], [0, 1, 2]]⟩ =
    .ok [[1/2, 1/6], [5/6, 1/2], [1/6, 5/6]] := by decide +kernel

end Examples

/-! ## C23 -/

variable {F : Type}

theorem mem_pdist {dist : List F → List F → F} {M : List (List F)} {x : F} :
    x ∈ pdist dist M ↔ x ∈ pairDists dist M := by
  induction M with
  | nil => simp [pdist, pairDists]
  | cons r rs ih =>
    rw [pdist, List.mem_append, ih]
    constructor
    · rintro (h | ⟨i, j, hij, a, b, ha, hb, rfl⟩)
      · obtain ⟨b, hb, rfl⟩ := List.mem_map.1 h
        obtain ⟨j, hj, rfl⟩ := List.getElem_of_mem hb
        exact ⟨0, j + 1, by omega, r, rs[j], rfl, by simp [hj], rfl⟩
      · exact ⟨i + 1, j + 1, by omega, a, b, by simpa using ha, by simpa using hb, rfl⟩
    · rintro ⟨i, j, hij, a, b, ha, hb, rfl⟩
      obtain ⟨j, rfl⟩ : ∃ j', j = j' + 1 := ⟨j - 1, by omega⟩
      rw [List.getElem?_cons_succ] at hb
      cases i with
      | zero =>
        rw [List.getElem?_cons_zero] at ha
        injection ha with ha
        subst ha
        exact Or.inl (List.mem_map.2 ⟨b, List.mem_of_getElem? hb, rfl⟩)
      | succ i =>
        rw [List.getElem?_cons_succ] at ha
        exact Or.inr ⟨i, j, by omega, a, b, ha, hb, rfl⟩

theorem foldl_min_spec [LinearOrder F] (xs : List F) (x : F) :
    (xs.foldl min x = x ∨ xs.foldl min x ∈ xs) ∧ xs.foldl min x ≤ x ∧
      ∀ y ∈ xs, xs.foldl min x ≤ y := by
  induction xs generalizing x with
  | nil => simp
  | cons z zs ih =>
    obtain ⟨h1, h2, h3⟩ := ih (min x z)
    simp only [List.foldl_cons]
    refine ⟨?_, h2.trans (min_le_left _ _), ?_⟩
    · rcases h1 with h1 | h1
      · rcases min_choice x z with h | h
        · exact Or.inl (h1.trans h)
        · exact Or.inr (by rw [h1, h]; simp)
      · exact Or.inr (by simp [h1])
    · intro y hy
      rcases List.mem_cons.1 hy with rfl | hy
      · exact h2.trans (min_le_right _ _)
      · exact h3 y hy

theorem foldl_max_spec [LinearOrder F] (xs : List F) (x : F) :
    (xs.foldl max x = x ∨ xs.foldl max x ∈ xs) ∧ x ≤ xs.foldl max x ∧
      ∀ y ∈ xs, y ≤ xs.foldl max x := by
  induction xs generalizing x with
  | nil => simp
  | cons z zs ih =>
    obtain ⟨h1, h2, h3⟩ := ih (max x z)
    simp only [List.foldl_cons]
    refine ⟨?_, (le_max_left _ _).trans h2, ?_⟩
    · rcases h1 with h1 | h1
      · rcases max_choice x z with h | h
        · exact Or.inl (h1.trans h)
        · exact Or.inr (by rw [h1, h]; simp)
      · exact Or.inr (by simp [h1])
    · intro y hy
      rcases List.mem_cons.1 hy with rfl | hy
      · exact (le_max_right _ _).trans h2
      · exact h3 y hy

theorem npMin_isLeast [LinearOrder F] {xs : List F} {m : F} (h : npMin xs = .ok m) :
    IsLeast { x | x ∈ xs } m := by
  cases xs with
  | nil => simp [npMin] at h
  | cons x xs =>
    simp only [npMin, Except.ok.injEq] at h
    subst h
    obtain ⟨h1, h2, h3⟩ := foldl_min_spec xs x
    refine ⟨by rcases h1 with h1 | h1 <;> simp [h1], ?_⟩
    intro y hy
    rcases List.mem_cons.1 hy with rfl | hy
    · exact h2
    · exact h3 y hy

theorem npMax_isGreatest [LinearOrder F] {xs : List F} {m : F} (h : npMax xs = .ok m) :
    IsGreatest { x | x ∈ xs } m := by
  cases xs with
  | nil => simp [npMax] at h
  | cons x xs =>
    simp only [npMax, Except.ok.injEq] at h
    subst h
    obtain ⟨h1, h2, h3⟩ := foldl_max_spec xs x
    refine ⟨by rcases h1 with h1 | h1 <;> simp [h1], ?_⟩
    intro y hy
    rcases List.mem_cons.1 hy with rfl | hy
    · exact h2
    · exact h3 y hy

theorem pdist_isLeast [LinearOrder F] {dist : List F → List F → F} {M : List (List F)} {m : F}
    (h : npMin (pdist dist M) = .ok m) : IsLeast (pairDists dist M) m := by
  have := npMin_isLeast h
  simpa only [mem_pdist, Set.ofPred_mem_eq] using this

theorem pdist_isGreatest [LinearOrder F] {dist : List F → List F → F} {M : List (List F)} {m : F}
    (h : npMax (pdist dist M) = .ok m) : IsGreatest (pairDists dist M) m := by
  have := npMax_isGreatest h
  simpa only [mem_pdist, Set.ofPred_mem_eq] using this

/-- **C23 (maximin).** For every arithmetic and every non-negative distance: the smallest pairwise
distance of the chosen design is at least that of every candidate drawn by the optimisation loop.

Missing: the design drawn before the loop is never compared (see the refutation below). -/
theorem C23_maximin_partial [LinearOrder F] (A : Arith F) (num : LhsNum F)
    (hpos : ∀ a b, A.ofInt 0 ≤ num.dist a b) (l : Lhs) (hl : l.criterion = .maximin)
    (nDim n : Nat) (hn : n ≠ 1) (first : LhsDraw F) (draws : List (LhsDraw F)) (M : List (List F))
    (h : l.choose A num nDim n first draws = .ok M) (d : LhsDraw F) (hd : d ∈ draws)
    (h' : List (List F)) (hh' : lhsNormalized A l.lhsType nDim n d = .ok h') (m m' : F)
    (hm : IsLeast (pairDists num.dist M) m) (hm' : IsLeast (pairDists num.dist h') m') :
    m' ≤ m := by
  unfold Lhs.choose at h
  rw [bind_eq_ok] at h
  obtain ⟨h0, hh0, h⟩ := h
  rw [if_neg (by rw [hl]; simp [hn]), hl] at h
  simp only [bind_eq_ok] at h
  obtain ⟨st, hst, h⟩ := h
  injection h with h
  have hP := lhsLoop_invariant (fun done (s : F × Option (List (List F))) =>
      (∀ d ∈ done, ∀ h' m', lhsNormalized A l.lhsType nDim n d = .ok h' →
        IsLeast (pairDists num.dist h') m' → m' ≤ s.1) ∧
      ((s.2 = none ∧ s.1 = A.ofInt 0) ∨ ∃ x, s.2 = some x ∧ IsLeast (pairDists num.dist x) s.1))
    (by
      intro done d x s s' hg hs ⟨h1, h2⟩
      rw [maximinStep, bind_eq_ok] at hs
      obtain ⟨mx, hmx, hs⟩ := hs
      have hL := pdist_isLeast hmx
      split at hs
      · next hlt =>
        injection hs with hs
        subst hs
        refine ⟨?_, Or.inr ⟨x, rfl, hL⟩⟩
        intro d' hd' h'' m'' hg' hm''
        rcases List.mem_append.1 hd' with hd' | hd'
        · exact (h1 d' hd' h'' m'' hg' hm'').trans hlt.le
        · rw [List.mem_singleton] at hd'
          subst hd'
          rw [hg] at hg'
          injection hg' with hg'
          subst hg'
          exact (hm''.unique hL).le
      · next hlt =>
        injection hs with hs
        subst hs
        refine ⟨?_, h2⟩
        intro d' hd' h'' m'' hg' hm''
        rcases List.mem_append.1 hd' with hd' | hd'
        · exact h1 d' hd' h'' m'' hg' hm''
        · rw [List.mem_singleton] at hd'
          subst hd'
          rw [hg] at hg'
          injection hg' with hg'
          subst hg'
          exact (hm''.unique hL).le.trans (not_lt.1 hlt))
    draws [] _ _ ⟨by simp, Or.inl ⟨rfl, rfl⟩⟩ hst
  have hle := hP.1 d (by simpa using hd) h' m' hh' hm'
  rcases hP.2 with ⟨h1, h2⟩ | ⟨x, h1, h2⟩
  · obtain ⟨i, j, _, a, b, _, _, e⟩ := hm.1
    rw [h2] at hle
    exact hle.trans (by rw [e]; exact hpos a b)
  · rw [h1] at h
    simp only [Option.getD_some] at h
    subst h
    rw [hm.unique h2]
    exact hle

/-- Euclidean distance in one dimension. -/
def dist1 (a b : List ℚ) : ℚ := |a.getD 0 0 - b.getD 0 0|

/-- Non-vacuity: two candidates with smallest distances 1/20 and 1/2; the second one is chosen.
Meets the hypotheses of `C23_maximin_partial`. -/
example : ({} : Lhs).choose ratArith ⟨dist1, id, 1/10^8⟩ 1 2 ⟨[[9/10], [0]], [[0, 1]]⟩
    [⟨[[9/10], [0]], [[0, 1]]⟩, ⟨[[0], [0]], [[1, 0]]⟩] = .ok [[1/2], [0]] := by
  decide +kernel

/-- **C23 is false if the design drawn first counts as a candidate**: with one iteration the code
draws two designs; the first one has the larger smallest distance (0.95 against 0.05), but the second
one is returned. -/
theorem C23_refuted_first_design_never_compared :
    lhsNormalized ratArith .classic 1 2 ⟨[[0], [9/10]], [[0, 1]]⟩ = .ok [[0], [19/20]] ∧
    ({} : Lhs).choose ratArith ⟨dist1, id, 1/10^8⟩ 1 2 ⟨[[0], [9/10]], [[0, 1]]⟩
      [⟨[[9/10], [0]], [[0, 1]]⟩] = .ok [[9/20], [1/2]] := by
  constructor <;> decide +kernel

/-- The score minimised by `ratio`: the largest distance divided by the smallest one (or by a tiny
constant if that is zero). -/
def IsRatio [LinearOrder F] (A : Arith F) (num : LhsNum F) (M : List (List F)) (r : F) : Prop :=
  ∃ lo hi, IsLeast (pairDists num.dist M) lo ∧ IsGreatest (pairDists num.dist M) hi ∧
    r = A.div hi (open Classical in if lo = A.ofInt 0 then num.tiny else lo)

theorem lhsRatio_spec [LinearOrder F] {A : Arith F} {num : LhsNum F} {M : List (List F)} {r : F}
    (h : lhsRatio A num M = .ok r) : IsRatio A num M r := by
  rw [lhsRatio] at h
  simp only [bind_eq_ok] at h
  obtain ⟨lo, hlo, hi, hhi, h⟩ := h
  refine ⟨lo, hi, pdist_isLeast hlo, pdist_isGreatest hhi, ?_⟩
  split at h
  · next h0 => injection h with h; rw [if_pos h0]; exact h.symm
  · next h0 => injection h with h; rw [if_neg h0]; exact h.symm

theorem IsRatio.unique [LinearOrder F] {A : Arith F} {num : LhsNum F} {M : List (List F)} {r r' : F}
    (h : IsRatio A num M r) (h' : IsRatio A num M r') : r = r' := by
  obtain ⟨lo, hi, h1, h2, rfl⟩ := h
  obtain ⟨lo', hi', h1', h2', rfl⟩ := h'
  rw [h1.unique h1', h2.unique h2']

/-- **C23 (ratio).** For every arithmetic: the score of the chosen design is at most that of every
candidate drawn by the optimisation loop.

Missing: the design drawn before the loop is never compared. -/
theorem C23_ratio_partial [LinearOrder F] (A : Arith F) (num : LhsNum F) (l : Lhs)
    (hl : l.criterion = .ratio) (nDim n : Nat) (hn : n ≠ 1) (first : LhsDraw F)
    (draws : List (LhsDraw F)) (M : List (List F))
    (h : l.choose A num nDim n first draws = .ok M) (d : LhsDraw F) (hd : d ∈ draws)
    (h' : List (List F)) (hh' : lhsNormalized A l.lhsType nDim n d = .ok h') (m m' : F)
    (hm : IsRatio A num M m) (hm' : IsRatio A num h' m') : m ≤ m' := by
  unfold Lhs.choose at h
  rw [bind_eq_ok] at h
  obtain ⟨h0, hh0, h⟩ := h
  rw [if_neg (by rw [hl]; simp [hn]), hl] at h
  simp only [bind_eq_ok] at h
  obtain ⟨st, hst, h⟩ := h
  injection h with h
  have hP := lhsLoop_invariant (fun done (s : Option F × Option (List (List F))) =>
      (s = (none, none) ∧ done = []) ∨ ∃ c x, s = (some c, some x) ∧ IsRatio A num x c ∧
        ∀ d ∈ done, ∀ h' m', lhsNormalized A l.lhsType nDim n d = .ok h' →
          IsRatio A num h' m' → c ≤ m')
    (by
      intro done d x s s' hg hs hP
      rw [ratioStep, bind_eq_ok] at hs
      obtain ⟨mx, hmx, hs⟩ := hs
      have hL := lhsRatio_spec hmx
      have hnew : ∀ c, c ≤ mx → ∀ d' h'' m'', d' = d →
          lhsNormalized A l.lhsType nDim n d' = .ok h'' → IsRatio A num h'' m'' → c ≤ m'' := by
        intro c hc d' h'' m'' hd' hg' hm''
        subst hd'
        rw [hg] at hg'
        injection hg' with hg'
        subst hg'
        exact hm''.unique hL ▸ hc
      split at hs
      · next hlt =>
        injection hs with hs
        subst hs
        refine Or.inr ⟨mx, x, rfl, hL, ?_⟩
        intro d' hd' h'' m'' hg' hm''
        rcases List.mem_append.1 hd' with hd' | hd'
        · rcases hP with ⟨_, hP⟩ | ⟨c, y, rfl, _, hP⟩
          · subst hP; simp at hd'
          · simp only [ltInf, decide_eq_true_eq] at hlt
            exact hlt.le.trans (hP d' hd' h'' m'' hg' hm'')
        · exact hnew mx le_rfl d' h'' m'' (List.mem_singleton.1 hd') hg' hm''
      · next hlt =>
        injection hs with hs
        subst hs
        rcases hP with ⟨rfl, _⟩ | ⟨c, y, rfl, hy, hP⟩
        · simp [ltInf] at hlt
        · simp only [ltInf, decide_eq_true_eq, not_lt] at hlt
          refine Or.inr ⟨c, y, rfl, hy, ?_⟩
          intro d' hd' h'' m'' hg' hm''
          rcases List.mem_append.1 hd' with hd' | hd'
          · exact hP d' hd' h'' m'' hg' hm''
          · exact hnew c hlt d' h'' m'' (List.mem_singleton.1 hd') hg' hm'')
    draws [] _ _ (Or.inl ⟨rfl, rfl⟩) hst
  rcases hP with ⟨_, hP⟩ | ⟨c, x, rfl, hx, hP⟩
  · simp only [List.nil_append] at hP; subst hP; simp at hd
  · simp only [Option.getD_some] at h
    subst h
    rw [hm.unique hx]
    exact hP d (by simpa using hd) h' m' hh' hm'

/-- Non-vacuity: three samples; the second candidate is perfectly even. -/
example : ({ criterion := .ratio } : Lhs).choose ratArith ⟨dist1, id, 1/10^8⟩ 1 3
    ⟨[[0], [0], [0]], [[0, 1, 2]]⟩
    [⟨[[9/10], [0], [0]], [[0, 1, 2]]⟩, ⟨[[1/2], [1/2], [1/2]], [[2, 1, 0]]⟩] =
      .ok [[5/6], [1/2], [1/6]] := by
  decide +kernel

/-- The correlation matrices of all candidates have a unit diagonal, are square, and no off-diagonal
entry is exactly 1. -/
def PlainCorr (r : List (List ℝ)) : Prop :=
  (∀ row ∈ r, row.length = r.length) ∧
  ∀ (i j : Nat) (row : List ℝ) (y : ℝ), r[i]? = some row → row[j]? = some y → (y = 1 ↔ i = j)

theorem absDiff_zero (y : ℝ) : absDiff exact y (exact.ofInt 0) = |y| := by
  have : absDiff exact y (exact.ofInt 0) = if y - 0 < 0 then 0 - (y - 0) else y - 0 := by
    simp [absDiff, exact]
  rw [this]
  split
  · next h => rw [abs_of_neg (by linarith)]; ring
  · next h => rw [abs_of_nonneg (by linarith)]; ring

theorem mem_absNotOne {r : List (List ℝ)} (hr : PlainCorr r) {x : ℝ} :
    x ∈ absNotOne exact r ↔ x ∈ offDiagonal r := by
  unfold absNotOne offDiagonal
  simp only [List.mem_map, List.mem_filter, List.mem_flatten, Set.mem_ofPred_eq]
  constructor
  · rintro ⟨y, ⟨⟨row, hrow, hy⟩, hne⟩, rfl⟩
    obtain ⟨i, hi, rfl⟩ := List.getElem_of_mem hrow
    obtain ⟨j, hj, rfl⟩ := List.getElem_of_mem hy
    refine ⟨i, j, ?_, _, _, List.getElem?_eq_getElem hi, List.getElem?_eq_getElem hj, ?_⟩
    · intro hij
      have := (hr.2 i j _ _ (List.getElem?_eq_getElem hi) (List.getElem?_eq_getElem hj)).2 hij
      simp [exact, this] at hne
    · exact absDiff_zero _
  · rintro ⟨i, j, hij, row, y, h1, h2, rfl⟩
    refine ⟨y, ⟨⟨row, List.mem_of_getElem? h1, List.mem_of_getElem? h2⟩, ?_⟩, ?_⟩
    · have := (hr.2 i j row y h1 h2).not.2 hij
      simpa [exact] using this
    · exact absDiff_zero _

theorem mem_absMinusEye {r : List (List ℝ)} (hr : PlainCorr r) {x : ℝ} :
    x ∈ absMinusEye exact r ↔ x ∈ offDiagonal r ∨ (x = 0 ∧ r ≠ []) := by
  unfold absMinusEye offDiagonal
  simp only [List.mem_flatten, List.mem_map, Set.mem_ofPred_eq]
  constructor
  · rintro ⟨l, ⟨⟨row, i⟩, hp, rfl⟩, hx⟩
    obtain ⟨⟨y, j⟩, hq, rfl⟩ := List.mem_map.1 hx
    have h1 := List.mem_zipIdx_iff_getElem?.1 hp
    have h2 := List.mem_zipIdx_iff_getElem?.1 hq
    simp only at h1 h2
    by_cases hij : i = j
    · refine Or.inr ⟨?_, ?_⟩
      · have := (hr.2 i j row y h1 h2).2 hij
        simp [hij, absDiff, exact, this]
      · rintro rfl; simp at h1
    · refine Or.inl ⟨i, j, hij, row, y, h1, h2, ?_⟩
      simp only [hij, if_false]
      exact absDiff_zero y
  · rintro (⟨i, j, hij, row, y, h1, h2, rfl⟩ | ⟨rfl, hne⟩)
    · refine ⟨_, ⟨(row, i), List.mem_zipIdx_iff_getElem?.2 h1, rfl⟩, ?_⟩
      refine List.mem_map.2 ⟨(y, j), List.mem_zipIdx_iff_getElem?.2 h2, ?_⟩
      simp only [hij, if_false]
      exact absDiff_zero y
    · cases r with
      | nil => exact absurd rfl hne
      | cons row rs =>
        have hlen := hr.1 row (by simp)
        cases row with
        | nil => simp at hlen
        | cons y ys =>
          have h1 : ((y :: ys) :: rs)[0]? = some (y :: ys) := rfl
          have h2 : (y :: ys)[0]? = some y := rfl
          have hy := (hr.2 0 0 _ y h1 h2).2 rfl
          refine ⟨_, ⟨(y :: ys, 0), List.mem_zipIdx_iff_getElem?.2 h1, rfl⟩, ?_⟩
          refine List.mem_map.2 ⟨(y, 0), List.mem_zipIdx_iff_getElem?.2 h2, ?_⟩
          simp [absDiff, exact, hy]

theorem maxEye_eq {r : List (List ℝ)} (hr : PlainCorr r) {m m' : ℝ}
    (h : npMax (absNotOne exact r) = .ok m) (h' : npMax (absMinusEye exact r) = .ok m') : m' = m := by
  have h1 := npMax_isGreatest h
  have h2 := npMax_isGreatest h'
  have hm0 : 0 ≤ m := by
    obtain ⟨_, _, _, _, y, _, _, e⟩ := (mem_absNotOne hr).1 h1.1
    rw [e]; exact abs_nonneg y
  refine le_antisymm ?_ (h2.2 ((mem_absMinusEye hr).2 (Or.inl ((mem_absNotOne hr).1 h1.1))))
  rcases (mem_absMinusEye hr).1 h2.1 with h3 | ⟨h3, _⟩
  · exact h1.2 ((mem_absNotOne hr).2 h3)
  · rw [h3]; exact hm0

/-- **C23 (correlation).** In exact arithmetic, if no candidate has two perfectly correlated columns:
the largest off-diagonal correlation of the chosen design is at most that of every candidate drawn by
the optimisation loop.

Missing: perfectly correlated columns (see the refutation) and the design drawn before the loop. -/
theorem C23_correlation_partial (num : LhsNum ℝ) (l : Lhs)
    (hl : l.criterion = .correlation) (nDim n : Nat) (hn : n ≠ 1) (first : LhsDraw ℝ)
    (draws : List (LhsDraw ℝ))
    (hplain : ∀ d ∈ draws, ∀ h', lhsNormalized exact l.lhsType nDim n d = .ok h' →
      PlainCorr (num.corrcoef h'))
    (M : List (List ℝ)) (h : l.choose exact num nDim n first draws = .ok M) (d : LhsDraw ℝ)
    (hd : d ∈ draws) (h' : List (List ℝ)) (hh' : lhsNormalized exact l.lhsType nDim n d = .ok h')
    (m m' : ℝ) (hm : IsGreatest (offDiagonal (num.corrcoef M)) m)
    (hm' : IsGreatest (offDiagonal (num.corrcoef h')) m') : m ≤ m' := by
  unfold Lhs.choose at h
  rw [bind_eq_ok] at h
  obtain ⟨h0, hh0, h⟩ := h
  rw [if_neg (by rw [hl]; simp [hn]), hl] at h
  simp only [bind_eq_ok] at h
  obtain ⟨st, hst, h⟩ := h
  injection h with h
  -- restrict the loop to draws from the list
  have hloop : ∀ (ds : List (LhsDraw ℝ)) (s s' : Option ℝ × Option (List (List ℝ))),
      (∀ d ∈ ds, d ∈ draws) → lhsLoop (lhsNormalized exact l.lhsType nDim n) (corrStep exact num) ds
        s = .ok s' →
      (s = (none, none) ∨ ∃ c x, s = (some c, some x) ∧
        IsGreatest (offDiagonal (num.corrcoef x)) c) →
      (∀ d ∈ ds, ∀ h' m', lhsNormalized exact l.lhsType nDim n d = .ok h' →
        IsGreatest (offDiagonal (num.corrcoef h')) m' → ∃ c x, s' = (some c, some x) ∧
          IsGreatest (offDiagonal (num.corrcoef x)) c ∧ c ≤ m') ∧
      (∀ c x, s = (some c, some x) → ∃ c' x', s' = (some c', some x') ∧
          IsGreatest (offDiagonal (num.corrcoef x')) c' ∧ c' ≤ c) := by
    intro ds
    induction ds with
    | nil =>
      intro s s' _ hs hst
      simp only [lhsLoop, Except.ok.injEq] at hs
      subst hs
      refine ⟨by simp, ?_⟩
      intro c x hcx
      rcases hst with rfl | ⟨c', x', rfl, hg⟩
      · simp at hcx
      · simp only [Prod.mk.injEq, Option.some.injEq] at hcx
        obtain ⟨rfl, rfl⟩ := hcx
        exact ⟨c', x', rfl, hg, le_rfl⟩
    | cons d ds ih =>
      intro s s' hmem hs hst
      rw [lhsLoop] at hs
      simp only [bind_eq_ok] at hs
      obtain ⟨x, hx, s1, hs1, hs⟩ := hs
      have hpl := hplain d (hmem d (by simp)) x hx
      simp only [corrStep] at hs1
      cases hmx : npMax (absNotOne exact (num.corrcoef x)) with
      | error e =>
        rw [hmx] at hs1
        simp only [Except.ok.injEq] at hs1
        subst hs1
        obtain ⟨i1, i2⟩ := ih s s' (fun d hd => hmem d (by simp [hd])) hs hst
        refine ⟨?_, i2⟩
        intro d' hd' h'' m'' hg' hm''
        rcases List.mem_cons.1 hd' with rfl | hd'
        · exfalso
          rw [hx] at hg'
          injection hg' with hg'
          subst hg'
          have := (mem_absNotOne hpl).2 hm''.1
          cases hc : absNotOne exact (num.corrcoef x) with
          | nil => rw [hc] at this; simp at this
          | cons a b => rw [hc] at hmx; simp [npMax] at hmx
        · exact i1 d' hd' h'' m'' hg' hm''
      | ok mx =>
        rw [hmx] at hs1
        have hgx : IsGreatest (offDiagonal (num.corrcoef x)) mx := by
          have := npMax_isGreatest hmx
          simpa only [mem_absNotOne hpl, Set.ofPred_mem_eq] using this
        simp only at hs1
        split at hs1
        · next hlt =>
          rw [bind_eq_ok] at hs1
          obtain ⟨mx', hmx', hs1⟩ := hs1
          injection hs1 with hs1
          subst hs1
          have he := maxEye_eq hpl hmx hmx'
          subst he
          obtain ⟨i1, i2⟩ := ih _ s' (fun d hd => hmem d (by simp [hd])) hs
            (Or.inr ⟨_, _, rfl, hgx⟩)
          obtain ⟨c', x', e1, e2, e3⟩ := i2 _ _ rfl
          refine ⟨?_, ?_⟩
          · intro d' hd' h'' m'' hg' hm''
            rcases List.mem_cons.1 hd' with rfl | hd'
            · rw [hx] at hg'
              injection hg' with hg'
              subst hg'
              exact ⟨c', x', e1, e2, hm''.unique hgx ▸ e3⟩
            · exact i1 d' hd' h'' m'' hg' hm''
          · intro c y hcy
            subst hcy
            simp only [ltInf, decide_eq_true_eq] at hlt
            exact ⟨c', x', e1, e2, e3.trans hlt.le⟩
        · next hlt =>
          injection hs1 with hs1
          subst hs1
          obtain ⟨i1, i2⟩ := ih s s' (fun d hd => hmem d (by simp [hd])) hs hst
          refine ⟨?_, i2⟩
          intro d' hd' h'' m'' hg' hm''
          rcases List.mem_cons.1 hd' with rfl | hd'
          · rw [hx] at hg'
            injection hg' with hg'
            subst hg'
            rcases hst with rfl | ⟨c, y, rfl, _⟩
            · simp [ltInf] at hlt
            · simp only [ltInf, decide_eq_true_eq, not_lt] at hlt
              obtain ⟨c', x', e1, e2, e3⟩ := i2 _ _ rfl
              exact ⟨c', x', e1, e2, e3.trans (hm''.unique hgx ▸ hlt)⟩
          · exact i1 d' hd' h'' m'' hg' hm''
  obtain ⟨c, x, e1, e2, e3⟩ := (hloop draws _ _ (fun _ h => h) hst (Or.inl rfl)).1 d hd h' m' hh' hm'
  subst e1
  simp only [Option.getD_some] at h
  subst h
  rw [hm.unique e2]
  exact e3

/-- The correlation matrix of a design whose columns all have the same variance (as those of every
centered Latin hypercube): covariance divided by the variance of the row's column. -/
def corrEqualVar (M : List (List ℚ)) : List (List ℚ) :=
  let n := M.length
  let cols := (List.range ((M.getD 0 []).length)).map fun j => M.map fun r => r.getD j 0
  let dev := cols.map fun c => c.map fun x => x - c.sum / n
  let dot := fun (a b : List ℚ) => (List.zipWith (· * ·) a b).sum
  dev.map fun a => dev.map fun b => dot a b / dot a a

/-- Non-vacuity and the code's weakness at once.  Two candidates for 4 samples in 3 dimensions
(centered): the first has largest off-diagonal correlation 2/5, the second has two identical columns
(correlation exactly 1). -/
def corrDraw1 : LhsDraw ℚ := ⟨[], [[0, 1, 2, 3], [2, 0, 3, 1], [0, 3, 2, 1]]⟩
/-- See `corrDraw1`. -/
def corrDraw2 : LhsDraw ℚ := ⟨[], [[0, 1, 2, 3], [0, 1, 2, 3], [2, 0, 3, 1]]⟩

/-- **C23 is false for `correlation`**: entries equal to 1 are left out of the comparison, so a design
with two identical columns replaces a design whose largest off-diagonal correlation is 0.4. -/
theorem C23_refuted_correlation :
    (∃ M₁ M₂, lhsNormalized ratArith .centered 3 4 corrDraw1 = .ok M₁ ∧
      lhsNormalized ratArith .centered 3 4 corrDraw2 = .ok M₂ ∧
      corrEqualVar M₁ = [[1, 0, 1/5], [0, 1, -2/5], [1/5, -2/5, 1]] ∧
      corrEqualVar M₂ = [[1, 1, 0], [1, 1, 0], [0, 0, 1]] ∧
      ({ lhsType := .centered, criterion := .correlation } : Lhs).choose ratArith
        ⟨dist1, corrEqualVar, 1/10^8⟩ 3 4 corrDraw1 [corrDraw1, corrDraw2] = .ok M₂) :=
  ⟨[[1/8, 5/8, 1/8], [3/8, 1/8, 7/8], [5/8, 7/8, 5/8], [7/8, 3/8, 3/8]],
    [[1/8, 1/8, 5/8], [3/8, 3/8, 1/8], [5/8, 5/8, 7/8], [7/8, 7/8, 3/8]],
    by decide +kernel, by decide +kernel, by decide +kernel, by decide +kernel, by decide +kernel⟩

/-- Two candidates without identical columns, with largest off-diagonal correlations 4/5 and 2/5: the second one is
chosen (`C23_correlation_partial`). -/
example : ({ lhsType := .centered, criterion := .correlation } : Lhs).choose ratArith ⟨dist1, corrEqualVar, 1/10^8⟩ 3 4
      corrDraw1 [⟨[], [[0, 1, 2, 3], [0, 1, 3, 2], [2, 0, 3, 1]]⟩, corrDraw1] = lhsNormalized ratArith .centered 3 4 corrDraw1 ∧
    (lhsNormalized ratArith .centered 3 4 ⟨[], [[0, 1, 2, 3], [0, 1, 3, 2], [2, 0, 3, 1]]⟩).map corrEqualVar =
      .ok [[1, 4/5, 0], [4/5, 1, 2/5], [0, 2/5, 1]] := by
  decide +kernel

end Skopt

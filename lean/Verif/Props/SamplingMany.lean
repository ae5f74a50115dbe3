import Verif.Props.Sampling
import Verif.Lemmas.Pointwise
import Verif.Props.Liveness

/-!
# C75: several samples of a space
-/

namespace Skopt

open MeasureTheory

/-- Several draws as the input of `Dim.rvs`. -/
noncomputable def rawsOf (us : List ℝ) : RawDraw ℝ := ⟨us, us.map fun u => ⌊u⌋₊⟩

theorem mapE_mapped {α β γ : Type} (f : α → β) (g : β → Except PyErr γ) (l : List α) :
    mapE g (l.map f) = mapE (fun x => g (f x)) l := by
  induction l with
  | nil => rfl
  | cons a l ih => simp only [List.map_cons, mapE, ih]

/-- The samples of a dimension are made one by one from the draws. -/
theorem Dim.rvs_pointwise (d : Dim ℝ) (hd : ValidDim exact d) :
    ∃ g : ℝ → Except PyErr (Val ℝ), ∀ us vs, Dim.rvs exact d (rawsOf us) = .ok vs ↔ mapE g us = .ok vs := by
  have inv : (∀ c, d = .cat c → c.transform ≠ .string) → ∃ g : ℝ → Except PyErr (Val ℝ), ∀ us vs,
      d.inverse exact (us.map fun x => [.num x]) = .ok vs ↔ mapE g us = .ok vs := by
    intro hs
    obtain ⟨g, hg⟩ := Dim.inverse_elementwise exact d hd hs
    refine ⟨fun u => g [.num u], fun us vs => ?_⟩
    rw [hg _ (by simp) vs, mapE_mapped]
  cases d with
  | real r => exact inv (fun c h => by cases h)
  | int r => exact inv (fun c h => by cases h)
  | cat c =>
    by_cases ht : c.transform = .normalize
    · obtain ⟨g, hg⟩ := inv (fun c' h => by cases h; rw [ht]; exact fun h => by cases h)
      refine ⟨g, fun us vs => ?_⟩
      rw [← hg us vs]
      simp only [Dim.rvs, ht, rawsOf]
    · refine ⟨fun u => pyGet c.cats ⌊u⌋₊, fun us vs => ?_⟩
      have : Dim.rvs exact (.cat c) (rawsOf us) = mapE (fun i => pyGet c.cats i) (us.map fun u => ⌊u⌋₊) := by
        unfold Dim.rvs
        cases h : c.transform <;> first | exact absurd h ht | simp only [h, rawsOf]
      rw [this, mapE_mapped]

/-- The probability that `k` samples of the space (`rvs(n_samples=k)`) have every coordinate among the given values –
`S j i` for coordinate `i` of sample `j` –, when all numbers behind the coordinates are drawn independently. -/
noncomputable def spaceChances (dims : List (Dim ℝ)) (k : Nat) (S : Fin k → Fin dims.length → Set (Val ℝ)) : ENNReal :=
  Measure.pi (fun i : Fin dims.length => Measure.pi fun _ : Fin k => (dims[i]).rawLaw)
    {u | ∃ P, Space.rvs exact dims (List.ofFn fun i => rawsOf (List.ofFn (u i))) = .ok P ∧ P.length = k ∧
      ∀ (j : Fin k) (p : Point ℝ), P[j.val]? = some p → p.length = dims.length ∧
        ∀ (i : Fin dims.length) v, p[i.val]? = some v → v ∈ S j i}

/-- **C75 (several samples).** `rvs(n_samples=k)` returns `k` independent samples with independent coordinates, each
coordinate with the distribution of a single sample of its dimension. -/
theorem C75_samples_independent (dims : List (Dim ℝ)) (hne : dims ≠ []) (hv : ∀ d ∈ dims, ValidDim exact d) (k : Nat)
    (S : Fin k → Fin dims.length → Set (Val ℝ)) :
    spaceChances dims k S = ∏ j, ∏ i, chance dims[i] (S j i) := by
  have hg : ∀ i : Fin dims.length, ∃ g : ℝ → Except PyErr (Val ℝ), ∀ us vs,
      Dim.rvs exact dims[i] (rawsOf us) = .ok vs ↔ mapE g us = .ok vs := fun i =>
    Dim.rvs_pointwise _ (hv _ (List.getElem_mem _))
  choose g hg using hg
  have hone : ∀ i u v, Dim.rvs exact dims[i] (rawOf u) = .ok [v] ↔ g i u = .ok v := by
    intro i u v
    have : rawOf u = rawsOf [u] := rfl
    rw [this, hg i [u] [v], mapE_eq_ok]
    simp
  unfold spaceChances
  rw [Finset.prod_comm]
  have hset : {u : Fin dims.length → Fin k → ℝ |
      ∃ P, Space.rvs exact dims (List.ofFn fun i => rawsOf (List.ofFn (u i))) = .ok P ∧ P.length = k ∧
        ∀ (j : Fin k) (p : Point ℝ), P[j.val]? = some p → p.length = dims.length ∧
          ∀ (i : Fin dims.length) v, p[i.val]? = some v → v ∈ S j i} =
      Set.univ.pi fun i => Set.univ.pi fun j => {x | ∃ v, Dim.rvs exact dims[i] (rawOf x) = .ok [v] ∧ v ∈ S j i} := by
    ext u
    simp only [Set.mem_univ_pi, Set.mem_ofPred_eq, hone]
    have hzip : dims.zip (List.ofFn fun i => rawsOf (List.ofFn (u i))) =
        List.ofFn fun i : Fin dims.length => (dims[i], rawsOf (List.ofFn (u i))) := by
      apply List.ext_getElem <;> simp
    have hcols : ∀ cols, mapE (fun p : Dim ℝ × RawDraw ℝ => Dim.rvs exact p.1 p.2)
          (dims.zip (List.ofFn fun i => rawsOf (List.ofFn (u i)))) = .ok cols ↔
        ColumnsOf (List.ofFn fun i (j : Fin k) => g i (u i j)) (List.finRange k) cols := by
      intro cols
      unfold ColumnsOf
      rw [hzip, mapE_eq_ok, List.forall₂_iff_get, List.forall₂_iff_get]
      simp only [List.length_ofFn, List.get_eq_getElem, List.getElem_ofFn]
      refine and_congr Iff.rfl (forall_congr' fun i => forall_congr' fun h1 => forall_congr' fun h2 => ?_)
      rw [hg ⟨i, h1⟩, List.ofFn_eq_map, mapE_mapped]
    have hnefn : (List.ofFn fun i (j : Fin k) => g i (u i j)) ≠ [] := by
      intro h
      exact hne (by simpa using congrArg List.length h)
    have hrow : ∀ rows : List (Point ℝ),
        mapE (fun x => mapE (fun h => h x) (List.ofFn fun i (j : Fin k) => g i (u i j))) (List.finRange k) = .ok rows ↔
        ∃ hl : rows.length = k, ∀ j : Fin k, ∃ hj : rows[j.val].length = dims.length,
          ∀ i : Fin dims.length, g i (u i j) = .ok rows[j.val][i.val] := by
      intro rows
      rw [mapE_eq_ok, List.forall₂_iff_get]
      simp only [List.length_finRange, List.get_eq_getElem, List.getElem_finRange, mapE_eq_ok, List.forall₂_iff_get,
        List.length_ofFn, List.getElem_ofFn]
      constructor
      · rintro ⟨h1, h2⟩
        refine ⟨h1.symm, fun j => ?_⟩
        obtain ⟨h3, h4⟩ := h2 j.val j.isLt (by omega)
        exact ⟨h3.symm, fun i => h4 i.val i.isLt (by omega)⟩
      · rintro ⟨h1, h2⟩
        refine ⟨h1.symm, fun j hj _ => ?_⟩
        obtain ⟨h3, h4⟩ := h2 ⟨j, hj⟩
        exact ⟨h3.symm, fun i hi _ => h4 ⟨i, hi⟩⟩
    constructor
    · rintro ⟨P, hP, hlen, hS⟩ i j
      unfold Space.rvs at hP
      obtain ⟨cols, hc, ht⟩ := bind_eq_ok.1 hP
      obtain ⟨rows, hr1, hr2⟩ := transpose_columnsOf hnefn ((hcols cols).1 hc)
      rw [ht] at hr1
      cases hr1
      obtain ⟨hl, h⟩ := (hrow P).1 hr2
      obtain ⟨hj, h⟩ := h j
      refine ⟨_, h i, ?_⟩
      exact (hS j _ (List.getElem?_eq_getElem _)).2 i _ (List.getElem?_eq_getElem _)
    · intro h
      choose v hv1 hv2 using h
      have hrows := (hrow (List.ofFn fun j : Fin k => List.ofFn fun i => v i j)).2
        ⟨by simp, fun j => ⟨by simp, fun i => by simp [hv1 i j]⟩⟩
      obtain ⟨cols, hcs⟩ := columnsOf_of_rows hrows
      obtain ⟨rows, hr1, hr2⟩ := transpose_columnsOf hnefn hcs
      rw [hrows] at hr2
      cases hr2
      refine ⟨List.ofFn fun j : Fin k => List.ofFn fun i => v i j, ?_, by simp, ?_⟩
      · unfold Space.rvs
        rw [(hcols cols).2 hcs, ok_bind, hr1]
      · intro j p hp
        simp only [List.getElem?_ofFn, Fin.is_lt, dif_pos, Option.some.injEq] at hp
        subst hp
        refine ⟨by simp, fun i w hw => ?_⟩
        simp only [List.getElem?_ofFn, Fin.is_lt, dif_pos, Option.some.injEq] at hw
        exact hw ▸ hv2 i j
  rw [hset, Measure.pi_pi]
  refine Finset.prod_congr rfl fun i _ => ?_
  rw [Measure.pi_pi]
  rfl

/-- Three samples of `Real(0, 10)`, all between 2 and 4: one chance in 125. -/
example : spaceChances [.real ⟨0, 10, .uniform, 10, .normalize, none, id⟩] 3 (fun _ _ => interval 2 4) =
    ENNReal.ofReal (1 / 5) ^ 3 := by
  rw [C75_samples_independent _ (by simp) (by simp [ValidDim]; exact fun x h1 h2 => ⟨h1, h2⟩)]
  have h := C75_real_uniform 0 10 10 (by norm_num) none id (fun _ => rfl) .normalize (.inl rfl) 2 4 (by norm_num)
    (by norm_num)
  rw [show ((4 : ℝ) - 2) / (10 - 0) = 1 / 5 by norm_num] at h
  rw [← h]
  simp

/-- **C05, completion.** If every distribution draws `n` values from its support – numbers from the unit interval for
normalized dimensions, positions of categories for the other `Categorical` ones –, `rvs(n_samples=n)` does return: `n`
points, all of them in the space. -/
theorem C05_rvs_returns (dims : List (Dim ℝ)) (hne : dims ≠ []) (hv : ∀ d ∈ dims, ValidDim exact d) (n : Nat)
    (raws : List (RawDraw ℝ)) (hn : ∀ r ∈ raws, r.nums.length = n ∧ r.idxs.length = n)
    (h : List.Forall₂ UsableDraw dims raws) :
    ∃ pts, Space.rvs exact dims raws = .ok pts ∧ pts.length = n ∧ ∀ p ∈ pts, InSpace exact dims p := by
  obtain ⟨pts, hp⟩ := Space.rvs_ok hne hv hn h
  exact ⟨pts, hp, C05_rvs_in_space exact exact_orderly dims hv n raws h.length_eq.symm hn pts hp⟩

/-- Two draws for a space with a Real, an Integer and a Categorical dimension. -/
example : ∃ pts, Space.rvs exact liveDims [⟨[3, 7], [0, 0]⟩, ⟨[1, 2], [0, 0]⟩, ⟨[0, 1], [1, 0]⟩] = .ok pts ∧
    pts.length = 2 ∧ ∀ p ∈ pts, InSpace exact liveDims p :=
  C05_rvs_returns liveDims liveDims_workable.nonempty liveDims_workable.valid 2 _ (by simp)
    (by simp [liveDims, UsableDraw, Dim.tkind])

end Skopt

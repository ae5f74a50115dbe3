import Verif.Props.Grid
import Verif.Lemmas.UnitCube

/-!
# C102 – full factorial designs
-/

namespace Skopt

theorem Grid.layout_unit {g : Grid} {d n : Nat} {L : List (List ℝ)} (hL : g.layout exact d n = .ok L) :
    ∀ r ∈ L, ∀ x ∈ r, 0 ≤ x ∧ x ≤ 1 := by
  unfold Grid.layout at hL
  split at hL
  · exact grid_entries_unit.2.1 hL
  · intro r hr x hx
    have := grid_entries_unit.1 hL r hr x hx
    exact ⟨this.1.le, this.2.le⟩
  · intro r hr x hx
    have := grid_entries_unit.1 hL r hr x hx
    exact ⟨this.1.le, this.2.le⟩
  · simp at hL

theorem Grid.extra_unit {g : Grid} {d m : Nat} {E : List (List ℝ)} (hE : g.extra exact d m = .ok E) :
    ∀ r ∈ E, ∀ x ∈ r, 0 ≤ x ∧ x ≤ 1 := by
  unfold Grid.extra at hE
  split at hE
  · exact grid_entries_unit.2.2 hE
  · exact grid_entries_unit.2.1 hE
  · intro r hr x hx
    have := grid_entries_unit.1 hE r hr x hx
    exact ⟨this.1.le, this.2.le⟩
  · simp at hE

/-- The points of a grid on uniform `Real` dimensions: the layout, cut off or extended. -/
theorem Grid.generate_cases {g : Grid} {ds : List (RealDim ℝ)} (hd : ∀ d ∈ ds, PlainReal d) (hne : ds ≠ [])
    {n : Nat} (hn : 0 < n) {perm : Nat → List Nat} (hp : ∀ k, (perm k).Perm (List.range k))
    {pts : List (Point ℝ)} (h : (g.generate exact (ds.map Dim.real) n perm).2 = .ok pts) :
    ∃ L M, g.layout exact ds.length n = .ok L ∧ pts = M.map (fun r => (cubePoint ds r).map Val.num) ∧
      (∀ r ∈ M, r.length = ds.length) ∧
      ((n ≤ L.length ∧ ∃ L' : List (List ℝ), L'.Perm L ∧ M = L'.take n) ∨
       (L.length < n ∧ ∃ E, g.extra exact ds.length (n - L.length) = .ok E ∧
          M.Perm (L ++ E.take (n - L.length)))) := by
  unfold Grid.generate at h
  rw [withNormalized_snd _ fun d hd' => by
      obtain ⟨d', h', rfl⟩ := List.mem_map.1 hd'
      exact (hd d' h').valid.legalTransform, bind_eq_ok] at h
  obtain ⟨M, hM, h⟩ := h
  rw [List.length_map] at hM
  obtain ⟨L, hL, hc⟩ := Grid.unit_cases hp hM
  have hMr : ∀ r ∈ M, r.length = ds.length ∧ ∀ x ∈ r, 0 ≤ x ∧ x ≤ 1 := by
    intro r hr
    rcases hc with ⟨-, L', e, rfl⟩ | ⟨-, E, hE, e⟩
    · have := e.mem_iff.1 (List.mem_of_mem_take hr)
      exact ⟨Grid.layout_width hL r this, Grid.layout_unit hL r this⟩
    · rcases List.mem_append.1 (e.mem_iff.1 hr) with hr' | hr'
      · exact ⟨Grid.layout_width hL r hr', Grid.layout_unit hL r hr'⟩
      · have := List.mem_of_mem_take hr'
        exact ⟨Grid.extra_width hE r this, Grid.extra_unit hE r this⟩
  have hM0 : M ≠ [] := by
    have hl : 0 < M.length := by
      rcases hc with ⟨h1, L', e, rfl⟩ | ⟨h1, E, hE, e⟩
      · rw [List.length_take, e.length_eq]; omega
      · have h2 : 0 < L.length := by
          unfold Grid.layout at hL
          have hpos : 0 < ds.length := List.length_pos_iff.2 hne
          split at hL
          · rw [(gridInclude_length hL).1]; exact Nat.pow_pos (by have := (gridInclude_length hL).2.1; omega)
          · rw [(gridExclude_length hL).1]; exact Nat.pow_pos (by have := (gridExclude_length hL).2.1; omega)
          · rw [(gridExclude_length hL).1]; exact Nat.pow_pos (by have := (gridExclude_length hL).2.1; omega)
          · simp at hL
        rw [e.length_eq, List.length_append]; omega
    exact List.length_pos_iff.1 hl
  rw [inverse_cube hne hd hM0 (fun r hr => (hMr r hr).1) fun r hr => (hMr r hr).2] at h
  injection h with h
  exact ⟨L, M, hL, h.symm, fun r hr => (hMr r hr).1, hc⟩

/-- **C102.** In two dimensions with `use_full_layout=True` every point of the full factorial design with
`⌊√n⌋` values per dimension is evaluated: the values split the dimension into `⌊√n⌋ + 1` equal parts
(`border='exclude'`, the default).  Partial: two dimensions (see `C102_refuted_three_dimensions`). -/
theorem C102_full_layout_exclude_partial (d₁ d₂ : RealDim ℝ) (h₁ : PlainReal d₁) (h₂ : PlainReal d₂) (ap : Border)
    (n : Nat) (hn : 0 < n) (perm : Nat → List Nat) (hp : ∀ k, (perm k).Perm (List.range k))
    (pts : List (Point ℝ))
    (h : (({ border := .exclude, useFullLayout := true, appendBorder := ap } : Grid).generate exact
      [.real d₁, .real d₂] n perm).2 = .ok pts) (i j : Nat) (hi : 1 ≤ i ∧ i ≤ Nat.sqrt n)
    (hj : 1 ≤ j ∧ j ≤ Nat.sqrt n) :
    [.num (d₁.low + i * ((d₁.high - d₁.low) / (Nat.sqrt n + 1))),
      .num (d₂.low + j * ((d₂.high - d₂.low) / (Nat.sqrt n + 1)))] ∈ pts := by
  obtain ⟨L, M, hL, rfl, -, hc⟩ := Grid.generate_cases (ds := [d₁, d₂]) (by simp [h₁, h₂]) (by simp) hn hp h
  have hs : 1 ≤ Nat.sqrt n := le_trans hi.1 hi.2
  have hL' : gridExclude exact 2 (Nat.sqrt n) = .ok L := by
    rw [← hL]
    simp [Grid.layout, max_eq_right hs]
  have hin : [(i : ℝ) / ((Nat.sqrt n : ℝ) + 1), (j : ℝ) / ((Nat.sqrt n : ℝ) + 1)] ∈ M := by
    have hl : [(i : ℝ) / ((Nat.sqrt n : ℝ) + 1), (j : ℝ) / ((Nat.sqrt n : ℝ) + 1)] ∈ L := by
      refine ((C28_exclude_border _ _ _ hL').2.1 _).2 ⟨rfl, ?_⟩
      intro x hx
      simp only [List.mem_cons, List.not_mem_nil, or_false] at hx
      rcases hx with rfl | rfl
      · exact ⟨i, hi.1, hi.2, rfl⟩
      · exact ⟨j, hj.1, hj.2, rfl⟩
    rcases hc with ⟨h1, L', e, rfl⟩ | ⟨h1, E, hE, e⟩
    · rw [List.take_of_length_le]
      · exact e.mem_iff.2 hl
      · rw [e.length_eq, (gridExclude_length hL').1, pow_two]
        exact Nat.sqrt_le n
    · exact e.mem_iff.2 (List.mem_append_left _ hl)
  refine List.mem_map.2 ⟨_, hin, ?_⟩
  simp only [cubePoint, List.zipWith_cons_cons, List.zipWith_nil_left, List.map_cons, List.map_nil]
  have e : ∀ (k : Nat) (d : RealDim ℝ), (k : ℝ) / ((Nat.sqrt n : ℝ) + 1) * (d.high - d.low) + d.low
      = d.low + k * ((d.high - d.low) / ((Nat.sqrt n : ℝ) + 1)) := fun k d => by ring
  rw [e, e]

/-- **C102 (border included).** The same with `border='include'` and at least four points: the values reach from the
lower to the upper bound.  Partial: two dimensions. -/
theorem C102_full_layout_include_partial (d₁ d₂ : RealDim ℝ) (h₁ : PlainReal d₁) (h₂ : PlainReal d₂) (ap : Border)
    (n : Nat) (hn : 4 ≤ n) (perm : Nat → List Nat) (hp : ∀ k, (perm k).Perm (List.range k))
    (pts : List (Point ℝ))
    (h : (({ border := .include_, useFullLayout := true, appendBorder := ap } : Grid).generate exact
      [.real d₁, .real d₂] n perm).2 = .ok pts) (i j : Nat) (hi : i < Nat.sqrt n) (hj : j < Nat.sqrt n) :
    [.num (d₁.low + i * ((d₁.high - d₁.low) / (Nat.sqrt n - 1))),
      .num (d₂.low + j * ((d₂.high - d₂.low) / (Nat.sqrt n - 1)))] ∈ pts := by
  obtain ⟨L, M, hL, rfl, -, hc⟩ := Grid.generate_cases (ds := [d₁, d₂]) (by simp [h₁, h₂]) (by simp) (by omega) hp h
  have hs : 2 ≤ Nat.sqrt n := Nat.le_sqrt.2 (by omega)
  have hL' : gridInclude exact 2 (Nat.sqrt n) = .ok L := by
    rw [← hL]
    simp [Grid.layout, max_eq_right hs]
  have hin : [(i : ℝ) / ((Nat.sqrt n : ℝ) - 1), (j : ℝ) / ((Nat.sqrt n : ℝ) - 1)] ∈ M := by
    have hl : [(i : ℝ) / ((Nat.sqrt n : ℝ) - 1), (j : ℝ) / ((Nat.sqrt n : ℝ) - 1)] ∈ L := by
      refine ((C28_include_border _ _ _ hL').2.1 _).2 ⟨rfl, ?_⟩
      intro x hx
      simp only [List.mem_cons, List.not_mem_nil, or_false] at hx
      rcases hx with rfl | rfl
      · exact ⟨i, hi, rfl⟩
      · exact ⟨j, hj, rfl⟩
    rcases hc with ⟨h1, L', e, rfl⟩ | ⟨h1, E, hE, e⟩
    · rw [List.take_of_length_le]
      · exact e.mem_iff.2 hl
      · rw [e.length_eq, (gridInclude_length hL').1, pow_two]
        exact Nat.sqrt_le n
    · exact e.mem_iff.2 (List.mem_append_left _ hl)
  refine List.mem_map.2 ⟨_, hin, ?_⟩
  simp only [cubePoint, List.zipWith_cons_cons, List.zipWith_nil_left, List.map_cons, List.map_nil]
  have e : ∀ (k : Nat) (d : RealDim ℝ), (k : ℝ) / ((Nat.sqrt n : ℝ) - 1) * (d.high - d.low) + d.low
      = d.low + k * ((d.high - d.low) / ((Nat.sqrt n : ℝ) - 1)) := fun k d => by ring
  rw [e, e]

theorem ceilSqrt_pos {n : Nat} (hn : 0 < n) : 1 ≤ ceilSqrt n := by
  have h1 := le_ceilSqrt_sq n
  by_contra h
  have h0 : ceilSqrt n = 0 := by omega
  rw [h0] at h1
  omega

theorem cubePoint_injOn {ds : List (RealDim ℝ)} (hd : ∀ d ∈ ds, PlainReal d) {r s : List ℝ}
    (hr : r.length = ds.length) (hs : s.length = ds.length) (h : cubePoint ds r = cubePoint ds s) : r = s := by
  induction ds generalizing r s with
  | nil => rw [List.length_eq_zero_iff.1 hr, List.length_eq_zero_iff.1 hs]
  | cons d ds ih =>
    cases r with
    | nil => simp at hr
    | cons a r =>
      cases s with
      | nil => simp at hs
      | cons b s =>
        simp only [cubePoint, List.zipWith_cons_cons, List.cons.injEq] at h
        have hpos : d.high - d.low ≠ 0 := sub_ne_zero.2 (hd d (by simp)).1.ne'
        have h1 : a = b := by
          have := add_right_cancel h.1
          exact mul_right_cancel₀ hpos this
        rw [h1, ih (fun x hx => hd x (by simp [hx])) (by simpa using hr) (by simpa using hs) h.2]

theorem nodup_points {ds : List (RealDim ℝ)} (hd : ∀ d ∈ ds, PlainReal d) {M : List (List ℝ)}
    (hl : ∀ r ∈ M, r.length = ds.length) (h : M.Nodup) :
    (M.map fun r => (cubePoint ds r).map (Val.num : ℝ → Val ℝ)).Nodup := by
  refine h.map_on ?_
  intro r hr s hs e
  refine cubePoint_injOn hd (hl r hr) (hl s hs) ?_
  refine List.map_injective_iff.2 ?_ e
  intro a b e
  injection e

theorem ceilSqrt_le {n k : Nat} (h : n ≤ k ^ 2) : ceilSqrt n ≤ k := by
  have h1 := Nat.sqrt_le n
  unfold ceilSqrt
  split
  · next e => nlinarith
  · next e =>
    have : Nat.sqrt n < k := by
      by_contra hk
      exact e (le_antisymm h1 (by nlinarith))
    omega

theorem cube_forall₂ {P : ℝ → Prop} {Q : RealDim ℝ → Val ℝ → Prop}
    (hQ : ∀ d x, P x → Q d (.num (x * (d.high - d.low) + d.low))) :
    ∀ (ds : List (RealDim ℝ)) (r : List ℝ), r.length = ds.length → (∀ x ∈ r, P x) →
      List.Forall₂ Q ds ((cubePoint ds r).map Val.num)
  | [], r, hr, _ => by rw [List.length_eq_zero_iff.1 hr]; exact .nil
  | d :: ds, [], hr, _ => by simp at hr
  | d :: ds, x :: r, hr, hP =>
    .cons (hQ d x (hP x (by simp))) (cube_forall₂ hQ ds r (by simpa using hr) fun y hy => hP y (by simp [hy]))

/-- **C102 (next larger design).** With `use_full_layout=False` and two or more dimensions the points are distinct
points of one full factorial design: with `m = ⌈√n⌉` values per dimension without the border, or `max 2 m` values
with it. -/
theorem C102_larger_layout (ds : List (RealDim ℝ)) (hd : ∀ d ∈ ds, PlainReal d) (h2 : 2 ≤ ds.length)
    (b : Border) (hb : b = .exclude ∨ b = .include_) (ap : Border) (n : Nat) (hn : 0 < n)
    (perm : Nat → List Nat) (hp : ∀ k, (perm k).Perm (List.range k)) (pts : List (Point ℝ))
    (h : (({ border := b, useFullLayout := false, appendBorder := ap } : Grid).generate exact
      (ds.map Dim.real) n perm).2 = .ok pts) :
    pts.Nodup ∧ pts.length = n ∧ ∃ m : Nat, n ≤ m ^ 2 ∧ (∀ k : Nat, n ≤ k ^ 2 → 2 ≤ k → m ≤ k) ∧
      ∀ p ∈ pts, List.Forall₂ (fun d v => ∃ i : Nat, if b = .exclude
        then 1 ≤ i ∧ i ≤ m ∧ v = .num (d.low + i * ((d.high - d.low) / (m + 1)))
        else i < m ∧ v = .num (d.low + i * ((d.high - d.low) / (m - 1)))) ds p := by
  obtain ⟨L, M, hL, rfl, hw, hc⟩ := Grid.generate_cases hd (by rintro rfl; simp at h2) hn hp h
  rcases hb with rfl | rfl
  · have hL' : gridExclude exact ds.length (ceilSqrt n) = .ok L := by
      rw [← hL]
      simp [Grid.layout, max_eq_right (ceilSqrt_pos hn)]
    have hlen : n ≤ L.length := by
      rw [(gridExclude_length hL').1]
      exact le_pow_of_sq h2 (ceilSqrt_pos hn) (le_ceilSqrt_sq n)
    obtain ⟨hnd, hmem, -⟩ := C28_exclude_border _ _ _ hL'
    rcases hc with ⟨h1, L', e, rfl⟩ | ⟨h1, -⟩
    swap
    · omega
    refine ⟨nodup_points hd hw ((e.nodup_iff.2 hnd).sublist (List.take_sublist _ _)), ?_, ceilSqrt n,
      by rw [pow_two]; exact le_ceilSqrt_sq n, fun k hk _ => ceilSqrt_le hk, ?_⟩
    · rw [List.length_map, List.length_take, e.length_eq]; omega
    · intro p hp
      obtain ⟨r, hr, rfl⟩ := List.mem_map.1 hp
      refine cube_forall₂ (P := fun x => ∃ i : Nat, 1 ≤ i ∧ i ≤ ceilSqrt n ∧ x = (i : ℝ) / ((ceilSqrt n : ℝ) + 1))
        ?_ ds r (hw r hr) ((hmem r).1 (e.mem_iff.1 (List.mem_of_mem_take hr))).2
      rintro d x ⟨i, i1, i2, rfl⟩
      refine ⟨i, ?_⟩
      rw [if_pos rfl]
      refine ⟨i1, i2, ?_⟩
      congr 1
      ring
  · have hL' : gridInclude exact ds.length (max 2 (ceilSqrt n)) = .ok L := by
      rw [← hL]
      simp [Grid.layout]
    have hlen : n ≤ L.length := by
      rw [(gridInclude_length hL').1]
      refine le_pow_of_sq h2 (by omega) ((le_ceilSqrt_sq n).trans ?_)
      exact Nat.mul_le_mul (le_max_right _ _) (le_max_right _ _)
    obtain ⟨hnd, hmem, -⟩ := C28_include_border _ _ _ hL'
    rcases hc with ⟨h1, L', e, rfl⟩ | ⟨h1, -⟩
    swap
    · omega
    refine ⟨nodup_points hd hw ((e.nodup_iff.2 hnd).sublist (List.take_sublist _ _)), ?_, max 2 (ceilSqrt n),
      ?_, fun k hk hk2 => max_le hk2 (ceilSqrt_le hk), ?_⟩
    · rw [List.length_map, List.length_take, e.length_eq]; omega
    · rw [pow_two]
      exact (le_ceilSqrt_sq n).trans (Nat.mul_le_mul (le_max_right _ _) (le_max_right _ _))
    · intro p hp
      obtain ⟨r, hr, rfl⟩ := List.mem_map.1 hp
      refine cube_forall₂ (P := fun x => ∃ i : Nat, i < max 2 (ceilSqrt n) ∧
        x = (i : ℝ) / (((max 2 (ceilSqrt n) : Nat) : ℝ) - 1))
        ?_ ds r (hw r hr) ((hmem r).1 (e.mem_iff.1 (List.mem_of_mem_take hr))).2
      rintro d x ⟨i, i1, rfl⟩
      refine ⟨i, ?_⟩
      rw [if_neg (by decide)]
      refine ⟨i1, ?_⟩
      congr 1
      ring

theorem gridOnly_nodup {d m : Nat} {h : List (List ℝ)} (hh : gridOnly exact d m = .ok h) : h.Nodup := by
  have hm := (gridOnly_length hh).2.1
  have hm' : (2 : ℝ) ≤ m := by exact_mod_cast hm
  have hpos : (m : ℝ) - 1 ≠ 0 := by intro h0; linarith
  unfold gridOnly at hh
  split at hh
  · simp at hh
  · refine (quadratureCombine_spec hh).2.2 ?_
    intro a ha
    rcases List.mem_append.1 ha with ha | ha
    · rw [List.eq_of_mem_replicate ha]
      simp [exact]
    · rw [List.mem_singleton.1 ha]
      refine List.nodup_range.map ?_
      intro i j hij
      simp only [exact] at hij
      push_cast at hij
      rw [div_left_inj' hpos] at hij
      exact_mod_cast hij

/-- **C102 (no point twice).** The default grid (`border='exclude'`, the missing points from the border) has no
repeated point in two or more dimensions. -/
theorem C102_distinct_partial (ds : List (RealDim ℝ)) (hd : ∀ d ∈ ds, PlainReal d) (h2 : 2 ≤ ds.length)
    (n : Nat) (hn : 0 < n) (perm : Nat → List Nat) (hp : ∀ k, (perm k).Perm (List.range k)) (pts : List (Point ℝ))
    (h : (({} : Grid).generate exact (ds.map Dim.real) n perm).2 = .ok pts) : pts.Nodup := by
  obtain ⟨L, M, hL, rfl, hw, hc⟩ := Grid.generate_cases hd (by rintro rfl; simp at h2) hn hp h
  have hL' : gridExclude exact ds.length (max 1 (Nat.sqrt n)) = .ok L := by
    rw [← hL]
    simp [Grid.layout]
  obtain ⟨hnd, -, hin⟩ := C28_exclude_border _ _ _ hL'
  refine nodup_points hd hw ?_
  rcases hc with ⟨h1, L', e, rfl⟩ | ⟨h1, E, hE, e⟩
  · exact (e.nodup_iff.2 hnd).sublist (List.take_sublist _ _)
  · have hE' : gridOnly exact ds.length (max 2 ((n - L.length + 1) / 2)) = .ok E := by
      rw [← hE]
      simp [Grid.extra]
    refine e.nodup_iff.2 (List.nodup_append'.2 ⟨hnd, (gridOnly_nodup hE').sublist (List.take_sublist _ _), ?_⟩)
    intro r hr hr'
    obtain ⟨x, hx, h0⟩ := C28_only_border_partial exact _ _ h2 _ hE' r (List.mem_of_mem_take hr')
    have := hin r hr x hx
    simp only [exact, Int.cast_zero, Int.cast_one] at h0
    rcases h0 with rfl | rfl
    · exact lt_irrefl _ this.1
    · exact lt_irrefl _ this.2

/-- `Real(-5, 10)` and `Real(0, 15)`, seven points: every border setting returns.
Meets the hypotheses of `C102_full_layout_exclude_partial`, `C102_full_layout_include_partial`,
`C102_larger_layout`. -/
theorem sevenGrid (b : Border) (hb : b ≠ .other) (full : Bool) :
    (∀ d ∈ ([⟨-5, 10, .uniform, 10, .identity, none, id⟩, ⟨0, 15, .uniform, 10, .identity, none, id⟩] :
      List (RealDim ℝ)), PlainReal d) ∧
    ∃ pts, (({ border := b, useFullLayout := full } : Grid).generate exact
      ([⟨-5, 10, .uniform, 10, .identity, none, id⟩, ⟨0, 15, .uniform, 10, .identity, none, id⟩].map Dim.real) 7
        List.range).2 = .ok pts := by
  have hd : ∀ d ∈ ([⟨-5, 10, .uniform, 10, .identity, none, id⟩, ⟨0, 15, .uniform, 10, .identity, none, id⟩] :
      List (RealDim ℝ)), PlainReal d := by
    intro d hd
    rcases List.mem_cons.1 hd with rfl | hd
    · exact ⟨by norm_num, rfl, rfl, Or.inl rfl⟩
    · rw [List.mem_singleton.1 hd]
      exact ⟨by norm_num, rfl, rfl, Or.inl rfl⟩
  have hs : Nat.sqrt 7 = 2 := by decide +kernel
  have hc : ceilSqrt 7 = 3 := by decide +kernel
  have hL : ∃ L, ({ border := b, useFullLayout := full } : Grid).layout exact 2 7 = .ok L := by
    have h2 := C28_layouts_exist exact 2 2
    have h3 := C28_layouts_exist exact 2 3
    have h4 := C28_layouts_exist exact 2 4
    cases b <;> cases full <;> simp only [Grid.layout, hs, hc, Bool.false_eq_true, if_false, if_true]
    all_goals first
      | exact absurd rfl hb
      | exact (h3.2.1 (by norm_num) (by norm_num) (by norm_num)).1
      | exact (h2.2.1 (by norm_num) (by norm_num) (by norm_num)).1
      | exact h3.1 (by norm_num) (by norm_num) (by norm_num)
      | exact h2.1 (by norm_num) (by norm_num) (by norm_num)
      | exact h4.1 (by norm_num) (by norm_num) (by norm_num)
  obtain ⟨L, hL⟩ := hL
  obtain ⟨pts, h, -⟩ := C27_grid_succeeds { border := b, useFullLayout := full }
    ([⟨-5, 10, .uniform, 10, .identity, none, id⟩, ⟨0, 15, .uniform, 10, .identity, none, id⟩].map Dim.real)
    (fun d h => by
    obtain ⟨d', h', rfl⟩ := List.mem_map.1 h
    exact (hd d' h').valid) (by simp) 7 (by norm_num) List.range (fun _ => .refl _) L hL fun hlt => by
      have hm : max 2 ((7 - L.length + 1) / 2) ≤ 4 := by omega
      refine ((C28_layouts_exist exact 2 _).2.1 (by norm_num) (le_max_left _ _) ?_).2
      calc max 2 ((7 - L.length + 1) / 2) ^ 2 * 2 ≤ 4 ^ 2 * 2 := by gcongr
        _ ≤ 10 ^ 9 := by norm_num
  exact ⟨hd, pts, h⟩

/-- The default settings return.  Meets the hypotheses of `C102_full_layout_exclude_partial`. -/
example := sevenGrid .exclude (by simp) true

/-- Three `Real(0, 1)` dimensions.  (space.py:196-282) -/
def threeUnit : List (Dim ℚ) := List.replicate 3 (.real ⟨0, 1, .uniform, 10, .identity, none, id⟩)

/-- **C102 refuted.** In three dimensions `use_full_layout=True` does not give a full factorial design: for nine
points the code takes `⌊√9⌋ = 3` values per dimension, hence 27 points, and keeps nine random ones (grid.py:124-146).
For some shuffle all nine have the same first coordinate, although a full design with 2·2·2 points fits. -/
theorem C102_refuted_three_dimensions :
    (({} : Grid).generate ratArith threeUnit 9 List.range).2 = .ok
      [[.num (1/4), .num (1/4), .num (1/4)], [.num (1/4), .num (1/4), .num (1/2)],
       [.num (1/4), .num (1/4), .num (3/4)], [.num (1/4), .num (1/2), .num (1/4)],
       [.num (1/4), .num (1/2), .num (1/2)], [.num (1/4), .num (1/2), .num (3/4)],
       [.num (1/4), .num (3/4), .num (1/4)], [.num (1/4), .num (3/4), .num (1/2)],
       [.num (1/4), .num (3/4), .num (3/4)]] := by
  decide +kernel

/-- **C102 refuted.** With `border='include'` the missing points come from the border again (grid.py:148-163): for
five points in two dimensions one corner is evaluated twice. -/
theorem C102_refuted_distinct :
    (({ border := .include_ } : Grid).generate ratArith (threeUnit.take 2) 5 List.range).2 = .ok
      [[.num 0, .num 0], [.num 0, .num 1], [.num 1, .num 0], [.num 1, .num 1], [.num 0, .num 0]] := by
  decide +kernel

end Skopt

import Verif.Props.LhsAdditive
import Verif.Props.Sampling
import Verif.Props.Pointwise

/-!
# What stratified columns of the unit cube become in dimensions with finitely many values
-/

namespace Skopt

/-! ## Single coordinates of decoded points -/

theorem inverseCols_single : ∀ (dims : List (Dim ℝ)) (pre r : List ℝ) (cols : List (List (Val ℝ))),
    Space.inverseCols exact (dims.map Dim.normalized) pre.length [(pre ++ r).map Val.num] = .ok cols →
    List.Forall₂ (fun (d : Dim ℝ) c => ∃ u, d.normalized.inverse exact [[.num u]] = .ok c) dims cols ∧
    ∀ (j : Nat) (d : Dim ℝ) (u : ℝ) (c : List (Val ℝ)), dims[j]? = some d → r[j]? = some u → cols[j]? = some c →
      d.normalized.inverse exact [[.num u]] = .ok c
  | [], pre, r, cols, h => by
      simp only [List.map_nil, Space.inverseCols, Except.ok.injEq] at h
      subst h
      exact ⟨.nil, by simp⟩
  | d :: ds, pre, r, cols, h => by
      have e : Space.inverseCols exact ((d :: ds).map Dim.normalized) pre.length [(pre ++ r).map Val.num] = (do
          let b ← Space.block pre.length 1 [(pre ++ r).map Val.num]
          let c ← d.normalized.inverse exact b
          let cs ← Space.inverseCols exact (ds.map Dim.normalized) (pre.length + 1) [(pre ++ r).map Val.num]
          .ok (c :: cs)) := by
        simp only [List.map_cons, Space.inverseCols, transformedSize_normalized]
      rw [e] at h
      cases r with
      | nil =>
        have hb : ∃ e, Space.block (F := ℝ) pre.length 1 [(pre ++ []).map Val.num] = .error e := by
          refine ⟨.indexError, ?_⟩
          unfold Space.block
          rw [if_pos rfl]
          have hg : pyGet ((pre ++ []).map (Val.num : ℝ → Val ℝ)) pre.length = .error .indexError := by
            simp [pyGet]
          simp only [mapE, hg]
          rfl
        obtain ⟨e, hb⟩ := hb
        rw [hb] at h
        cases h
      | cons u r =>
        have hb : Space.block (F := ℝ) pre.length 1 [(pre ++ u :: r).map Val.num] = .ok [[.num u]] := by
          have hg : pyGet ((pre ++ u :: r).map (Val.num : ℝ → Val ℝ)) pre.length = .ok (.num u) := by
            rw [pyGet_lt (by simp)]
            simp
          unfold Space.block
          rw [if_pos rfl]
          simp only [mapE, hg, ok_bind]
        rw [hb, ok_bind, bind_eq_ok] at h
        obtain ⟨c, hc, h⟩ := h
        rw [bind_eq_ok] at h
        obtain ⟨cs, hcs, h⟩ := h
        injection h with h
        subst h
        have hpre : pre ++ u :: r = (pre ++ [u]) ++ r := by simp
        rw [hpre] at hcs
        obtain ⟨ih1, ih2⟩ := inverseCols_single ds (pre ++ [u]) r cs (by simpa using hcs)
        refine ⟨.cons ⟨u, hc⟩ ih1, ?_⟩
        intro j d' u' c' h1 h2 h3
        cases j with
        | zero =>
          simp only [List.getElem?_cons_zero, Option.some.injEq] at h1 h2 h3
          subst h1 h2 h3
          exact hc
        | succ j =>
          simp only [List.getElem?_cons_succ] at h1 h2 h3
          exact ih2 j d' u' c' h1 h2 h3

theorem inverse_single_length {d : Dim ℝ} {u : ℝ} {c : List (Val ℝ)} (hv : ValidDim exact d)
    (h : d.normalized.inverse exact [[.num u]] = .ok c) : ∃ v, c = [v] := by
  have hr := C01_inverse_transform_in_space_partial exact exact_orderly [d.normalized] (by
      intro d' hd'
      rw [List.mem_singleton.1 hd']
      exact hv.normalized) (by
      intro d' hd'
      rw [List.mem_singleton.1 hd']
      exact decoding_normalized d) [[.num u]]
  have e : Space.inverseCols exact [d.normalized] 0 [[.num u]] = .ok [c] := by
    simp only [Space.inverseCols, transformedSize_normalized, Space.block, if_true, mapE, pyGet, List.getElem?_cons_zero,
      ok_bind, h]
  cases c with
  | nil =>
    have := hr [] (by
      unfold Space.inverseTransform
      rw [e, ok_bind]
      rfl)
    simp at this
  | cons v vs =>
    have ht : Space.inverseTransform exact [d.normalized] [[.num u]] = .ok ((v :: vs).map fun v => [v]) := by
      unfold Space.inverseTransform
      rw [e, ok_bind]
      simp only [List.isEmpty_cons, Bool.false_and, Bool.false_eq_true, if_false]
      unfold transposeListArray
      generalize hw : v :: vs = ws
      have : mapE (fun i => mapE (fun col => pyGet col i) [ws]) (List.range ws.length) =
          .ok ((List.range ws.length).map fun i => [ws.getD i (.obj 0)]) := by
        refine mapE_ok_of_forall fun i hi => ?_
        rw [List.mem_range] at hi
        simp only [mapE, pyGet_lt hi, getD_lt hi]
      rw [← hw] at this ⊢
      simp only
      rw [this]
      congr 1
      rw [hw]
      refine List.ext_getElem (by simp) fun i h1 h2 => ?_
      simp only [List.getElem_map, List.getElem_range]
      rw [getD_lt (by simpa using h1)]
    have := (hr _ ht).1
    simp only [List.length_map, List.length_cons, List.length_nil] at this
    refine ⟨v, ?_⟩
    rw [List.length_eq_zero_iff.1 (by omega : vs.length = 0)]

/-- **Coordinates.** In a point decoded from a row of the unit cube, each coordinate is decoded from the entry of its own
column. -/
theorem unit_decode {dims : List (Dim ℝ)} (hne : dims ≠ []) (hv : ∀ d ∈ dims, ValidDim exact d) {M : List (List ℝ)}
    (hM : M ≠ []) {pts : List (Point ℝ)}
    (h : Space.inverseTransform exact (dims.map Dim.normalized) (numRows M) = .ok pts) :
    List.Forall₂ (fun r p => ∀ (j : Nat) (d : Dim ℝ) (u : ℝ), dims[j]? = some d → r[j]? = some u →
      ∃ v, p[j]? = some v ∧ d.normalized.inverse exact [[.num u]] = .ok [v]) M pts := by
  have hval : ∀ d ∈ dims.map Dim.normalized, ValidDim exact d := by
    intro d h
    obtain ⟨d', h', rfl⟩ := List.mem_map.1 h
    exact (hv d' h').normalized
  have hs : ∀ c, Dim.cat c ∈ dims.map Dim.normalized → c.transform ≠ .string := by
    intro c hc
    obtain ⟨d', h', e⟩ := List.mem_map.1 hc
    cases d' with
    | real r => cases e
    | int r => cases e
    | cat c' =>
      simp only [Dim.normalized, Dim.cat.injEq] at e
      rw [← e]
      simp
  have key := (C67_inverse_pointwise_partial exact _ (by simpa using hne) hval hs _ (by simpa [numRows] using hM) _).1 h
  unfold numRows at key
  rw [List.forall₂_map_left_iff] at key
  refine key.imp fun r p hrp => ?_
  intro j d u hj hu
  unfold Space.inverseTransform at hrp
  rw [bind_eq_ok] at hrp
  obtain ⟨cols, hcols, hrp⟩ := hrp
  obtain ⟨hall, hget⟩ := inverseCols_single dims [] r cols (by simpa using hcols)
  simp only [List.isEmpty_cons, Bool.false_and, Bool.false_eq_true, if_false] at hrp
  have hjl : j < dims.length := (List.getElem?_eq_some_iff.1 hj).1
  have hjc : j < cols.length := by rw [← hall.length_eq]; exact hjl
  have hc := hget j d u _ hj hu (List.getElem?_eq_getElem hjc)
  obtain ⟨v, hv'⟩ := inverse_single_length (hv d (List.mem_of_getElem? hj)) hc
  rw [hv'] at hc
  refine ⟨v, ?_, hc⟩
  cases cols with
  | nil => simp at hjc
  | cons c0 cs =>
    have h0 : ∃ v0, c0 = [v0] := by
      cases hall with
      | cons hd _ =>
        obtain ⟨u0, hu0⟩ := hd
        exact inverse_single_length (hv _ List.mem_cons_self) hu0
    obtain ⟨v0, rfl⟩ := h0
    have e : transposeListArray ([v0] :: cs) = mapE (fun i => mapE (fun col => pyGet col i) ([v0] :: cs)) [0] := rfl
    rw [e] at hrp
    have hone : mapE (fun col => pyGet col 0) ([v0] :: cs) = .ok p := by
      rwa [mapE_singleton] at hrp
    have hf := mapE_eq_ok.1 hone
    have hjp : j < p.length := by rw [← hf.length_eq]; exact hjc
    have hg := (List.forall₂_iff_get.1 hf).2 j hjc hjp
    simp only [List.get_eq_getElem] at hg
    rw [hv'] at hg
    simp only [pyGet, List.getElem?_cons_zero, Except.ok.injEq] at hg
    rw [List.getElem?_eq_getElem hjp, ← hg]

/-! ## Dimensions with finitely many values -/

/-- On the unit scale the dimension rounds to the nearest of equidistant values. -/
def Discrete (d : Dim ℝ) (vals : List (Val ℝ)) : Prop :=
  vals.Nodup ∧ 2 ≤ vals.length ∧ ∀ u : ℝ, 0 ≤ u → u ≤ 1 → ∃ (i : Nat) (v : Val ℝ), vals[i]? = some v ∧
    |u * ((vals.length : ℝ) - 1) - i| ≤ 1 / 2 ∧ d.normalized.inverse exact [[.num u]] = .ok [v]

theorem discrete_cat {c : CatDim ℝ} (hv : ValidDim exact (.cat c)) (h2 : 2 ≤ c.cats.length) :
    ∃ vals, vals.Perm c.cats ∧ Discrete (.cat c) vals := by
  have hnd := hv.2.1
  refine ⟨labelKeys c.cats, ?_, labelKeys_nodup hnd, by rw [labelKeys_length hnd]; exact h2, ?_⟩
  · exact (List.perm_ext_iff_of_nodup (labelKeys_nodup hnd) hnd).2 fun v => mem_labelKeys
  · intro u h0 h1
    obtain ⟨i, hi, hlt, hr⟩ := catNormalize_rvs { c with transform := .normalize } rfl hv u h0 h1
    have hlt' : i < (labelKeys c.cats).length := by rw [labelKeys_length hnd]; exact hlt
    refine ⟨i, (labelKeys c.cats)[i], List.getElem?_eq_getElem hlt', ?_, ?_⟩
    · rw [labelKeys_length hnd]
      have b1 := roundHalfEven_le (u * ((c.cats.length : ℝ) - 1))
      have b2 := le_roundHalfEven (u * ((c.cats.length : ℝ) - 1))
      rw [← hi] at b1 b2
      push_cast at b1 b2
      rw [abs_le]
      constructor <;> linarith
    · rw [getD_lt hlt'] at hr
      exact hr

/-- The values of an `Integer`, in order. -/
def intValues (l h : ℤ) : List (Val ℝ) := (List.range (h - l + 1).toNat).map fun i : Nat => .num ((l + (i : ℤ) : ℤ) : ℝ)

theorem discrete_int {d : IntDim ℝ} (hv : ValidDim exact (.int d)) (hp : d.prior = .uniform) {l h : ℤ}
    (hl : d.low = l) (hh : d.high = h) : l < h ∧ Discrete (.int d) (intValues l h) := by
  obtain ⟨l', h', hlt, e1, e2, -, -, -, hw⟩ := hv
  have e1' : d.low = (l' : ℝ) := e1
  have e2' : d.high = (h' : ℝ) := e2
  have : l' = l := by rw [hl] at e1'; exact_mod_cast e1'.symm
  subst this
  have : h' = h := by rw [hh] at e2'; exact_mod_cast e2'.symm
  subst this
  have hlen : (intValues l' h').length = (h' - l' + 1).toNat := by simp [intValues]
  have hltr : (l' : ℝ) < h' := by exact_mod_cast hlt
  refine ⟨hlt, ?_, by rw [hlen]; omega, ?_⟩
  · unfold intValues
    refine List.Nodup.map ?_ List.nodup_range
    intro a b e
    simp only [Val.num.injEq, Int.cast_inj] at e
    omega
  · intro u h0 h1
    have hx0 : (l' : ℝ) ≤ u * (h' - l') + l' := by nlinarith
    have hx1 : u * (h' - l') + l' ≤ h' := by nlinarith
    set x := u * ((h' : ℝ) - l') + l' with hx
    have k0 : l' ≤ roundHalfEven x := by
      have := roundHalfEven_mono hx0
      rwa [roundHalfEven_intCast] at this
    have k1 : roundHalfEven x ≤ h' := by
      have := roundHalfEven_mono hx1
      rwa [roundHalfEven_intCast] at this
    have hi : (roundHalfEven x - l').toNat < (h' - l' + 1).toNat := by omega
    refine ⟨(roundHalfEven x - l').toNat, .num ((roundHalfEven x : ℤ) : ℝ), ?_, ?_, ?_⟩
    · unfold intValues
      rw [List.getElem?_map, List.getElem?_range hi, Option.map_some]
      congr 3
      omega
    · have c1 : ((intValues l' h').length : ℝ) = h' - l' + 1 := by
        rw [hlen]
        have : (((h' - l' + 1).toNat : ℤ) : ℝ) = ((h' - l' + 1 : ℤ) : ℝ) := by
          rw [Int.toNat_of_nonneg (by omega)]
        push_cast at this
        exact_mod_cast this
      have c2 : (((roundHalfEven x - l').toNat : ℕ) : ℝ) = (roundHalfEven x : ℝ) - l' := by
        have : (((roundHalfEven x - l').toNat : ℤ) : ℝ) = ((roundHalfEven x - l' : ℤ) : ℝ) := by
          rw [Int.toNat_of_nonneg (by omega)]
        push_cast at this
        exact_mod_cast this
      rw [c1, c2]
      have b1 := roundHalfEven_le x
      have b2 := le_roundHalfEven x
      rw [abs_le]
      constructor <;> linarith
    · have hn := normalize_inverse_of_unit (lo := (l' : ℝ)) (hi := (h' : ℝ)) true (us := [u]) (by simpa using ⟨h0, h1⟩)
      have hcol : mapE scalarRow [[(.num u : Val ℝ)]] = .ok [.num u] := scalar_rows_col [(.num u : Val ℝ)]
      have htn : mapE Val.toNum [(.num u : Val ℝ)] = .ok [u] := mapE_toNum_map [u]
      have hclip : npClip (l' : ℝ) h' ((roundHalfEven x : ℤ) : ℝ) = ((roundHalfEven x : ℤ) : ℝ) := by
        have a1 : (l' : ℝ) ≤ (roundHalfEven x : ℤ) := by exact_mod_cast k0
        have a2 : ((roundHalfEven x : ℤ) : ℝ) ≤ h' := by exact_mod_cast k1
        unfold npClip
        rw [max_eq_left a1, min_eq_left a2]
      simp only [if_true, List.map_cons, List.map_nil] at hn
      rw [← hx] at hn
      have htn2 : mapE Val.toNum [(.num ((roundHalfEven x : ℤ) : ℝ) : Val ℝ)] = .ok [((roundHalfEven x : ℤ) : ℝ)] :=
        mapE_toNum_map [_]
      simp only [Dim.normalized, Dim.inverse, IntDim.inverse, IntDim.transformer, hp, hl, hh, Transformer.inverse, hcol,
        ok_bind, pipelineInverse, List.reverse_cons, List.reverse_nil, List.nil_append, List.cons_append,
        pipelineInverseLoop, Stage.inverse, htn, hn]
      simp only [List.map_cons, List.map_nil, htn2, ok_bind, hclip]
      have hr : exact.round ((roundHalfEven x : ℤ) : ℝ) = roundHalfEven x := roundHalfEven_intCast _
      rw [hr, hw _ k0 k1]
      rfl

/-! ## Counting in strata -/

theorem stratum_lower {n : Nat} (hn : 0 < n) {a : Fin n → ℝ} (h : Stratified (List.ofFn a)) {x y : ℝ} (hx : 0 ≤ x)
    (hy : y ≤ 1) (S : Fin n → Prop) [DecidablePred S] (hS : ∀ i, x < a i → a i < y → S i) :
    n * (y - x) - 2 ≤ ((Finset.univ.filter S).card : ℝ) := by
  have hn' : (0 : ℝ) < n := by exact_mod_cast hn
  obtain ⟨p, hp⟩ := stratified_perm h
  rcases le_or_gt y x with hxy | hxy
  · have : (0 : ℝ) ≤ ((Finset.univ.filter S).card : ℝ) := by positivity
    nlinarith
  have hy0 : 0 ≤ y * n := by nlinarith
  set K₁ := ⌊x * n⌋₊ with hK₁
  set K₂ := ⌊y * n⌋₊ with hK₂
  have f1 : (K₁ : ℝ) ≤ x * n := Nat.floor_le (by positivity)
  have f1' : x * n < K₁ + 1 := Nat.lt_floor_add_one _
  have f2 : (K₂ : ℝ) ≤ y * n := Nat.floor_le hy0
  have f2' : y * n < K₂ + 1 := Nat.lt_floor_add_one _
  have hK₂n : K₂ ≤ n := by
    have : (K₂ : ℝ) ≤ n := by nlinarith
    exact_mod_cast this
  have hcard : (Finset.Ico (K₁ + 1) K₂).card ≤ (Finset.univ.filter S).card := by
    refine Finset.card_le_card_of_injOn (fun k => if hk : k < n then p ⟨k, hk⟩ else p ⟨0, hn⟩) ?_ ?_
    · intro k hk
      rw [Finset.mem_coe, Finset.mem_Ico] at hk
      have hkn : k < n := by omega
      simp only [hkn, dif_pos, Finset.coe_filter, Finset.mem_univ, true_and, Set.mem_ofPred_eq]
      obtain ⟨h1, h2⟩ := hp ⟨k, hkn⟩
      rw [div_le_iff₀ hn'] at h1
      rw [lt_div_iff₀ hn'] at h2
      simp only at h1 h2
      have k1 : ((K₁ : ℝ) + 1) ≤ k := by exact_mod_cast hk.1
      have k2 : ((k : ℝ) + 1) ≤ K₂ := by exact_mod_cast hk.2
      refine hS _ ?_ ?_
      · have : x * n < a (p ⟨k, hkn⟩) * n := by linarith
        exact lt_of_mul_lt_mul_right this hn'.le
      · have : a (p ⟨k, hkn⟩) * n < y * n := by linarith
        exact lt_of_mul_lt_mul_right this hn'.le
    · intro k hk k' hk' e
      rw [Finset.mem_coe, Finset.mem_Ico] at hk hk'
      have hkn : k < n := by omega
      have hkn' : k' < n := by omega
      simp only [hkn, hkn', dif_pos] at e
      simpa using p.injective e
  rw [Nat.card_Ico] at hcard
  have : (K₂ : ℝ) - (K₁ + 1) ≤ ((K₂ - (K₁ + 1) : ℕ) : ℝ) := by
    have := Nat.le_sub_iff_add_le' (m := K₁ + 1) (k := K₂) (n := K₂ - (K₁ + 1))
    have h3 : K₂ ≤ K₂ - (K₁ + 1) + (K₁ + 1) := by omega
    have h4 : (K₂ : ℝ) ≤ ((K₂ - (K₁ + 1) : ℕ) : ℝ) + (K₁ + 1) := by exact_mod_cast h3
    linarith
  have hc' : ((K₂ - (K₁ + 1) : ℕ) : ℝ) ≤ ((Finset.univ.filter S).card : ℝ) := by exact_mod_cast hcard
  nlinarith

theorem stratum_upper {n : Nat} (hn : 0 < n) {a : Fin n → ℝ} (h : Stratified (List.ofFn a)) {x y : ℝ} (hx : 0 ≤ x)
    (hxy : x ≤ y) (S : Fin n → Prop) [DecidablePred S] (hS : ∀ i, S i → x ≤ a i ∧ a i ≤ y) :
    ((Finset.univ.filter S).card : ℝ) ≤ n * (y - x) + 2 := by
  have hn' : (0 : ℝ) < n := by exact_mod_cast hn
  obtain ⟨p, hp⟩ := stratified_perm h
  set K₁ := ⌊x * n⌋₊ with hK₁
  set K₂ := ⌊y * n⌋₊ with hK₂
  have f1 : (K₁ : ℝ) ≤ x * n := Nat.floor_le (by positivity)
  have f1' : x * n < K₁ + 1 := Nat.lt_floor_add_one _
  have hy0 : 0 ≤ y * n := by nlinarith
  have f2 : (K₂ : ℝ) ≤ y * n := Nat.floor_le hy0
  have hcard : (Finset.univ.filter S).card ≤ (Finset.Icc K₁ K₂).card := by
    refine Finset.card_le_card_of_injOn (fun i => (p.symm i : ℕ)) ?_ ?_
    · intro i hi
      simp only [Finset.coe_filter, Finset.mem_univ, true_and, Set.mem_ofPred_eq] at hi
      obtain ⟨s1, s2⟩ := hS i hi
      obtain ⟨h1, h2⟩ := hp (p.symm i)
      rw [Equiv.apply_symm_apply] at h1 h2
      rw [div_le_iff₀ hn'] at h1
      rw [lt_div_iff₀ hn'] at h2
      rw [Finset.mem_coe, Finset.mem_Icc]
      constructor
      · have : (K₁ : ℝ) < (p.symm i : ℕ) + 1 := by nlinarith
        have : K₁ < (p.symm i : ℕ) + 1 := by exact_mod_cast this
        exact Nat.lt_succ_iff.1 this
      · exact Nat.le_floor (by nlinarith)
    · intro i _ i' _ e
      exact p.symm.injective (Fin.ext e)
  rw [Nat.card_Icc] at hcard
  have hle : K₁ ≤ K₂ := Nat.floor_le_floor (by nlinarith)
  have hc' : ((Finset.univ.filter S).card : ℝ) + K₁ ≤ K₂ + 1 := by
    have : (Finset.univ.filter S).card + K₁ ≤ K₂ + 1 := by omega
    exact_mod_cast this
  nlinarith

theorem stratum_close {n : Nat} (hn : 0 < n) {a : Fin n → ℝ} (h : Stratified (List.ofFn a)) {t : ℝ} (h0 : 0 ≤ t)
    (h1 : t ≤ 1) : ∃ i, |a i - t| ≤ 1 / n := by
  have hn' : (0 : ℝ) < n := by exact_mod_cast hn
  obtain ⟨p, hp⟩ := stratified_perm h
  have key : ∀ k : Fin n, ((k : ℕ) : ℝ) ≤ t * n → t * n ≤ (k : ℕ) + 1 → |a (p k) - t| ≤ 1 / n := by
    intro k k1 k2
    obtain ⟨h1, h2⟩ := hp k
    rw [div_le_iff₀ hn'] at h1
    rw [lt_div_iff₀ hn'] at h2
    rw [le_div_iff₀ hn', ← abs_of_pos hn', ← abs_mul, abs_le]
    constructor <;> linarith
  have f1 : ((⌊t * n⌋₊ : ℕ) : ℝ) ≤ t * n := Nat.floor_le (by positivity)
  have f2 : t * n < (⌊t * n⌋₊ : ℕ) + 1 := Nat.lt_floor_add_one _
  by_cases hk : ⌊t * n⌋₊ < n
  · exact ⟨_, key ⟨_, hk⟩ f1 f2.le⟩
  · have hk' : (n : ℝ) ≤ (⌊t * n⌋₊ : ℕ) := by exact_mod_cast not_lt.1 hk
    have hc : (((n - 1 : ℕ) : ℕ) : ℝ) = (n : ℝ) - 1 := by
      rw [Nat.cast_sub hn, Nat.cast_one]
    refine ⟨_, key ⟨n - 1, by omega⟩ ?_ ?_⟩
    · simp only [hc]; nlinarith
    · simp only [hc]; nlinarith

/-! ## Columns of designs -/

/-- The value in the unit interval from which the `j`-th coordinate of point number `i` is decoded. -/
theorem column_entries {dims : List (Dim ℝ)} (hne : dims ≠ []) (hv : ∀ d ∈ dims, ValidDim exact d) {M : List (List ℝ)}
    (hn : 0 < M.length) (hrow : ∀ r ∈ M, r.length = dims.length) {pts : List (Point ℝ)}
    (h : Space.inverseTransform exact (dims.map Dim.normalized) (numRows M) = .ok pts) {j : Nat} {d : Dim ℝ}
    (hj : dims[j]? = some d) (hst : Stratified (column j M)) :
    ∃ a : Fin pts.length → ℝ, Stratified (List.ofFn a) ∧ (∀ i, ∃ r ∈ M, a i ∈ r) ∧
      ∀ i : Fin pts.length, ∃ v, (pts[i])[j]? = some v ∧ d.normalized.inverse exact [[.num (a i)]] = .ok [v] := by
  have hjl : j < dims.length := (List.getElem?_eq_some_iff.1 hj).1
  have hdec := unit_decode hne hv (List.length_pos_iff.1 hn) h
  have hlen := hdec.length_eq
  obtain ⟨A, hA⟩ := matrix_of (n := pts.length) hlen hrow
  refine ⟨fun i => A i ⟨j, hjl⟩, ?_, ?_, ?_⟩
  · have := column_ofFn A ⟨j, hjl⟩
    rw [hA] at hst
    simp only at this
    rwa [this] at hst
  · intro i
    exact ⟨List.ofFn (A i), by rw [hA]; exact List.mem_ofFn.2 ⟨i, rfl⟩, List.mem_ofFn.2 ⟨_, rfl⟩⟩
  · intro i
    have hi : (i : ℕ) < M.length := by rw [hlen]; exact i.2
    have := (List.forall₂_iff_get.1 hdec).2 i hi i.2 j d (A i ⟨j, hjl⟩) hj (by
      simp only [List.get_eq_getElem, hA, List.getElem_ofFn]
      rw [List.getElem?_eq_getElem (by simpa using hjl), List.getElem_ofFn])
    exact this

open Classical in
/-- At how many positions of the list the `j`-th coordinate is `v`. -/
noncomputable def occurrences (j : Nat) (v : Val ℝ) (pts : List (Point ℝ)) : Nat :=
  (Finset.univ.filter fun i : Fin pts.length => (pts[i])[j]? = some v).card

/-- The part of the unit interval that is nearest to the `i`-th of `m` equidistant points from 0 to 1. -/
noncomputable def nearestShare (m i : Nat) : ℝ :=
  if i = 0 ∨ i + 1 = m then 1 / (2 * ((m : ℝ) - 1)) else 1 / ((m : ℝ) - 1)

/-- **Counts.** A stratified column uses every value of a dimension with finitely many values as often as the part of the
unit interval nearest to it says, up to 2. -/
theorem column_counts {dims : List (Dim ℝ)} (hne : dims ≠ []) (hv : ∀ d ∈ dims, ValidDim exact d) {M : List (List ℝ)}
    (hn : 0 < M.length) (hrow : ∀ r ∈ M, r.length = dims.length ∧ ∀ x ∈ r, 0 ≤ x ∧ x < 1) {pts : List (Point ℝ)}
    (h : Space.inverseTransform exact (dims.map Dim.normalized) (numRows M) = .ok pts) {j : Nat} {d : Dim ℝ}
    (hj : dims[j]? = some d) (hst : Stratified (column j M)) {vals : List (Val ℝ)} (hd : Discrete d vals) {i : Nat}
    {v : Val ℝ} (hi : vals[i]? = some v) :
    |(occurrences j v pts : ℝ) - pts.length * nearestShare vals.length i| ≤ 2 := by
  classical
  obtain ⟨a, ha, hmem, hdec⟩ := column_entries hne hv hn (fun r hr => (hrow r hr).1) h hj hst
  obtain ⟨hnd, h2, hval⟩ := hd
  have hpos : 0 < pts.length := by
    have := (unit_decode hne hv (List.length_pos_iff.1 hn) h).length_eq
    omega
  have ha01 : ∀ k, 0 ≤ a k ∧ a k ≤ 1 := by
    intro k
    obtain ⟨r, hr, hk⟩ := hmem k
    exact ⟨((hrow r hr).2 _ hk).1, ((hrow r hr).2 _ hk).2.le⟩
  have hm : (0 : ℝ) < (vals.length : ℝ) - 1 := by
    have : (2 : ℝ) ≤ vals.length := by exact_mod_cast h2
    linarith
  have hil : i < vals.length := (List.getElem?_eq_some_iff.1 hi).1
  have him : (i : ℝ) ≤ (vals.length : ℝ) - 1 := by
    have : (i : ℝ) + 1 ≤ vals.length := by exact_mod_cast hil
    linarith
  -- which entries become `v`
  have hin : ∀ k : Fin pts.length, (pts[k])[j]? = some v → |a k * ((vals.length : ℝ) - 1) - i| ≤ 1 / 2 := by
    intro k hk
    obtain ⟨w, hw, hdw⟩ := hdec k
    obtain ⟨i', w', e1, e2, e3⟩ := hval (a k) (ha01 k).1 (ha01 k).2
    rw [hdw] at e3
    simp only [Except.ok.injEq, List.cons.injEq, and_true] at e3
    rw [hw] at hk
    injection hk with hk
    subst hk
    subst e3
    obtain ⟨g1, g2⟩ := List.getElem?_eq_some_iff.1 hi
    obtain ⟨g3, g4⟩ := List.getElem?_eq_some_iff.1 e1
    have : i = i' := (List.Nodup.getElem_inj_iff hnd).1 (g2.trans g4.symm)
    rw [this]
    exact e2
  have hout : ∀ k : Fin pts.length, |a k * ((vals.length : ℝ) - 1) - i| < 1 / 2 → (pts[k])[j]? = some v := by
    intro k hk
    obtain ⟨w, hw, hdw⟩ := hdec k
    obtain ⟨i', w', e1, e2, e3⟩ := hval (a k) (ha01 k).1 (ha01 k).2
    rw [hdw] at e3
    simp only [Except.ok.injEq, List.cons.injEq, and_true] at e3
    subst e3
    have hlt : |(i : ℝ) - i'| < 1 := by
      rw [abs_lt] at hk ⊢
      rw [abs_le] at e2
      constructor <;> linarith [hk.1, hk.2, e2.1, e2.2]
    have : i = i' := by
      have h1 : |((i : ℤ) - (i' : ℤ) : ℤ)| < 1 := by exact_mod_cast hlt
      rw [Int.abs_lt_one_iff] at h1
      omega
    rw [← this, hi] at e1
    rw [hw, e1]
  set x := max ((i : ℝ) - 1 / 2) 0 / ((vals.length : ℝ) - 1) with hx
  set y := min ((i : ℝ) + 1 / 2) ((vals.length : ℝ) - 1) / ((vals.length : ℝ) - 1) with hy
  have hshare : y - x = nearestShare vals.length i := by
    have hi0 : i = 0 ∨ (1 : ℝ) ≤ i := by
      rcases Nat.eq_zero_or_pos i with h | h
      · exact .inl h
      · exact .inr (by exact_mod_cast h)
    have hi1 : i + 1 = vals.length ∨ (i : ℝ) + 1 ≤ (vals.length : ℝ) - 1 := by
      by_cases h : i + 1 = vals.length
      · exact .inl h
      · right
        have : i + 2 ≤ vals.length := by omega
        have : (i : ℝ) + 2 ≤ vals.length := by exact_mod_cast this
        linarith
    have h2r : (2 : ℝ) ≤ vals.length := by exact_mod_cast h2
    rw [hx, hy, ← sub_div]
    unfold nearestShare
    rcases hi0 with rfl | h0
    · rw [if_pos (.inl rfl), max_eq_right (by norm_num), min_eq_left (by norm_num; linarith)]
      norm_num
      ring
    · rw [max_eq_left (by linarith)]
      rcases hi1 with h1 | h1
      · rw [if_pos (.inr h1)]
        have h1' : (i : ℝ) + 1 = vals.length := by exact_mod_cast h1
        rw [min_eq_right (by linarith), div_eq_div_iff hm.ne' (by linarith)]
        have : (i : ℝ) = vals.length - 1 := by linarith
        rw [this]
        ring
      · rw [if_neg, min_eq_left (by linarith)]
        · congr 1; ring
        · rintro (h | h)
          · rw [h] at h0; norm_num at h0
          · have h' : (i : ℝ) + 1 = vals.length := by exact_mod_cast h
            linarith
  have hx0 : 0 ≤ x := div_nonneg (le_max_right _ _) hm.le
  have hy1 : y ≤ 1 := (div_le_one hm).2 (min_le_right _ _)
  have hxy : x ≤ y := by
    have : 0 ≤ nearestShare vals.length i := by
      unfold nearestShare
      split <;> positivity
    linarith
  have lower := stratum_lower hpos ha hx0 hy1 (fun k => (pts[k])[j]? = some v) fun k k1 k2 => hout k (by
    rw [hx, div_lt_iff₀ hm] at k1
    rw [hy, lt_div_iff₀ hm] at k2
    have l1 := le_max_left ((i : ℝ) - 1 / 2) 0
    have l2 := min_le_left ((i : ℝ) + 1 / 2) ((vals.length : ℝ) - 1)
    rw [abs_lt]
    constructor <;> linarith)
  have upper := stratum_upper hpos ha hx0 hxy (fun k => (pts[k])[j]? = some v) fun k hk => by
    have := hin k hk
    rw [abs_le] at this
    rw [hx, hy, div_le_iff₀ hm, le_div_iff₀ hm]
    have b0 := mul_nonneg (ha01 k).1 hm.le
    have b1 := mul_le_of_le_one_left hm.le (ha01 k).2
    exact ⟨max_le (by linarith [this.1]) b0, le_min (by linarith [this.2]) b1⟩
  rw [hshare] at lower upper
  unfold occurrences
  rw [abs_le]
  constructor <;> linarith

/-- A stratified column with more than twice as many entries as there are steps between the values uses every value. -/
theorem column_uses {dims : List (Dim ℝ)} (hne : dims ≠ []) (hv : ∀ d ∈ dims, ValidDim exact d) {M : List (List ℝ)}
    (hrow : ∀ r ∈ M, r.length = dims.length ∧ ∀ x ∈ r, 0 ≤ x ∧ x < 1) {pts : List (Point ℝ)}
    (h : Space.inverseTransform exact (dims.map Dim.normalized) (numRows M) = .ok pts) {j : Nat} {d : Dim ℝ}
    (hj : dims[j]? = some d) (hst : Stratified (column j M)) {vals : List (Val ℝ)} (hd : Discrete d vals)
    (hn : 2 * (vals.length - 1) < M.length) {v : Val ℝ} (hi : v ∈ vals) : ∃ p ∈ pts, p[j]? = some v := by
  obtain ⟨a, ha, hmem, hdec⟩ := column_entries hne hv (by omega) (fun r hr => (hrow r hr).1) h hj hst
  obtain ⟨hnd, h2, hval⟩ := hd
  have hlen := (unit_decode hne hv (List.length_pos_iff.1 (by omega)) h).length_eq
  obtain ⟨i, hi⟩ := List.mem_iff_getElem?.1 hi
  have hm : (0 : ℝ) < (vals.length : ℝ) - 1 := by
    have : (2 : ℝ) ≤ vals.length := by exact_mod_cast h2
    linarith
  have hil : i < vals.length := (List.getElem?_eq_some_iff.1 hi).1
  have him : (i : ℝ) ≤ (vals.length : ℝ) - 1 := by
    have : (i : ℝ) + 1 ≤ vals.length := by exact_mod_cast hil
    linarith
  have hnr : 2 * ((vals.length : ℝ) - 1) < pts.length := by
    have h1 : 2 * vals.length < pts.length + 2 := by omega
    have : 2 * (vals.length : ℝ) < pts.length + 2 := by exact_mod_cast h1
    linarith
  have hpr : (0 : ℝ) < pts.length := by linarith
  obtain ⟨k, hk⟩ := stratum_close (by omega) ha (t := i / ((vals.length : ℝ) - 1)) (by positivity) ((div_le_one hm).2 him)
  have ha01 : 0 ≤ a k ∧ a k ≤ 1 := by
    obtain ⟨r, hr, hk⟩ := hmem k
    exact ⟨((hrow r hr).2 _ hk).1, ((hrow r hr).2 _ hk).2.le⟩
  have hnear : |a k * ((vals.length : ℝ) - 1) - i| < 1 / 2 := by
    have e : a k * ((vals.length : ℝ) - 1) - i = (a k - i / ((vals.length : ℝ) - 1)) * ((vals.length : ℝ) - 1) := by
      field_simp
    rw [e, abs_mul, abs_of_pos hm]
    calc _ ≤ 1 / (pts.length : ℝ) * ((vals.length : ℝ) - 1) := mul_le_mul_of_nonneg_right hk hm.le
      _ < 1 / 2 := by
        rw [one_div_mul_eq_div, div_lt_iff₀ hpr]
        linarith
  obtain ⟨w, hw, hdw⟩ := hdec k
  obtain ⟨i', w', e1, e2, e3⟩ := hval (a k) ha01.1 ha01.2
  rw [hdw] at e3
  simp only [Except.ok.injEq, List.cons.injEq, and_true] at e3
  subst e3
  have hlt : |(i : ℝ) - i'| < 1 := by
    rw [abs_lt] at hnear ⊢
    rw [abs_le] at e2
    constructor <;> linarith [hnear.1, hnear.2, e2.1, e2.2]
  have : i = i' := by
    have h1 : |((i : ℤ) - (i' : ℤ) : ℤ)| < 1 := by exact_mod_cast hlt
    rw [Int.abs_lt_one_iff] at h1
    omega
  rw [← this, hi] at e1
  exact ⟨pts[k], List.getElem_mem _, by rw [hw, e1]⟩

/-- A stratified column comes within one stratum of every value of a `Real`. -/
theorem column_near {dims : List (Dim ℝ)} (hne : dims ≠ []) (hv : ∀ d ∈ dims, ValidDim exact d) {M : List (List ℝ)}
    (hn : 0 < M.length)
    (hrow : ∀ r ∈ M, r.length = dims.length ∧ ∀ x ∈ r, 0 ≤ x ∧ x < 1) {pts : List (Point ℝ)}
    (h : Space.inverseTransform exact (dims.map Dim.normalized) (numRows M) = .ok pts) {j : Nat} {d : RealDim ℝ}
    (hj : dims[j]? = some (.real d)) (hd : PlainReal d) (hst : Stratified (column j M)) {x : ℝ} (hx : d.low ≤ x ∧ x ≤ d.high) :
    ∃ p ∈ pts, ∃ y, p[j]? = some (.num y) ∧ |y - x| ≤ (d.high - d.low) / M.length := by
  obtain ⟨a, ha, hmem, hdec⟩ := column_entries hne hv hn (fun r hr => (hrow r hr).1) h hj hst
  have hlen := (unit_decode hne hv (List.length_pos_iff.1 hn) h).length_eq
  have hs : 0 < d.high - d.low := sub_pos.2 hd.1
  obtain ⟨k, hk⟩ := stratum_close (by omega) ha (t := (x - d.low) / (d.high - d.low)) (div_nonneg (by linarith) hs.le)
    ((div_le_one hs).2 (by linarith))
  have ha01 : 0 ≤ a k ∧ a k ≤ 1 := by
    obtain ⟨r, hr, hk⟩ := hmem k
    exact ⟨((hrow r hr).2 _ hk).1, ((hrow r hr).2 _ hk).2.le⟩
  obtain ⟨w, hw, hdw⟩ := hdec k
  rw [hd.inverse ha01] at hdw
  simp only [Except.ok.injEq, List.cons.injEq, and_true] at hdw
  subst hdw
  refine ⟨pts[k], List.getElem_mem _, _, hw, ?_⟩
  have e : a k * (d.high - d.low) + d.low - x = (a k - (x - d.low) / (d.high - d.low)) * (d.high - d.low) := by
    field_simp
    ring
  rw [e, abs_mul, abs_of_pos hs, hlen]
  calc _ ≤ 1 / (pts.length : ℝ) * (d.high - d.low) := mul_le_mul_of_nonneg_right hk hs.le
    _ = _ := by ring

end Skopt

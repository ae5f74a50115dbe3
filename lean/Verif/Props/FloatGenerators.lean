import Verif.Props.FloatRuns
import Verif.Props.FloatDesigns
import Verif.Props.Lhs
import Verif.Props.Grid
import Verif.Props.Sobol

/-!
# C146: the generators of initial points in floating-point arithmetic

C21, C22, C24 and C27 show in exact arithmetic that the generators return as many points of the space as they are asked
for.  Here the same is shown with rounding, for mixed spaces: no rounding error carries a coordinate out of the unit
interval or a decoded value out of its dimension.
-/

namespace Skopt

variable {F : Type} [LinearOrder F] {A : Arith F} {val : F → ℝ} {u η : ℝ} {N : ℤ}

/-! ## Specification -/

/-- The generator returned exactly `n` points of the space and left the dimensions as they were. -/
def Supplies (A : Arith F) (dims : List (Dim F)) (n : Nat) (r : GenResult F) : Prop :=
  r.1 = dims ∧ ∃ P, r.2 = .ok P ∧ P.length = n ∧ ∀ p ∈ P, InSpace A dims p

/-- Random numbers for a Latin hypercube: one number of `[0, 1)` per sample and dimension, one permutation per
dimension. -/
structure FloatDraw (A : Arith F) (nDim n : Nat) (d : LhsDraw F) : Prop where
  u_length : d.u.length = n
  u_width : ∀ r ∈ d.u, r.length = nDim
  u_range : ∀ r ∈ d.u, ∀ x ∈ r, A.ofInt 0 ≤ x ∧ x < A.ofInt 1
  orders_length : d.orders.length = nDim
  orders_perm : ∀ o ∈ d.orders, o.Perm (List.range n)

/-! ## Lemmas -/

/-- A non-empty rectangular matrix of unit-interval numbers is mapped into the space without error. -/
theorem rounded_unit_ok (h : FloatLike A val u η N) (hA : OrderlyRounding A) {dims : List (Dim F)} (hd : dims ≠ [])
    (hv : ∀ d ∈ dims, ValidDim A d) (hf : ∀ d ∈ dims, FinePrecision val u η N d)
    {M : List (List F)} (hM : M ≠ []) (hw : ∀ r ∈ M, r.length = dims.length)
    (hu : ∀ r ∈ M, ∀ x ∈ r, A.ofInt 0 ≤ x ∧ x ≤ A.ofInt 1) :
    ∃ pts, Space.inverseTransform A (dims.map Dim.normalized) (numRows M) = .ok pts ∧
      pts.length = M.length ∧ ∀ p ∈ pts, InSpace A dims p := by
  have hcols : ∀ (ds : List (Dim F)) (start : Nat), (∀ d ∈ ds, ValidDim A d) → (∀ d ∈ ds, Rounded.DecodesUnit A d) →
      (∀ r ∈ M, start + ds.length ≤ r.length) →
      ∃ cols, Space.inverseCols A (ds.map Dim.normalized) start (numRows M) = .ok cols ∧
        cols.length = ds.length ∧ ∀ c ∈ cols, c.length = M.length := by
    intro ds
    induction ds with
    | nil => intro start _ _ _; exact ⟨[], rfl, rfl, by simp⟩
    | cons d ds ih =>
      intro start hv hdec hlen
      obtain ⟨cs, hcs, hcl, hcn⟩ := ih (start + 1) (fun x hx => hv x (by simp [hx])) (fun x hx => hdec x (by simp [hx]))
        (fun r hr => by have := hlen r hr; simp only [List.length_cons] at this; omega)
      have hb : Space.block start 1 (numRows M) =
          .ok ((M.map fun r => r.getD start (A.ofInt 0)).map fun x => [(.num x : Val F)]) := by
        unfold Space.block numRows
        rw [if_pos rfl, mapE_map, List.map_map]
        refine mapE_ok_of_forall fun r hr => ?_
        have := hlen r hr
        simp only [List.length_cons] at this
        rw [pyGet_lt (by simp; omega)]
        simp only [ok_bind, List.getElem_map, Function.comp_apply]
        rw [getD_lt (by omega)]
      obtain ⟨vs, hvs⟩ := hdec d (by simp) (M.map fun r => r.getD start (A.ofInt 0))
        (by
          intro x hx
          obtain ⟨r, hr, rfl⟩ := List.mem_map.1 hx
          have := hlen r hr
          simp only [List.length_cons] at this
          rw [getD_lt (by omega)]
          exact hu r hr _ (List.getElem_mem _))
      refine ⟨vs :: cs, ?_, by simp [hcl], ?_⟩
      · have e : Space.inverseCols A ((d :: ds).map Dim.normalized) start (numRows M) = (do
            let b ← Space.block start d.normalized.transformedSize (numRows M)
            let c ← d.normalized.inverse A b
            let cs ← Space.inverseCols A (ds.map Dim.normalized)
              (start + d.normalized.transformedSize) (numRows M)
            .ok (c :: cs)) := rfl
        rw [e, transformedSize_normalized, hb, ok_bind, hvs, ok_bind, hcs, ok_bind]
      · intro c hc
        rcases List.mem_cons.1 hc with rfl | hc
        · have := Dim.inverse_length (hv d (by simp)).normalized hvs (by
            intro _ r hr
            obtain ⟨x, _, rfl⟩ := List.mem_map.1 hr
            rfl)
          simpa using this
        · exact hcn c hc
  obtain ⟨cols, h1, h2, h3⟩ := hcols dims 0 hv (fun d hm => Rounded.decodesUnit h hA (hv d hm) (hf d hm))
    (fun r hr => by rw [hw r hr]; omega)
  have hne : cols ≠ [] := by
    intro h
    rw [h] at h2
    exact hd (List.length_eq_zero_iff.1 h2.symm)
  obtain ⟨rows, hr, hrl⟩ := transpose_ok hne h3
  have hinv : Space.inverseTransform A (dims.map Dim.normalized) (numRows M) = .ok rows := by
    unfold Space.inverseTransform
    rw [h1, ok_bind, if_neg, hr]
    cases M with
    | nil => exact absurd rfl hM
    | cons a b => simp [numRows]
  exact ⟨rows, hinv, unit_points_in_space hA hv hinv⟩

/-- A generator whose unit-cube design has `n` rows supplies `n` points. -/
theorem supplies_of_unit (h : FloatLike A val u η N) (hA : OrderlyRounding A) {dims : List (Dim F)} (hd : dims ≠ [])
    (hv : ∀ d ∈ dims, ValidDim A d) (hf : ∀ d ∈ dims, FinePrecision val u η N d) {M : List (List F)} {n : Nat}
    (hn : 0 < n) (hl : M.length = n)
    (hM : ∀ r ∈ M, r.length = dims.length ∧ ∀ x ∈ r, A.ofInt 0 ≤ x ∧ x ≤ A.ofInt 1)
    {body : List (Dim F) → Except PyErr (List (Point F))}
    (hb : body (dims.map Dim.normalized) = Space.inverseTransform A (dims.map Dim.normalized) (numRows M)) :
    Supplies A dims n (withNormalized dims body) := by
  obtain ⟨pts, h1, h2, h3⟩ := rounded_unit_ok h hA hd hv hf (M := M) (by rintro rfl; simp at hl; omega)
    (fun r hr => (hM r hr).1) (fun r hr => (hM r hr).2)
  have hs : (withNormalized dims body).2 = .ok pts := by
    rw [withNormalized_snd dims fun d hd => (hv d hd).legalTransform, hb, h1]
  exact ⟨withNormalized_restores dims (fun d hd => (hv d hd).legalTransform) _ hs, pts, hs, h2.trans hl, h3⟩

/-! ## Grids -/

theorem ofInt_pos (h : FloatLike A val u η N) {k : ℤ} (hk : 1 ≤ k) : A.ofInt 0 < A.ofInt k :=
  lt_of_lt_of_le (h.lt_iff.1 (by rw [h.val_zero, h.val_one]; norm_num)) (h.mono.ofInt_mono hk)

theorem ratio_unit (h : FloatLike A val u η N) {i k : ℤ} (h0 : 0 ≤ i) (hi : i ≤ k) (hk : 1 ≤ k) :
    A.ofInt 0 ≤ A.div (A.ofInt i) (A.ofInt k) ∧ A.div (A.ofInt i) (A.ofInt k) ≤ A.ofInt 1 := by
  have hp := ofInt_pos h hk
  constructor
  · rw [← h.mono.zero_div hp]
    exact h.mono.div_mono hp (h.mono.ofInt_mono h0)
  · rw [← h.mono.div_self hp]
    exact h.mono.div_mono hp (h.mono.ofInt_mono hi)

theorem grid_rounded_unit (h : FloatLike A val u η N) {d m : Nat} {L : List (List F)} :
    (gridExclude A d m = .ok L → ∀ r ∈ L, ∀ x ∈ r, A.ofInt 0 ≤ x ∧ x ≤ A.ofInt 1) ∧
    (gridInclude A d m = .ok L → ∀ r ∈ L, ∀ x ∈ r, A.ofInt 0 ≤ x ∧ x ≤ A.ofInt 1) ∧
    (gridOnly A d m = .ok L → ∀ r ∈ L, ∀ x ∈ r, A.ofInt 0 ≤ x ∧ x ≤ A.ofInt 1) := by
  have hex : ∀ x ∈ lineExclude A m, A.ofInt 0 ≤ x ∧ x ≤ A.ofInt 1 := by
    intro x hx
    obtain ⟨i, hi, rfl⟩ := List.mem_map.1 hx
    rw [List.mem_range] at hi
    exact ratio_unit h (by omega) (by omega) (by omega)
  have hin : 2 ≤ m → ∀ x ∈ lineInclude A m, A.ofInt 0 ≤ x ∧ x ≤ A.ofInt 1 := by
    intro hm x hx
    obtain ⟨i, hi, rfl⟩ := List.mem_map.1 hx
    rw [List.mem_range] at hi
    exact ratio_unit h (by omega) (by omega) (by omega)
  have h01 : A.ofInt 0 ≤ A.ofInt 1 := h.mono.ofInt_mono (by norm_num)
  refine ⟨?_, ?_, ?_⟩
  · intro hh r hr x hx
    unfold gridExclude at hh
    split at hh
    · simp at hh
    · obtain ⟨a, ha, hxa⟩ := forall₂_mem_right
        (List.Forall₂.flip (((quadratureCombine_spec hh).1 r).1 hr)) hx
      rw [List.eq_of_mem_replicate ha] at hxa
      exact hex x hxa
  · intro hh r hr x hx
    have hm := (gridInclude_length hh).2.1
    unfold gridInclude at hh
    split at hh
    · simp at hh
    · obtain ⟨a, ha, hxa⟩ := forall₂_mem_right
        (List.Forall₂.flip (((quadratureCombine_spec hh).1 r).1 hr)) hx
      rw [List.eq_of_mem_replicate ha] at hxa
      exact hin hm x hxa
  · intro hh r hr x hx
    have hm := (gridOnly_length hh).2.1
    unfold gridOnly at hh
    split at hh
    · simp at hh
    · obtain ⟨a, ha, hxa⟩ := forall₂_mem_right
        (List.Forall₂.flip (((quadratureCombine_spec hh).1 r).1 hr)) hx
      rcases List.mem_append.1 ha with ha | ha
      · rw [List.eq_of_mem_replicate ha] at hxa
        simp only [List.mem_cons, List.not_mem_nil, or_false] at hxa
        rcases hxa with rfl | rfl
        · exact ⟨le_rfl, h01⟩
        · exact ⟨h01, le_rfl⟩
      · rw [List.mem_singleton] at ha
        subst ha
        exact hin hm x hxa

/-- **C146 (grids).** In any floating-point arithmetic and two or more dimensions, as long as the code's size limit is
respected by the layouts it builds, `Grid.generate` returns exactly `n ≥ 1` points of the space. -/
theorem C146_grid (h : FloatLike A val u η N) (hA : OrderlyRounding A) (g : Grid) (dims : List (Dim F))
    (hv : ∀ d ∈ dims, ValidDim A d) (hf : ∀ d ∈ dims, FinePrecision val u η N d)
    (hd : 2 ≤ dims.length) (n : Nat) (hn : 0 < n) (perm : Nat → List Nat)
    (hp : ∀ k, (perm k).Perm (List.range k)) (L : List (List F)) (hL : g.layout A dims.length n = .ok L)
    (hE : L.length < n → ∃ E, g.extra A dims.length (n - L.length) = .ok E) :
    Supplies A dims n (g.generate A dims n perm) := by
  have hM : ∃ M, g.unit A dims.length n perm = .ok M := by
    unfold Grid.unit
    rw [hL, ok_bind]
    split
    · obtain ⟨L', e1, e2⟩ := shuffleRows_perm (hp L.length)
      rw [e1, ok_bind]
      exact ⟨_, rfl⟩
    · split
      · next hlt =>
        obtain ⟨E, hE⟩ := hE hlt
        rw [hE, ok_bind]
        obtain ⟨L', e1, e2⟩ := shuffleRows_perm (hp (L ++ E.take (n - L.length)).length)
        exact ⟨L', e1⟩
      · obtain ⟨L', e1, e2⟩ := shuffleRows_perm (hp L.length)
        exact ⟨L', e1⟩
  obtain ⟨M, hM⟩ := hM
  have hLr : ∀ r ∈ L, ∀ x ∈ r, A.ofInt 0 ≤ x ∧ x ≤ A.ofInt 1 := by
    unfold Grid.layout at hL
    split at hL
    · exact (grid_rounded_unit h).2.1 hL
    · exact (grid_rounded_unit h).1 hL
    · exact (grid_rounded_unit h).1 hL
    · simp at hL
  have hEr : ∀ m E, g.extra A dims.length m = .ok E → ∀ r ∈ E, ∀ x ∈ r, A.ofInt 0 ≤ x ∧ x ≤ A.ofInt 1 := by
    intro m E hE
    unfold Grid.extra at hE
    split at hE
    · exact (grid_rounded_unit h).2.2 hE
    · exact (grid_rounded_unit h).2.1 hE
    · exact (grid_rounded_unit h).1 hE
    · simp at hE
  have hMl : M.length = n ∧ ∀ r ∈ M, r.length = dims.length ∧ ∀ x ∈ r, A.ofInt 0 ≤ x ∧ x ≤ A.ofInt 1 := by
    obtain ⟨L₂, hL₂, hcase⟩ := Grid.unit_cases hp hM
    rw [hL] at hL₂
    injection hL₂ with hL₂
    subst hL₂
    rcases hcase with ⟨h1, L', e, rfl⟩ | ⟨h1, E, hE, e⟩
    · refine ⟨by rw [List.length_take, e.length_eq]; omega, ?_⟩
      intro r hr
      have hr' := e.mem_iff.1 (List.mem_of_mem_take hr)
      exact ⟨Grid.layout_width hL r hr', hLr r hr'⟩
    · refine ⟨?_, ?_⟩
      · rw [e.length_eq, List.length_append, List.length_take]
        have := Grid.extra_length hd hE
        omega
      · intro r hr
        rcases List.mem_append.1 (e.mem_iff.1 hr) with hr' | hr'
        · exact ⟨Grid.layout_width hL r hr', hLr r hr'⟩
        · have := List.mem_of_mem_take hr'
          exact ⟨Grid.extra_width hE r this, hEr _ E hE r this⟩
  unfold Grid.generate
  refine supplies_of_unit h hA (by rintro rfl; simp at hd) hv hf hn hMl.1 hMl.2 ?_
  simp only [hM, ok_bind]

/-! ## Halton and Sobol -/

theorem bin_unit {p : ℕ} (hp : 1 ≤ p) {x : Bin p} (h0 : 0 ≤ x.1) (h1 : x.1 ≤ 1) :
    (binArith p).ofInt 0 ≤ x ∧ x ≤ (binArith p).ofInt 1 := by
  constructor
  · show ((binArith p).ofInt 0).1 ≤ x.1
    rw [bin_zero]; exact h0
  · show x.1 ≤ ((binArith p).ofInt 1).1
    rw [bin_one hp]; exact h1

/-- **C146 (Halton).** With correctly rounded arithmetic of `p ≥ 10` bits, `Halton.generate` returns exactly `n ≥ 1`
points of the space, as long as `(4 · digits + 2) · b · (skip + n) < 2 ^ p` for every base `b` (in double precision: for
all practical numbers of points). -/
theorem C146_halton {p : ℕ} (hp : 10 ≤ p) (h : Halton) (dims : List (Dim (Bin p))) (hd : dims ≠ [])
    (hv : ∀ d ∈ dims, ValidDim (binArith p) d)
    (hf : ∀ d ∈ dims, FinePrecision Subtype.val (1 / 2 ^ p) 0 (2 ^ p) d) (n : Nat) (hn : 0 < n) (draw : ℤ)
    (bases : List Nat) (skip : Nat) (hbases : h.bases dims.length = .ok bases)
    (hskip : h.skip bases draw = .ok (skip : ℤ))
    (hb : ∀ b ∈ bases, 1 < b ∧ (4 * (Nat.digits b (skip + n)).length + 2) * (b * (skip + n)) < 2 ^ p) :
    Supplies (binArith p) dims n (h.generate (binArith p) dims n draw) := by
  have hrow : ∀ i ∈ List.range n, ∃ r, mapE (fun b => vanDerCorput (binArith p) b ((i : ℤ) + skip)) bases = .ok r ∧
      (r.length = dims.length ∧ ∀ x ∈ r, (binArith p).ofInt 0 ≤ x ∧ x ≤ (binArith p).ofInt 1) := by
    intro i hi
    rw [List.mem_range] at hi
    have hone : ∀ b, ∃ x, b ∈ bases → vanDerCorput (binArith p) b ((i : ℤ) + skip) = .ok x ∧
        (binArith p).ofInt 0 ≤ x ∧ x ≤ (binArith p).ofInt 1 := by
      intro b
      by_cases hbm : b ∈ bases
      · obtain ⟨x, hx⟩ := C144_halton_order hp (hb b hbm).1 (n := skip + n) (by omega) (hb b hbm).2
        obtain ⟨h1, h2, h3, -⟩ := hx (i + skip) (by omega)
        push_cast at h1
        exact ⟨_, fun _ => ⟨h1, bin_unit (by omega) h2 h3.le⟩⟩
      · exact ⟨(binArith p).ofInt 0, fun h => absurd h hbm⟩
    choose x hx using hone
    refine ⟨bases.map x, mapE_ok_of_forall fun b hbm => (hx b hbm).1, ?_, ?_⟩
    · rw [List.length_map, Halton.bases_length hbases]
    · intro y hy
      obtain ⟨b, hbm, rfl⟩ := List.mem_map.1 hy
      exact (hx b hbm).2
  have hrow' : ∀ i, ∃ r, i ∈ List.range n →
      mapE (fun b => vanDerCorput (binArith p) b ((i : ℤ) + skip)) bases = .ok r ∧
      (r.length = dims.length ∧ ∀ x ∈ r, (binArith p).ofInt 0 ≤ x ∧ x ≤ (binArith p).ofInt 1) := by
    intro i
    by_cases hi : i ∈ List.range n
    · obtain ⟨r, hr⟩ := hrow i hi
      exact ⟨r, fun _ => hr⟩
    · exact ⟨[], fun h => absurd h hi⟩
  choose r hr using hrow'
  have hM : h.unit (binArith p) dims.length n draw = .ok ((List.range n).map r) := by
    unfold Halton.unit haltonRows
    rw [hbases, ok_bind, hskip, ok_bind]
    exact mapE_ok_of_forall fun i hi => (hr i hi).1
  unfold Halton.generate
  refine supplies_of_unit (M := (List.range n).map r) (binArith_floatLike hp) (binArith_orderly hp) hd hv hf hn
    (by simp) ?_ ?_
  · intro row hrow
    obtain ⟨i, hi, rfl⟩ := List.mem_map.1 hrow
    exact (hr i hi).2
  · simp only [hM, ok_bind]

/-- **C146 (Sobol).** With correctly rounded arithmetic of `p ≥ 30` bits, `Sobol.generate` - with or without random
shift - returns exactly `n ≥ 1` points of the space of up to 40 dimensions, for indices below `2 ^ 30` and, if points are
skipped, no more points than skipped ones (otherwise the code raises). -/
theorem C146_sobol {p : ℕ} (hp : 30 ≤ p) (mod1 : Bin p → Bin p) (hmod : ∀ x, 0 ≤ (mod1 x).1 ∧ (mod1 x).1 < 1)
    (skip : Nat) (randomize : Bool) (s : Sobol) (hs : Sobol.new skip randomize = .ok s)
    (dims : List (Dim (Bin p))) (hd : dims ≠ []) (h40 : dims.length ≤ 40) (hv : ∀ d ∈ dims, ValidDim (binArith p) d)
    (hf : ∀ d ∈ dims, FinePrecision Subtype.val (1 / 2 ^ p) 0 (2 ^ p) d) (n : Nat) (hn : 0 < n)
    (shift : List (Bin p)) (hshift : shift.length = dims.length)
    (hmax : skip + n ≤ 2 ^ 30 - 1) (hbud : skip ≠ 0 → n ≤ skip) :
    Supplies (binArith p) dims n (s.generate (binArith p) mod1 dims n shift).2 := by
  obtain ⟨hb, hk, hr, hg⟩ := Sobol.new_between hs
  have hc : ¬(s.skip ≠ 0 ∧ s.numGenerated + n > s.skip) := by
    rw [hk, hg]
    rintro ⟨h1, h2⟩
    have := hbud h1
    omega
  have hlen : 1 ≤ dims.length := List.length_pos_iff.2 hd
  obtain ⟨M, e1, e2⟩ := C144_sobol_exact hp hb hlen h40 hn hmax
  have hrange : ∀ r ∈ M, r.length = dims.length ∧ ∀ x ∈ r, (binArith p).ofInt 0 ≤ x ∧ x ≤ (binArith p).ofInt 1 := by
    obtain ⟨s2, e3, -⟩ := Sobol.rows_eq (A := exact) hb hlen h40 hn hmax
    rw [e3] at e2
    injection e2 with e2
    intro r hr
    have : r.map Subtype.val ∈ (List.range n).map fun i => sobolVec exact dims.length (skip + i) := by
      rw [e2]; exact List.mem_map_of_mem hr
    obtain ⟨i, hi, e⟩ := List.mem_map.1 this
    have hi' := List.mem_range.1 hi
    obtain ⟨g1, g2⟩ := sobolVec_range (dim := dims.length) (s := skip + i) h40 (by omega)
    rw [e] at g1 g2
    refine ⟨by simpa using g1, fun x hx => ?_⟩
    have := g2 _ (List.mem_map_of_mem hx)
    exact bin_unit (by omega) this.1 this.2.le
  have hMn : M.length = n := by
    obtain ⟨s1, e3, -⟩ := Sobol.rows_eq (A := binArith p) hb hlen h40 hn hmax
    rw [e3] at e1
    injection e1 with e1
    rw [← e1]; simp
  rw [Sobol.generate_snd _ _ _ _ _ _ hc, hk]
  refine supplies_of_unit (M := if s.randomize then randomShift (binArith p) mod1 shift M else M)
    (binArith_floatLike (by omega)) (binArith_orderly (by omega)) hd hv hf hn ?_ ?_ ?_
  · split
    · simpa [randomShift] using hMn
    · exact hMn
  · split
    · intro r hr
      obtain ⟨r', hr', rfl⟩ := List.mem_map.1 hr
      refine ⟨by simp [(hrange r' hr').1, hshift], fun x hx => ?_⟩
      rw [List.mem_iff_getElem] at hx
      obtain ⟨i, hi, rfl⟩ := hx
      rw [List.getElem_zipWith]
      exact bin_unit (by omega) (hmod _).1 (hmod _).2.le
    · exact hrange
  · simp only [e1, ok_bind]

/-! ## Latin hypercubes -/

theorem rnd_unit_err {p : ℕ} (hp : 1 ≤ p) {x : ℝ} (h0 : 0 ≤ x) (h1 : x ≤ 1) : |rnd p x - x| ≤ 1 / 2 ^ (p + 1) := by
  rcases eq_or_lt_of_le h0 with rfl | h0
  · rw [rnd_zero, sub_zero, abs_zero]; positivity
  rcases eq_or_lt_of_le h1 with rfl | h1
  · rw [rnd_of_isBinary hp ⟨1, 0, by rw [abs_one]; exact one_le_pow₀ (by norm_num), by simp⟩, sub_self, abs_zero]
    positivity
  have hs := ulp_pos p x
  have a1 := roundHalfEven_le (x / ulp p x)
  have a2 := le_roundHalfEven (x / ulp p x)
  have e : rnd p x - x = (roundHalfEven (x / ulp p x) - x / ulp p x) * ulp p x := by
    unfold rnd
    rw [sub_mul, div_mul_cancel₀ _ hs.ne']
  have a3 : |(roundHalfEven (x / ulp p x) : ℝ) - x / ulp p x| ≤ 1 / 2 := by
    rw [abs_le]; constructor <;> linarith
  have hu : ulp p x ≤ 1 / 2 ^ p := by
    unfold ulp
    have hl : Int.log 2 |x| + 1 - (p : ℤ) ≤ -(p : ℤ) := by
      have hz := Int.zpow_log_le_self (R := ℝ) (b := 2) (r := |x|) (by norm_num) (abs_pos.2 h0.ne')
      rw [abs_of_pos h0] at hz ⊢
      push_cast at hz
      have : (2 : ℝ) ^ Int.log 2 x < (2 : ℝ) ^ (0 : ℤ) := by rw [zpow_zero]; linarith
      have := (zpow_lt_zpow_iff_right₀ (by norm_num : (1 : ℝ) < 2)).1 this
      omega
    calc (2 : ℝ) ^ (Int.log 2 |x| + 1 - (p : ℤ)) ≤ (2 : ℝ) ^ (-(p : ℤ)) := zpow_le_zpow_right₀ (by norm_num) hl
      _ = 1 / 2 ^ p := by rw [zpow_neg, zpow_natCast, one_div]
  rw [e, abs_mul, abs_of_pos hs]
  calc _ ≤ 1 / 2 * (1 / 2 ^ p : ℝ) := by gcongr
    _ = 1 / 2 ^ (p + 1) := by rw [pow_succ]; field_simp

theorem rnd_just_above_one {p : ℕ} (hp : 1 ≤ p) {x : ℝ} (h : x ≤ 1 + 1 / 2 ^ (p + 1)) : rnd p x ≤ 1 := by
  refine (rnd_mono hp h).trans (le_of_eq ?_)
  have hp0 : (0 : ℝ) < 1 / 2 ^ (p + 1) := by positivity
  have hp1 : (1 : ℝ) / 2 ^ (p + 1) < 1 := by
    rw [div_lt_one (by positivity)]
    exact one_lt_pow₀ (by norm_num) (by omega)
  have hl : Int.log 2 |(1 + 1 / 2 ^ (p + 1) : ℝ)| = 0 := by
    rw [abs_of_pos (by linarith)]
    refine le_antisymm ?_ ?_
    · have := (Int.lt_zpow_iff_log_lt (b := 2) (R := ℝ) (x := 1) (r := 1 + 1 / 2 ^ (p + 1)) (by norm_num)
        (by linarith)).1 (by push_cast; rw [zpow_one]; linarith)
      omega
    · refine (Int.zpow_le_iff_le_log (b := 2) (R := ℝ) (x := 0) (by norm_num) (by linarith)).1 ?_
      push_cast
      rw [zpow_zero]
      linarith
  unfold rnd ulp
  rw [hl]
  have e : (2 : ℝ) ^ ((0 : ℤ) + 1 - (p : ℤ)) = 1 / 2 ^ (p - 1) := by
    rw [show (0 : ℤ) + 1 - (p : ℤ) = -((p - 1 : ℕ) : ℤ) by omega, zpow_neg, zpow_natCast, one_div]
  rw [e]
  have hq : (0 : ℝ) < 2 ^ (p - 1) := by positivity
  have e2 : (1 + 1 / 2 ^ (p + 1) : ℝ) / (1 / 2 ^ (p - 1)) = 2 ^ (p - 1) + 1 / 4 := by
    have : (2 : ℝ) ^ (p + 1) = 2 ^ (p - 1) * 4 := by
      rw [show p + 1 = (p - 1) + 2 by omega, pow_add]; norm_num
    rw [this]
    field_simp
  rw [e2, roundHalfEven_of_abs_lt (k := 2 ^ (p - 1))]
  · push_cast
    field_simp
  · push_cast
    rw [add_sub_cancel_left, abs_of_pos (by norm_num)]
    norm_num

/-- What is added to the lower edge of a stratum never carries it beyond one. -/
theorem stratum_top {p : ℕ} (hp : 1 ≤ p) {a b c : ℝ} (ha0 : 0 ≤ a) (hab : a ≤ b) (hb : b ≤ 1) (hc0 : 0 ≤ c)
    (hc : c ≤ rnd p (b - a)) : 0 ≤ rnd p (c + a) ∧ rnd p (c + a) ≤ 1 := by
  refine ⟨rnd_nonneg hp (by linarith), rnd_just_above_one hp ?_⟩
  have h1 := rnd_unit_err (p := p) hp (x := 1 - a) (by linarith) (by linarith)
  have h2 := rnd_mono hp (show b - a ≤ 1 - a by linarith)
  have := (abs_le.1 h1).2
  linarith

theorem lhsEdge_rounded {p n : ℕ} (hp : 10 ≤ p) (hn : 0 < n) (hnp : n ≤ 2 ^ p) {i : ℕ} (hi : i < n) :
    0 ≤ (lhsEdge (binArith p) n i).1 ∧ (lhsEdge (binArith p) n i).1 ≤ (lhsEdge (binArith p) n (i + 1)).1 ∧
      (lhsEdge (binArith p) n (i + 1)).1 ≤ 1 := by
  have hn0 : (0 : ℝ) < n := by exact_mod_cast hn
  have hofn : ∀ k : ℕ, k ≤ 2 ^ p → ((binArith p).ofInt (k : ℤ)).1 = k := by
    intro k hk
    rw [bin_ofInt (by omega) (by rw [abs_of_nonneg (by positivity)]; exact_mod_cast hk)]
    exact Int.cast_natCast _
  set c : ℝ := rnd p (1 / n) with hcd
  have hc0 : 0 ≤ c := rnd_nonneg (by omega) (by positivity)
  have hlin : ∀ k ≤ n, (linspaceAt (binArith p) n k).1 = rnd p (k * c) := by
    intro k hk
    show rnd p (((binArith p).ofInt (k : ℤ)).1 * rnd p (((binArith p).ofInt 1).1 / ((binArith p).ofInt (n : ℤ)).1)) = _
    rw [hofn k (hk.trans hnp), hofn n hnp, bin_one (by omega)]
  have hle1 : ∀ k < n, rnd p (k * c) ≤ 1 := by
    intro k hk
    refine rnd_just_above_one (by omega) (le_trans ?_ (le_add_of_nonneg_right (by positivity)))
    have he := (abs_le.1 (rnd_err p (1 / n))).2
    rw [abs_of_pos (by positivity)] at he
    have hk' : (k : ℝ) + 1 ≤ n := by exact_mod_cast hk
    have hc1 : c ≤ 1 / n + 1 / 2 ^ p * (1 / n) := by rw [hcd]; linarith
    have hnp' : (n : ℝ) ≤ 2 ^ p := by exact_mod_cast hnp
    have h2p : (0 : ℝ) < 2 ^ p := by positivity
    calc (k : ℝ) * c ≤ (n - 1) * (1 / n + 1 / 2 ^ p * (1 / n)) := by
          apply mul_le_mul (by linarith) hc1 hc0 (by linarith [Nat.cast_nonneg (α := ℝ) k])
      _ = (n - 1) * (2 ^ p + 1) / (n * 2 ^ p) := by field_simp
      _ ≤ 1 := by
          rw [div_le_one (by positivity)]
          nlinarith
  have hedge : ∀ k < n, (lhsEdge (binArith p) n k).1 = rnd p (k * c) := by
    intro k hk
    unfold lhsEdge
    rw [if_neg hk.ne, hlin k hk.le]
  rw [hedge i hi]
  refine ⟨rnd_nonneg (by omega) (by positivity), ?_⟩
  rcases Nat.lt_or_ge (i + 1) n with h | h
  · rw [hedge (i + 1) h]
    refine ⟨rnd_mono (by omega) ?_, hle1 _ h⟩
    push_cast
    nlinarith
  · have : i + 1 = n := by omega
    unfold lhsEdge
    rw [if_pos this, bin_one (by omega)]
    exact ⟨hle1 i hi, le_rfl⟩

/-- Every entry of a rounded Latin hypercube is the lower edge of its stratum plus at most its rounded width. -/
theorem lhsEntry_form {p nDim n : ℕ} (hp : 10 ≤ p) (hn : 0 < n) (hnp : n ≤ 2 ^ p) {kind : LhsType}
    (hk : kind ≠ .other) {d : LhsDraw (Bin p)} (hd : FloatDraw (binArith p) nDim n d) {i j : ℕ} (hi : i < n)
    (hj : j < nDim) : ∃ (x : Bin p) (c : ℝ), lhsEntry (binArith p) kind n d.u i j = .ok x ∧ 0 ≤ c ∧
      c ≤ rnd p ((lhsEdge (binArith p) n (i + 1)).1 - (lhsEdge (binArith p) n i).1) ∧
      x.1 = rnd p (c + (lhsEdge (binArith p) n i).1) := by
  obtain ⟨e1, e2, e3⟩ := lhsEdge_rounded hp hn hnp hi
  set a := lhsEdge (binArith p) n i with ha
  set b := lhsEdge (binArith p) n (i + 1) with hb
  have hd0 : 0 ≤ rnd p (b.1 - a.1) := rnd_nonneg (by omega) (by linarith)
  unfold lhsEntry
  cases kind with
  | other => exact absurd rfl hk
  | centered =>
    have h2 : ((binArith p).ofInt 2).1 = 2 := by
      rw [bin_ofInt (by omega)]
      · norm_num
      · have : (2 : ℤ) ^ 1 ≤ 2 ^ p := pow_le_pow_right₀ (by norm_num) (by omega)
        simpa using this
    refine ⟨_, rnd p (rnd p (b.1 - a.1) / 2), rfl, rnd_nonneg (by omega) (by linarith), ?_, ?_⟩
    · have := rnd_mono (p := p) (by omega) (show rnd p (b.1 - a.1) / 2 ≤ rnd p (b.1 - a.1) by linarith)
      rwa [rnd_of_isBinary (by omega) (rnd_isBinary p (b.1 - a.1))] at this
    · show rnd p (rnd p (rnd p (b.1 - a.1) / ((binArith p).ofInt 2).1) + a.1) = _
      rw [h2]
  | classic =>
    have hi' : i < d.u.length := by rw [hd.u_length]; exact hi
    have hj' : j < d.u[i].length := by rw [hd.u_width _ (List.getElem_mem hi')]; exact hj
    obtain ⟨g1, g2⟩ := hd.u_range _ (List.getElem_mem hi') _ (List.getElem_mem hj')
    have g1' : 0 ≤ (d.u[i][j]).1 := by
      have : ((binArith p).ofInt 0).1 ≤ (d.u[i][j]).1 := g1
      rwa [bin_zero] at this
    have g2' : (d.u[i][j]).1 < 1 := by
      have : (d.u[i][j]).1 < ((binArith p).ofInt 1).1 := g2
      rwa [bin_one (by omega)] at this
    simp only [pyGet_lt hi', ok_bind, pyGet_lt hj']
    refine ⟨_, rnd p ((d.u[i][j]).1 * rnd p (b.1 - a.1)), rfl, rnd_nonneg (by omega) (by positivity), ?_, rfl⟩
    have := rnd_mono (p := p) (by omega)
      (show (d.u[i][j]).1 * rnd p (b.1 - a.1) ≤ rnd p (b.1 - a.1) by nlinarith)
    rwa [rnd_of_isBinary (by omega) (rnd_isBinary p (b.1 - a.1))] at this

/-- Every entry of a rounded Latin hypercube is in the unit interval. -/
theorem lhsEntry_rounded {p nDim n : ℕ} (hp : 10 ≤ p) (hn : 0 < n) (hnp : n ≤ 2 ^ p) {kind : LhsType}
    (hk : kind ≠ .other) {d : LhsDraw (Bin p)} (hd : FloatDraw (binArith p) nDim n d) {i j : ℕ} (hi : i < n)
    (hj : j < nDim) : ∃ x, lhsEntry (binArith p) kind n d.u i j = .ok x ∧
      (binArith p).ofInt 0 ≤ x ∧ x ≤ (binArith p).ofInt 1 := by
  obtain ⟨e1, e2, e3⟩ := lhsEdge_rounded hp hn hnp hi
  obtain ⟨x, c, hx, c0, c1, e⟩ := lhsEntry_form hp hn hnp hk hd hi hj
  have := stratum_top (p := p) (by omega) e1 e2 e3 c0 c1
  rw [← e] at this
  exact ⟨x, hx, bin_unit (by omega) this.1 this.2⟩

theorem stratum_rounded {p : ℕ} {a b c : ℝ} (ha0 : 0 ≤ a) (hab : a ≤ b) (hb : b ≤ 1) (hc0 : 0 ≤ c)
    (hc : c ≤ rnd p (b - a)) : a - 4 / 2 ^ p ≤ rnd p (c + a) ∧ rnd p (c + a) ≤ b + 4 / 2 ^ p := by
  have h2p : (0 : ℝ) < 1 / 2 ^ p := by positivity
  have e4 : (4 : ℝ) / 2 ^ p = 4 * (1 / 2 ^ p) := by ring
  have hu1 : (1 : ℝ) / 2 ^ p ≤ 1 := by rw [div_le_one (by positivity)]; exact one_le_pow₀ (by norm_num)
  have h1 := rnd_err p (b - a)
  have h2 := rnd_err p (c + a)
  rw [e4]
  rw [abs_of_nonneg (show 0 ≤ b - a by linarith)] at h1
  rw [abs_of_nonneg (show 0 ≤ c + a by linarith)] at h2
  set u : ℝ := 1 / 2 ^ p
  have h1' := (abs_le.1 h1).2
  have h3 : c + a ≤ b + u := by nlinarith
  obtain ⟨h4, h5⟩ := abs_le.1 h2
  have h6 : u * (c + a) ≤ 2 * u := by nlinarith
  constructor <;> linarith

theorem lhsNormalized_rounded {p nDim n : ℕ} (hp : 10 ≤ p) (hn : 0 < n) (hnp : n ≤ 2 ^ p) {kind : LhsType}
    (hk : kind ≠ .other) {d : LhsDraw (Bin p)} (hd : FloatDraw (binArith p) nDim n d) :
    ∃ M, lhsNormalized (binArith p) kind nDim n d = .ok M ∧ M.length = n ∧
      (∀ r ∈ M, r.length = nDim ∧ ∀ x ∈ r, (binArith p).ofInt 0 ≤ x ∧ x ≤ (binArith p).ofInt 1) ∧
      ∀ i < n, ∀ j < nDim, ∃ row x, M[i]? = some row ∧ row[j]? = some x ∧
        lhsEntry (binArith p) kind n d.u ((d.orders.getD j []).getD i 0) j = .ok x := by
  have hone : ∀ i j : ℕ, ∃ x, i < n → j < nDim → lhsEntry (binArith p) kind n d.u i j = .ok x ∧
      (binArith p).ofInt 0 ≤ x ∧ x ≤ (binArith p).ofInt 1 := by
    intro i j
    by_cases h : i < n ∧ j < nDim
    · obtain ⟨x, hx⟩ := lhsEntry_rounded hp hn hnp hk hd h.1 h.2
      exact ⟨x, fun _ _ => hx⟩
    · exact ⟨(binArith p).ofInt 0, fun a b => absurd ⟨a, b⟩ h⟩
  choose e he using hone
  refine ⟨(List.range n).map fun i => (List.range nDim).map fun j => e ((d.orders.getD j []).getD i 0) j, ?_, by simp, ?_, ?_⟩
  · unfold lhsNormalized
    rw [if_neg hk]
    rw [mapE_ok_of_forall (g := fun i : Nat => (List.range nDim).map fun j : Nat => e i j)]
    · rw [ok_bind]
      refine mapE_ok_of_forall fun i hi => mapE_ok_of_forall fun j hj => ?_
      rw [List.mem_range] at hi hj
      have hj' : j < d.orders.length := by rw [hd.orders_length]; exact hj
      have hp := hd.orders_perm _ (List.getElem_mem hj')
      have hi' : i < d.orders[j].length := by rw [hp.length_eq]; simpa using hi
      have hlt : d.orders[j][i] < n := by simpa using hp.mem_iff.1 (List.getElem_mem hi')
      rw [pyGet_lt hj', ok_bind, pyGet_lt hi', ok_bind, pyGet_lt (by simpa using hlt), ok_bind,
        pyGet_lt (by simpa using hj), getD_lt hj', getD_lt hi']
      simp
    · intro i hi
      refine mapE_ok_of_forall fun j hj => ?_
      rw [List.mem_range] at hi hj
      exact (he i j hi hj).1
  · intro r hr
    obtain ⟨i, hi, rfl⟩ := List.mem_map.1 hr
    rw [List.mem_range] at hi
    refine ⟨by simp, fun x hx => ?_⟩
    obtain ⟨j, hj, rfl⟩ := List.mem_map.1 hx
    rw [List.mem_range] at hj
    have hj' : j < d.orders.length := by rw [hd.orders_length]; exact hj
    have hp := hd.orders_perm _ (List.getElem_mem hj')
    have hi' : i < d.orders[j].length := by rw [hp.length_eq]; simpa using hi
    have hlt : d.orders[j][i] < n := by simpa using hp.mem_iff.1 (List.getElem_mem hi')
    rw [getD_lt hj', getD_lt hi']
    exact (he _ j hlt hj).2
  · intro i hi j hj
    have hj' : j < d.orders.length := by rw [hd.orders_length]; exact hj
    have hp := hd.orders_perm _ (List.getElem_mem hj')
    have hi' : i < d.orders[j].length := by rw [hp.length_eq]; simpa using hi
    have hlt : d.orders[j][i] < n := by simpa using hp.mem_iff.1 (List.getElem_mem hi')
    refine ⟨_, _, by rw [List.getElem?_map, List.getElem?_range hi]; rfl,
      by rw [List.getElem?_map, List.getElem?_range hj]; rfl, ?_⟩
    show _ = Except.ok (e ((d.orders.getD j []).getD i 0) j)
    rw [getD_lt hj', getD_lt hi']
    exact (he _ j hlt hj).1

/-- The generator chooses one of the designs it draws, without error. -/
theorem choose_rounded {p : ℕ} (hp : 10 ≤ p) (num : LhsNum (Bin p)) (l : Lhs) (hk : l.lhsType ≠ .other)
    (hc : l.criterion = .none ∨ l.criterion = .maximin ∨ l.criterion = .ratio) {nDim n : Nat}
    (hn : 0 < n) (hnp : n ≤ 2 ^ p) (first : LhsDraw (Bin p)) (draws : List (LhsDraw (Bin p)))
    (hd : ∀ d ∈ first :: draws, FloatDraw (binArith p) nDim n d) :
    ∃ M, l.choose (binArith p) num nDim n first draws = .ok M ∧
      ∃ d ∈ first :: draws, lhsNormalized (binArith p) l.lhsType nDim n d = .ok M := by
  have hgen : ∀ d ∈ first :: draws, ∃ M, lhsNormalized (binArith p) l.lhsType nDim n d = .ok M ∧ M.length = n := by
    intro d h
    obtain ⟨M, h1, h2, -⟩ := lhsNormalized_rounded hp hn hnp hk (hd d h)
    exact ⟨M, h1, h2⟩
  have hloop : ∀ {S : Type} (step : List (List (Bin p)) → S → Except PyErr S) (s : S),
      (∀ h s, h.length = n → ∃ s', step h s = .ok s') →
      ∃ s', lhsLoop (lhsNormalized (binArith p) l.lhsType nDim n) step draws s = .ok s' := by
    intro S step s hs
    have hd' := fun d h => hgen d (List.mem_cons_of_mem first h)
    clear hgen hd
    induction draws generalizing s with
    | nil => exact ⟨s, rfl⟩
    | cons d ds ih =>
      obtain ⟨M, m1, m2⟩ := hd' d (by simp)
      obtain ⟨s1, h1⟩ := hs M s m2
      obtain ⟨s2, h2⟩ := ih s1 fun d hd => hd' d (by simp [hd])
      refine ⟨s2, ?_⟩
      rw [lhsLoop, m1, ok_bind, h1, ok_bind, h2]
  have hpd : n ≠ 1 → ∀ h : List (List (Bin p)), h.length = n → ∃ a b, pdist num.dist h = a :: b := by
    intro hn1 h hl
    match h, hl with
    | [], hl => simp at hl; omega
    | [_], hl => simp at hl; omega
    | a :: b :: t, _ => exact ⟨num.dist a b, _, rfl⟩
  have hchoose : ∃ M, l.choose (binArith p) num nDim n first draws = .ok M := by
    obtain ⟨M0, m1, -⟩ := hgen first (by simp)
    unfold Lhs.choose
    rw [m1, ok_bind]
    by_cases h1 : l.criterion = .none ∨ n = 1
    · rw [if_pos h1]; exact ⟨_, rfl⟩
    · rw [if_neg h1]
      rw [not_or] at h1
      rcases hc with hc | hc | hc
      · exact absurd hc h1.1
      · rw [hc]
        obtain ⟨s', hs'⟩ := hloop (maximinStep num) ((binArith p).ofInt 0, none) (by
          intro h s hl
          obtain ⟨a, b, e⟩ := hpd h1.2 h hl
          rw [maximinStep, e]
          simp only [npMin, ok_bind]
          split <;> exact ⟨_, rfl⟩)
        simp only [hs', ok_bind]
        exact ⟨_, rfl⟩
      · rw [hc]
        obtain ⟨s', hs'⟩ := hloop (ratioStep (binArith p) num) (none, none) (by
          intro h s hl
          obtain ⟨a, b, e⟩ := hpd h1.2 h hl
          rw [ratioStep, lhsRatio, e]
          simp only [npMin, npMax, ok_bind]
          split <;> (rw [ok_bind]; split <;> exact ⟨_, rfl⟩))
        simp only [hs', ok_bind]
        exact ⟨_, rfl⟩
  obtain ⟨M, hM⟩ := hchoose
  obtain ⟨d, hm, hg⟩ := Lhs.choose_mem hM
  exact ⟨M, hM, d, hm, hg⟩

/-- **C146 (Latin hypercubes).** With correctly rounded arithmetic of `p ≥ 10` bits, `Lhs.generate` returns exactly
`n ≥ 1` points of the space, for both design types, the default criterion (maximin), `ratio` and no criterion, and every
random outcome, for up to `2 ^ p` points. -/
theorem C146_lhs {p : ℕ} (hp : 10 ≤ p) (num : LhsNum (Bin p)) (l : Lhs) (hk : l.lhsType ≠ .other)
    (hc : l.criterion = .none ∨ l.criterion = .maximin ∨ l.criterion = .ratio)
    (dims : List (Dim (Bin p))) (hne : dims ≠ []) (hv : ∀ d ∈ dims, ValidDim (binArith p) d)
    (hf : ∀ d ∈ dims, FinePrecision Subtype.val (1 / 2 ^ p) 0 (2 ^ p) d) (n : Nat)
    (hn : 0 < n) (hnp : n ≤ 2 ^ p) (first : LhsDraw (Bin p)) (draws : List (LhsDraw (Bin p)))
    (hd : ∀ d ∈ first :: draws, FloatDraw (binArith p) dims.length n d) :
    Supplies (binArith p) dims n (l.generate (binArith p) num dims n first draws) := by
  obtain ⟨M, hM, d, hm, hg⟩ := choose_rounded hp num l hk hc hn hnp first draws hd
  obtain ⟨M', m1, m2, m3, -⟩ := lhsNormalized_rounded hp hn hnp hk (hd d hm)
  rw [hg] at m1
  injection m1 with m1
  subst m1
  unfold Lhs.generate
  refine supplies_of_unit (binArith_floatLike hp) (binArith_orderly hp) hne hv hf hn m2 m3 ?_
  simp only [hM, ok_bind]

theorem lhsEdge_near {p n : ℕ} (hp : 10 ≤ p) (hn : 0 < n) (hnp : n ≤ 2 ^ p) {i : ℕ} (hi : i ≤ n) :
    |(lhsEdge (binArith p) n i).1 - (i : ℝ) / n| ≤ 3 / 2 ^ p := by
  have hn0 : (0 : ℝ) < n := by exact_mod_cast hn
  have h2p : (0 : ℝ) < 1 / 2 ^ p := by positivity
  have e3 : (3 : ℝ) / 2 ^ p = 3 * (1 / 2 ^ p) := by ring
  have hu1 : (1 : ℝ) / 2 ^ p ≤ 1 := by rw [div_le_one (by positivity)]; exact one_le_pow₀ (by norm_num)
  rw [e3]
  set u : ℝ := 1 / 2 ^ p with hu
  unfold lhsEdge
  split
  · next h =>
    subst h
    rw [bin_one (by omega), div_self hn0.ne', sub_self, abs_zero]
    positivity
  · next h =>
    have hofn : ∀ k : ℕ, k ≤ 2 ^ p → ((binArith p).ofInt (k : ℤ)).1 = k := by
      intro k hk
      rw [bin_ofInt (by omega) (by rw [abs_of_nonneg (by positivity)]; exact_mod_cast hk)]
      exact Int.cast_natCast _
    have e : (linspaceAt (binArith p) n i).1 = rnd p (i * rnd p (1 / n)) := by
      show rnd p (((binArith p).ofInt (i : ℤ)).1 * rnd p (((binArith p).ofInt 1).1 / ((binArith p).ofInt (n : ℤ)).1)) = _
      rw [hofn i (hi.trans hnp), hofn n hnp, bin_one (by omega)]
    rw [e]
    have h1 := rnd_err p (1 / n)
    have h2 := rnd_err p (i * rnd p (1 / n))
    rw [← hu] at h1 h2
    set c : ℝ := rnd p (1 / n)
    have hin : (i : ℝ) / n ≤ 1 := by rw [div_le_one hn0]; exact_mod_cast hi
    have hin0 : 0 ≤ (i : ℝ) / n := by positivity
    have h3 : |(i : ℝ) * c - i / n| ≤ u := by
      have : (i : ℝ) * c - i / n = i * (c - 1 / n) := by ring
      rw [this, abs_mul, abs_of_nonneg (by positivity)]
      rw [abs_of_pos (show (0 : ℝ) < 1 / n by positivity)] at h1
      calc (i : ℝ) * |c - 1 / n| ≤ i * (u * (1 / n)) := by gcongr
        _ = u * (i / n) := by ring
        _ ≤ u * 1 := by gcongr
        _ = u := mul_one u
    have h4 : |(i : ℝ) * c| ≤ 2 := by
      have := abs_le.1 h3
      rw [abs_le]
      constructor <;> linarith
    have h5 : |rnd p (i * c) - i * c| ≤ 2 * u := h2.trans (by nlinarith)
    have := abs_le.1 h3
    have := abs_le.1 h5
    rw [abs_le]
    constructor <;> linarith

/-- **C146 (one sample per stratum).** The design drawn by `Lhs` is still a Latin hypercube after rounding: in every
dimension the `n` samples can be assigned to the `n` strata `[k/n, (k+1)/n]`, one to each, such that every coordinate is
within `7 / 2 ^ p` of its stratum. -/
theorem C146_lhs_strata {p : ℕ} (hp : 10 ≤ p) (num : LhsNum (Bin p)) (l : Lhs) (hk : l.lhsType ≠ .other)
    (hc : l.criterion = .none ∨ l.criterion = .maximin ∨ l.criterion = .ratio) (nDim n : Nat)
    (hn : 0 < n) (hnp : n ≤ 2 ^ p) (first : LhsDraw (Bin p)) (draws : List (LhsDraw (Bin p)))
    (hd : ∀ d ∈ first :: draws, FloatDraw (binArith p) nDim n d) :
    ∃ M, l.choose (binArith p) num nDim n first draws = .ok M ∧ M.length = n ∧
      ∀ j < nDim, ∃ σ : Nat → Nat, ((List.range n).map σ).Perm (List.range n) ∧
        ∀ i < n, ∃ row x, M[i]? = some row ∧ row[j]? = some x ∧
          (σ i : ℝ) / n - 7 / 2 ^ p ≤ x.1 ∧ x.1 ≤ ((σ i : ℝ) + 1) / n + 7 / 2 ^ p := by
  obtain ⟨M, hM, d, hm, hg⟩ := choose_rounded hp num l hk hc hn hnp first draws hd
  obtain ⟨M', m1, m2, -, m4⟩ := lhsNormalized_rounded hp hn hnp hk (hd d hm)
  rw [hg] at m1
  injection m1 with m1
  subst m1
  have hd := hd d hm
  refine ⟨M, hM, m2, fun j hj => ?_⟩
  have hj' : j < d.orders.length := by rw [hd.orders_length]; exact hj
  have hperm := hd.orders_perm _ (List.getElem_mem hj')
  refine ⟨fun i => (d.orders.getD j []).getD i 0, ?_, ?_⟩
  · have : (List.range n).map (fun i => (d.orders.getD j []).getD i 0) = d.orders[j] := by
      rw [getD_lt hj']
      refine List.ext_getElem (by rw [hperm.length_eq]; simp) fun i h1 h2 => ?_
      rw [List.getElem_map, List.getElem_range, getD_lt h2]
    rw [this]
    exact hperm
  intro i hi
  obtain ⟨row, x, g1, g2, g3⟩ := m4 i hi j hj
  refine ⟨row, x, g1, g2, ?_⟩
  have hi' : i < d.orders[j].length := by rw [hperm.length_eq]; simpa using hi
  have hlt : d.orders[j][i] < n := by simpa using hperm.mem_iff.1 (List.getElem_mem hi')
  show ((d.orders.getD j []).getD i 0 : ℝ) / n - 7 / 2 ^ p ≤ x.1 ∧ x.1 ≤ ((d.orders.getD j []).getD i 0 + 1 : ℝ) / n + 7 / 2 ^ p
  rw [getD_lt hj', getD_lt hi'] at g3 ⊢
  set k := d.orders[j][i]
  obtain ⟨e1, e2, e3⟩ := lhsEdge_rounded hp hn hnp hlt
  have q1 := (abs_le.1 (lhsEdge_near hp hn hnp (i := k) hlt.le)).1
  have q2 := (abs_le.1 (lhsEdge_near hp hn hnp (i := k + 1) hlt)).2
  obtain ⟨y, c, hy, c0, c1, e⟩ := lhsEntry_form hp hn hnp hk hd hlt hj
  rw [g3] at hy
  injection hy with hy
  subst hy
  obtain ⟨s1, s2⟩ := stratum_rounded (p := p) e1 e2 e3 c0 c1
  rw [← e] at s1 s2
  push_cast at q2
  have e7 : (7 : ℝ) / 2 ^ p = 3 / 2 ^ p + 4 / 2 ^ p := by ring
  rw [e7]
  constructor <;> linarith

/-! ## Hammersly -/

theorem linspaceAt_rounded {p n : ℕ} (hp : 10 ≤ p) (hn : 0 < n) (hnp : n ≤ 2 ^ p) {i : ℕ} (hi : i < n) :
    (binArith p).ofInt 0 ≤ linspaceAt (binArith p) n i ∧ linspaceAt (binArith p) n i ≤ (binArith p).ofInt 1 := by
  obtain ⟨e1, e2, e3⟩ := lhsEdge_rounded hp hn hnp hi
  have e : lhsEdge (binArith p) n i = linspaceAt (binArith p) n i := by
    unfold lhsEdge
    rw [if_neg hi.ne]
  rw [e] at e1 e2
  exact bin_unit (by omega) e1 (e2.trans e3)

theorem unitReal_rounded {p : ℕ} (hp : 10 ≤ p) : ValidDim (binArith p) (unitReal (binArith p)) ∧
    FinePrecision Subtype.val (1 / 2 ^ p) 0 (2 ^ p) (unitReal (binArith p)) := by
  refine ⟨⟨?_, Or.inl rfl, fun x h1 h2 => ⟨h1, h2⟩⟩, fun x => rfl, fun h => by simp at h⟩
  show ((binArith p).ofInt 0).1 < ((binArith p).ofInt 1).1
  rw [bin_zero, bin_one (by omega)]
  norm_num

/-- **C146 (Hammersly).** With correctly rounded arithmetic of `p ≥ 10` bits, `Hammersly.generate` returns exactly `n ≥ 1`
points of the space of two or more dimensions, under the condition of `C146_halton` (in one dimension it delegates to
`Halton.generate`). -/
theorem C146_hammersly {p : ℕ} (hp : 10 ≤ p) (h : Halton) (dims : List (Dim (Bin p))) (hd : 2 ≤ dims.length)
    (hv : ∀ d ∈ dims, ValidDim (binArith p) d)
    (hf : ∀ d ∈ dims, FinePrecision Subtype.val (1 / 2 ^ p) 0 (2 ^ p) d) (n : Nat) (hn : 0 < n) (hnp : n ≤ 2 ^ p)
    (draw : ℤ) (bases : List Nat) (skip : Nat) (hbases : h.bases (dims.length - 1) = .ok bases)
    (hskip : h.skip bases draw = .ok (skip : ℤ))
    (hb : ∀ b ∈ bases, 1 < b ∧ (4 * (Nat.digits b (skip + n)).length + 2) * (b * (skip + n)) < 2 ^ p) :
    Supplies (binArith p) dims n (Hammersly.generate (binArith p) h dims n draw) := by
  obtain ⟨hr, pts, hpts, hlen, hin⟩ := C146_halton hp h (List.replicate (dims.length - 1) (unitReal (binArith p)))
    (by
      intro h0
      have := congrArg List.length h0
      simp at this
      omega)
    (fun d hm => by rw [List.eq_of_mem_replicate hm]; exact (unitReal_rounded hp).1)
    (fun d hm => by rw [List.eq_of_mem_replicate hm]; exact (unitReal_rounded hp).2) n hn draw bases skip
    (by simpa using hbases) hskip hb
  have hnum : ∀ q : Point (Bin p), ∃ r : List (Bin p), q ∈ pts → mapE Val.toNum q = .ok r ∧
      r.length = dims.length - 1 ∧ ∀ x ∈ r, (binArith p).ofInt 0 ≤ x ∧ x ≤ (binArith p).ofInt 1 := by
    intro q
    by_cases hq : q ∈ pts
    · have hi := hin q hq
      have hl : q.length = dims.length - 1 := by rw [← hi.length_eq]; simp
      have hall : ∀ v ∈ q, ∃ x : Bin p, v = .num x ∧ (binArith p).ofInt 0 ≤ x ∧ x ≤ (binArith p).ofInt 1 := by
        intro v hv
        unfold InSpace at hi
        obtain ⟨d, hd, hL⟩ := forall₂_mem_right hi hv
        rw [List.eq_of_mem_replicate hd] at hL
        exact hL
      have hx : ∃ xs : List (Bin p), q = xs.map Val.num ∧
          ∀ x ∈ xs, (binArith p).ofInt 0 ≤ x ∧ x ≤ (binArith p).ofInt 1 := by
        clear hl hq hi
        induction q with
        | nil => exact ⟨[], rfl, by simp⟩
        | cons v vs ih =>
          obtain ⟨xs, rfl, hxs⟩ := ih fun w hw => hall w (by simp [hw])
          obtain ⟨x, rfl, h01⟩ := hall v (by simp)
          refine ⟨x :: xs, rfl, fun y hy => ?_⟩
          rcases List.mem_cons.1 hy with rfl | hy
          · exact h01
          · exact hxs y hy
      obtain ⟨xs, rfl, hxs⟩ := hx
      refine ⟨xs, fun _ => ⟨?_, by simpa using hl, hxs⟩⟩
      exact mapE_toNum_map xs
    · exact ⟨[], fun h => absurd h hq⟩
  choose r hrow using hnum
  have hu : Hammersly.unit (binArith p) h dims.length n draw =
      .ok (List.zipWith (fun (r : List (Bin p)) i => r ++ [linspaceAt (binArith p) n i]) (pts.map r) (List.range n)) := by
    unfold Hammersly.unit
    rw [hpts, ok_bind, mapE_ok_of_forall (g := r) (fun q hq => (hrow q hq).1), ok_bind]
  unfold Hammersly.generate
  refine supplies_of_unit (binArith_floatLike hp) (binArith_orderly hp) (by rintro rfl; simp at hd) hv hf hn
    (M := List.zipWith (fun (r : List (Bin p)) i => r ++ [linspaceAt (binArith p) n i]) (pts.map r) (List.range n))
    (by simp [hlen]) ?_ ?_
  · intro row hm
    obtain ⟨i, hi, rfl⟩ := List.getElem_of_mem hm
    simp only [List.length_zipWith, List.length_range, List.length_map, lt_min_iff] at hi
    simp only [List.getElem_zipWith, List.getElem_range, List.getElem_map]
    obtain ⟨-, g1, g2⟩ := hrow pts[i] (List.getElem_mem _)
    refine ⟨by simp [g1]; omega, fun x hx => ?_⟩
    rcases List.mem_append.1 hx with hx | hx
    · exact g2 x hx
    · rw [List.mem_singleton] at hx
      subst hx
      exact linspaceAt_rounded hp hn hnp hi.2
  · rw [if_neg (by omega)]
    simp only [hu, ok_bind]

/-! ## Searches with these generators -/

/-- The outcomes of the generators that C146 covers, asked for `n` points: everything random, and the earlier use of a
Sobol generator, is arbitrary. -/
inductive Answer {p : ℕ} (dims : List (Dim (Bin p))) (n : Nat) : GenResult (Bin p) → Prop
  | lhs (num : LhsNum (Bin p)) (l : Lhs) (first : LhsDraw (Bin p)) (draws : List (LhsDraw (Bin p)))
      (type : l.lhsType ≠ .other) (criterion : l.criterion = .none ∨ l.criterion = .maximin ∨ l.criterion = .ratio)
      (size : n ≤ 2 ^ p) (random : ∀ d ∈ first :: draws, FloatDraw (binArith p) dims.length n d) :
      Answer dims n (l.generate (binArith p) num dims n first draws)
  | halton (h : Halton) (draw : ℤ) (bases : List Nat) (skip : Nat) (hbases : h.bases dims.length = .ok bases)
      (hskip : h.skip bases draw = .ok (skip : ℤ))
      (size : ∀ b ∈ bases, 1 < b ∧ (4 * (Nat.digits b (skip + n)).length + 2) * (b * (skip + n)) < 2 ^ p) :
      Answer dims n (h.generate (binArith p) dims n draw)
  | hammersly (h : Halton) (draw : ℤ) (bases : List Nat) (skip : Nat) (several : 2 ≤ dims.length)
      (hbases : h.bases (dims.length - 1) = .ok bases) (hskip : h.skip bases draw = .ok (skip : ℤ))
      (size : n ≤ 2 ^ p ∧ ∀ b ∈ bases, 1 < b ∧ (4 * (Nat.digits b (skip + n)).length + 2) * (b * (skip + n)) < 2 ^ p) :
      Answer dims n (Hammersly.generate (binArith p) h dims n draw)
  | sobol (mod1 : Bin p → Bin p) (hmod : ∀ x, 0 ≤ (mod1 x).1 ∧ (mod1 x).1 < 1) (skip : Nat) (randomize : Bool) (s : Sobol)
      (hs : Sobol.new skip randomize = .ok s) (history : List (List (Dim (Bin p)) × Nat × List (Bin p)))
      (shift : List (Bin p)) (hshift : shift.length = dims.length) (precision : 30 ≤ p) (few : dims.length ≤ 40)
      (size : skip + n ≤ 2 ^ 30 - 1)
      (budget : skip ≠ 0 → (s.run (binArith p) mod1 history).numGenerated + n ≤ skip) :
      Answer dims n ((s.run (binArith p) mod1 history).generate (binArith p) mod1 dims n shift).2
  | grid (g : Grid) (perm : Nat → List Nat) (several : 2 ≤ dims.length) (hp : ∀ k, (perm k).Perm (List.range k))
      (L : List (List (Bin p))) (hL : g.layout (binArith p) dims.length n = .ok L)
      (hE : L.length < n → ∃ E, g.extra (binArith p) dims.length (n - L.length) = .ok E) :
      Answer dims n (g.generate (binArith p) dims n perm)

/-- **C146 (all generators).** Whichever of the generators is asked: exactly `n ≥ 1` points of the space, and the dimensions
are left as they were. -/
theorem C146_answers {p : ℕ} (hp : 10 ≤ p) (dims : List (Dim (Bin p))) (hd : dims ≠ [])
    (hv : ∀ d ∈ dims, ValidDim (binArith p) d)
    (hf : ∀ d ∈ dims, FinePrecision Subtype.val (1 / 2 ^ p) 0 (2 ^ p) d) (n : Nat) (hn : 0 < n) (r : GenResult (Bin p))
    (h : Answer dims n r) : Supplies (binArith p) dims n r := by
  cases h with
  | lhs num l first draws type criterion size random =>
    exact C146_lhs hp num l type criterion dims hd hv hf n hn size first draws random
  | halton h draw bases skip hbases hskip size => exact C146_halton hp h dims hd hv hf n hn draw bases skip hbases hskip size
  | hammersly h draw bases skip several hbases hskip size =>
    exact C146_hammersly hp h dims several hv hf n hn size.1 draw bases skip hbases hskip size.2
  | sobol mod1 hmod skip randomize s hs history shift hshift precision few size budget =>
    rw [C25_history_independent_partial (binArith p) mod1 skip randomize s hs history dims n shift
      (List.length_pos_iff.2 hd) few hn size budget]
    exact C146_sobol precision mod1 hmod skip randomize s hs dims hd few hv hf n hn shift hshift size
      (fun h => le_trans (Nat.le_add_left _ _) (budget h))
  | grid g perm several hp' L hL hE =>
    exact C146_grid (binArith_floatLike hp) (binArith_orderly hp) g dims hv hf several n hn perm hp' L hL hE

/-- **C146 (with a search).** In double precision `gp_minimize` with `initial_point_generator` `'lhs'`, `'halton'`,
`'hammersly'`, `'sobol'` or `'grid'` (or an instance), on a mixed space: if the generator is asked for no more points than
it can supply, the search completes (as in C145). -/
theorem C146_gp_minimize {M R G : Type} (W : World (Bin 53) M R G) (sh : Shared (Bin 53) G) (func : Objective (Bin 53))
    (c : WrapArgs (Bin 53) M) (st : Starts (Bin 53)) (rng : R) (hne : sh.dims ≠ [])
    (hv : ∀ d ∈ sh.dims, ValidDim (binArith 53) d) (ho : ∀ d ∈ sh.dims, Ordinary d) (hset : Rounded.SaneCall c)
    (hopt : c.acqOptimizer = "sampling" ∨ c.acqOptimizer = "auto" ∨
      c.acqOptimizer = "lbfgs" ∧ ∃ d ∈ sh.dims, d.isCat = false)
    (hW : Rounded.Reliable (binArith 53) W (sh.dims.map Dim.normalized))
    (hgen : ∀ (g : G) (n : Nat) (r : R), 0 < n → (n : ℤ) ≤ c.nRandomStarts.getD c.nInitialPoints + st.all.length →
      Answer (sh.dims.map Dim.normalized) n (W.generate g (sh.dims.map Dim.normalized) n r).2)
    (hfunc : Rounded.TotalOn (binArith 53) (Rounded.perSecondCall c) sh.dims func)
    (hm : Rounded.WellPosedCall (binArith 53) sh.dims c st) :
    Rounded.Completes (binArith 53) sh.dims c.callback c.nCalls (gpMinimize (binArith 53) W sh func none c rng) := by
  refine C145_double_gp_minimize W sh func c st rng hne hv ho hset hopt hW (Or.inr ?_) hfunc hm
  intro g n r hn hN
  obtain ⟨n, rfl⟩ := Int.eq_ofNat_of_zero_le hn.le
  have hf : ∀ d ∈ sh.dims, FinePrecision Subtype.val (1 / 2 ^ 53) 0 (2 ^ 53) d := fun d hd => (ho d hd).fine (hv d hd)
  have hv' : ∀ d ∈ sh.dims.map Dim.normalized, ValidDim (binArith 53) d := by
    intro d hd
    obtain ⟨e, he, rfl⟩ := List.mem_map.1 hd
    exact (hv e he).normalized
  have hf' : ∀ d ∈ sh.dims.map Dim.normalized, FinePrecision Subtype.val (1 / 2 ^ 53) 0 (2 ^ 53) d := by
    intro d hd
    obtain ⟨e, he, rfl⟩ := List.mem_map.1 hd
    exact (hf e he).normalized
  obtain ⟨h1, P, h2, h3, h4⟩ := C146_answers (by norm_num) (sh.dims.map Dim.normalized) (by simpa using hne) hv' hf' n
    (by omega) _ (hgen g n r (by omega) hN)
  refine ⟨(W.generate g (sh.dims.map Dim.normalized) n r).1, P, ?_, by rw [h3], h4⟩
  exact Prod.ext rfl (Prod.ext h1 h2)

/-! ## Examples -/

theorem dblDims_fine : ∀ d ∈ dblDims, FinePrecision Subtype.val (1 / 2 ^ 53) 0 (2 ^ 53) d :=
  fun d hd => (dblDims_ordinary d hd).fine (dblDims_valid d hd)

/-- A grid over a log-uniform `Real`, an `Integer` and a `Categorical` in double precision. -/
example : Supplies (binArith 53) dblDims 4 (({} : Grid).generate (binArith 53) dblDims 4 List.range) := by
  have hq : Nat.sqrt 4 = 2 := by decide +kernel
  have e : ({} : Grid).layout (binArith 53) 3 4 = quadratureCombine (List.replicate 3 (lineExclude (binArith 53) 2)) := by
    simp [Grid.layout, hq, gridExclude]
  obtain ⟨L, hL⟩ := quadratureCombine_ok (args := List.replicate 3 (lineExclude (binArith 53) 2)) (by simp)
    (by simp [lineExclude])
  have hlen : L.length = 8 := by
    have h8 := (quadratureCombine_spec hL).2.1
    simpa [lineExclude] using h8
  exact C146_grid (binArith_floatLike (by norm_num)) (binArith_orderly (by norm_num)) {} dblDims dblDims_valid dblDims_fine
    (by simp [dblDims]) 4 (by norm_num) List.range (fun _ => .refl _) L (e.trans hL) (fun h => by omega)

/-- A hundred Halton points, skipping the first ten. -/
example : Supplies (binArith 53) dblDims 100
    (({ minSkip := 10, maxSkip := 10, primes := some [2, 3, 5] } : Halton).generate (binArith 53) dblDims 100 0) :=
  C146_halton (by norm_num) _ dblDims dblDims_float.nonempty dblDims_valid dblDims_fine 100 (by norm_num) 0 [2, 3, 5] 10
    rfl rfl (by
      intro b hb
      simp only [List.mem_cons, List.not_mem_nil, or_false] at hb
      rcases hb with rfl | rfl | rfl <;> norm_num)

/-- A hundred Hammersly points. -/
example : Supplies (binArith 53) dblDims 100
    (Hammersly.generate (binArith 53) { primes := some [2, 3] } dblDims 100 0) :=
  C146_hammersly (by norm_num) _ dblDims (by simp [dblDims]) dblDims_valid dblDims_fine 100 (by norm_num) (by norm_num) 0
    [2, 3] 0 rfl rfl (by
      intro b hb
      simp only [List.mem_cons, List.not_mem_nil, or_false] at hb
      rcases hb with rfl | rfl <;> norm_num)

/-- A hundred Sobol points without and with random shift (here by zeros). -/
example (mod1 : Bin 53 → Bin 53) (hmod : ∀ x, 0 ≤ (mod1 x).1 ∧ (mod1 x).1 < 1) (randomize : Bool) :
    ∃ s, Sobol.new 0 randomize = .ok s ∧ Supplies (binArith 53) dblDims 100
      (s.generate (binArith 53) mod1 dblDims 100 (List.replicate 3 ((binArith 53).ofInt 0))).2 := by
  have hs : ∃ s, Sobol.new 0 randomize = .ok s := by cases randomize <;> exact ⟨_, rfl⟩
  obtain ⟨s, hs⟩ := hs
  exact ⟨s, hs, C146_sobol (by norm_num) mod1 hmod 0 randomize s hs dblDims dblDims_float.nonempty (by simp [dblDims])
    dblDims_valid dblDims_fine 100 (by norm_num) _ (by simp [dblDims]) (by norm_num) (by simp)⟩

/-- There is such a remainder. -/
example : ∃ mod1 : Bin 53 → Bin 53, ∀ x, 0 ≤ (mod1 x).1 ∧ (mod1 x).1 < 1 :=
  ⟨fun x => if 0 ≤ x.1 ∧ x.1 < 1 then x else (binArith 53).ofInt 0, fun x => by
    by_cases h : 0 ≤ x.1 ∧ x.1 < 1
    · simp only [h, and_self, if_true]
    · simp only [if_neg h, bin_zero]; norm_num⟩

/-- A Latin hypercube of ten points, the best of two by the default criterion. -/
example (num : LhsNum (Bin 53)) :
    let d : LhsDraw (Bin 53) := ⟨List.replicate 10 (List.replicate 3 ((binArith 53).ofInt 0)), List.replicate 3 (List.range 10)⟩
    let e : LhsDraw (Bin 53) :=
      ⟨List.replicate 10 (List.replicate 3 ((binArith 53).ofInt 0)), List.replicate 3 (List.range 10).reverse⟩
    Supplies (binArith 53) dblDims 10 (({} : Lhs).generate (binArith 53) num dblDims 10 d [e, d]) := by
  intro d e
  have h01 : (binArith 53).ofInt 0 < (binArith 53).ofInt 1 := ofInt_pos (binArith_floatLike (by norm_num)) le_rfl
  have hd : FloatDraw (binArith 53) dblDims.length 10 d := by
    refine ⟨by simp [d], ?_, ?_, by simp [d, dblDims], ?_⟩
    · intro r hr; rw [List.eq_of_mem_replicate hr]; simp [dblDims]
    · intro r hr x hx
      rw [List.eq_of_mem_replicate hr] at hx
      rw [List.eq_of_mem_replicate hx]
      exact ⟨le_rfl, h01⟩
    · intro o ho; rw [List.eq_of_mem_replicate ho]
  have he : FloatDraw (binArith 53) dblDims.length 10 e := by
    refine ⟨hd.u_length, hd.u_width, hd.u_range, by simp [e, dblDims], ?_⟩
    intro o ho
    rw [List.eq_of_mem_replicate ho]
    exact List.reverse_perm _
  refine C146_lhs (by norm_num) num {} (by decide) (by decide) dblDims dblDims_float.nonempty dblDims_valid dblDims_fine 10
    (by norm_num) (by norm_num) d [e, d] ?_
  intro x hx
  simp only [List.mem_cons, List.not_mem_nil, or_false] at hx
  rcases hx with rfl | rfl | rfl <;> assumption

/-- In double precision the ten samples of that hypercube are within `10 ^ -15` of ten different tenths. -/
example (num : LhsNum (Bin 53)) :
    let d : LhsDraw (Bin 53) := ⟨List.replicate 10 (List.replicate 3 ((binArith 53).ofInt 0)), List.replicate 3 (List.range 10)⟩
    ∃ M, ({} : Lhs).choose (binArith 53) num 3 10 d [d] = .ok M ∧ M.length = 10 ∧
      ∀ j < 3, ∃ σ : Nat → Nat, ((List.range 10).map σ).Perm (List.range 10) ∧
        ∀ i < 10, ∃ row x, M[i]? = some row ∧ row[j]? = some x ∧
          (σ i : ℝ) / (10 : ℕ) - 7 / 2 ^ 53 ≤ x.1 ∧ x.1 ≤ ((σ i : ℝ) + 1) / (10 : ℕ) + 7 / 2 ^ 53 := by
  intro d
  have h01 : (binArith 53).ofInt 0 < (binArith 53).ofInt 1 := ofInt_pos (binArith_floatLike (by norm_num)) le_rfl
  have hd : FloatDraw (binArith 53) 3 10 d := by
    refine ⟨by simp [d], ?_, ?_, by simp [d], ?_⟩
    · intro r hr; rw [List.eq_of_mem_replicate hr]; simp
    · intro r hr x hx
      rw [List.eq_of_mem_replicate hr] at hx
      rw [List.eq_of_mem_replicate hx]
      exact ⟨le_rfl, h01⟩
    · intro o ho; rw [List.eq_of_mem_replicate ho]
  refine C146_lhs_strata (by norm_num) num {} (by decide) (by decide) 3 10 (by norm_num) (by norm_num) d [d] ?_
  intro x hx
  simp only [List.mem_cons, List.not_mem_nil, or_false, or_self] at hx
  exact hx ▸ hd

/-- `zeroWorld` with a Latin hypercube as initial design. -/
noncomputable def dblLhsWorld : World (Bin 53) Unit Unit Unit :=
  { zeroWorld (binArith 53) with
    generate := fun g dims n _ => (g, ({} : Lhs).generate (binArith 53) ⟨fun _ _ => (binArith 53).ofInt 0, fun _ => [],
      (binArith 53).ofInt 0⟩ dims n.toNat
      ⟨List.replicate n.toNat (List.replicate dims.length ((binArith 53).ofInt 0)),
        List.replicate dims.length (List.range n.toNat)⟩ []) }

/-- Meets the hypotheses of `C146_gp_minimize` and `C146_answers`: `gp_minimize` over a log-uniform `Real`, an `Integer` and a
`Categorical` with `initial_point_generator='lhs'` completes. -/
example : Rounded.Completes (binArith 53) dblDims .none 8
    (gpMinimize (binArith 53) dblLhsWorld ⟨dblDims, some ()⟩ firstObjective none dblCall ()) := by
  have hr := zeroWorld_reliable (binArith_orderly (show 10 ≤ 53 by norm_num)) (dims := dblDims.map Dim.normalized) (by
    intro d hd
    obtain ⟨e, he, rfl⟩ := List.mem_map.1 hd
    exact (dblDims_valid e he).normalized)
  refine C146_gp_minimize dblLhsWorld ⟨dblDims, some ()⟩ firstObjective dblCall (.point dblPoint) ()
    dblDims_float.nonempty dblDims_valid dblDims_ordinary dblCall_sane
    (Or.inr (Or.inr ⟨rfl, .real dblReal, by simp [dblDims], rfl⟩))
    ⟨hr.fit, hr.predict, hr.draws, hr.acquisition, hr.argsort, hr.lbfgs, hr.multinomial, hr.log⟩
    ?_ firstObjective_total dblCall_wellPosed
  intro g n r hn hN
  refine Answer.lhs _ _ _ _ (by decide) (by decide) ?_ ?_
  · have : ((n : ℤ)) ≤ 6 := hN
    exact le_trans (by omega : n ≤ 2 ^ 3) (Nat.pow_le_pow_right (by norm_num) (by norm_num))
  intro d hd
  rw [List.mem_singleton] at hd
  subst hd
  have h01 : (binArith 53).ofInt 0 < (binArith 53).ofInt 1 := ofInt_pos (binArith_floatLike (by norm_num)) le_rfl
  refine ⟨by simp, ?_, ?_, by simp, ?_⟩
  · intro r hr; rw [List.eq_of_mem_replicate hr]; simp
  · intro r hr x hx
    rw [List.eq_of_mem_replicate hr] at hx
    rw [List.eq_of_mem_replicate hx]
    exact ⟨le_rfl, h01⟩
  · intro o ho; rw [List.eq_of_mem_replicate ho]; simp

end Skopt

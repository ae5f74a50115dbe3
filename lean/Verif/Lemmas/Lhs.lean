import Verif.Lemmas.Generator
import Verif.Model.Lhs
import Verif.Spec.Sampler
import Mathlib.Data.List.Perm.Basic
import Mathlib.Tactic.FieldSimp
import Mathlib.Tactic.Ring
import Mathlib.Tactic.Linarith

/-!
# Lemmas about the Latin hypercube generator
-/

namespace Skopt

/-- What `rng.rand` and `rng.permutation` can deliver: numbers in `[0,1)` and permutations. -/
structure GoodDraw (nDim n : Nat) (d : LhsDraw ℝ) : Prop where
  u_length : d.u.length = n
  u_width : ∀ r ∈ d.u, r.length = nDim
  u_range : ∀ r ∈ d.u, ∀ x ∈ r, 0 ≤ x ∧ x < 1
  orders_length : d.orders.length = nDim
  orders_perm : ∀ o ∈ d.orders, o.Perm (List.range n)

theorem lhsEdge_exact {n i : Nat} (hn : 0 < n) : lhsEdge exact n i = (i : ℝ) / n := by
  have hn' : (n : ℝ) ≠ 0 := by exact_mod_cast hn.ne'
  unfold lhsEdge
  split
  · next h => subst h; simp [exact, hn']
  · simp [linspaceAt, exact, div_eq_mul_inv]

/-- The offset of an entry inside its stratum: 1/2 for centered designs. -/
noncomputable def lhsOffset (kind : LhsType) (u : List (List ℝ)) (i j : Nat) : ℝ :=
  match kind with
  | .centered => 1 / 2
  | _ => ((u.getD i []).getD j 0)

theorem lhsEntry_exact {kind : LhsType} (hk : kind ≠ .other) {nDim n : Nat} (hn : 0 < n)
    {d : LhsDraw ℝ} (hd : GoodDraw nDim n d) {i j : Nat} (hi : i < n) (hj : j < nDim) :
    lhsEntry exact kind n d.u i j = .ok ((i + lhsOffset kind d.u i j) / n) ∧
      0 ≤ lhsOffset kind d.u i j ∧ lhsOffset kind d.u i j < 1 := by
  have hn' : (n : ℝ) ≠ 0 := by exact_mod_cast hn.ne'
  unfold lhsEntry lhsOffset
  simp only [lhsEdge_exact hn]
  cases kind with
  | other => exact absurd rfl hk
  | centered =>
    refine ⟨?_, by norm_num, by norm_num⟩
    simp only [exact]
    congr 1
    push_cast
    field_simp
    ring
  | classic =>
    have hi' : i < d.u.length := by rw [hd.u_length]; exact hi
    have hw := hd.u_width _ (List.getElem_mem hi')
    have hj' : j < d.u[i].length := by rw [hw]; exact hj
    simp only [pyGet_lt hi', ok_bind, pyGet_lt hj', getD_lt hi', getD_lt hj']
    refine ⟨?_, hd.u_range _ (List.getElem_mem hi') _ (List.getElem_mem hj')⟩
    simp only [exact]
    congr 1
    push_cast
    field_simp
    ring

/-- The closed form of a design. -/
noncomputable def lhsDesign (kind : LhsType) (nDim n : Nat) (d : LhsDraw ℝ) : List (List ℝ) :=
  (List.range n).map fun i => (List.range nDim).map fun j =>
    (((d.orders.getD j []).getD i 0 : Nat) +
      lhsOffset kind d.u ((d.orders.getD j []).getD i 0) j) / (n : ℝ)

theorem order_lt {nDim n : Nat} {d : LhsDraw ℝ} (hd : GoodDraw nDim n d) {i j : Nat} (hi : i < n)
    (hj : j < nDim) : (d.orders.getD j []).getD i 0 < n := by
  have hj' : j < d.orders.length := by rw [hd.orders_length]; exact hj
  rw [getD_lt hj']
  have hp := hd.orders_perm _ (List.getElem_mem hj')
  have hi' : i < d.orders[j].length := by rw [hp.length_eq]; simpa using hi
  rw [getD_lt hi']
  have := hp.mem_iff.1 (List.getElem_mem hi')
  simpa using this

theorem lhsNormalized_exact {kind : LhsType} (hk : kind ≠ .other) {nDim n : Nat} {d : LhsDraw ℝ}
    (hd : GoodDraw nDim n d) : lhsNormalized exact kind nDim n d = .ok (lhsDesign kind nDim n d) := by
  unfold lhsNormalized
  rw [if_neg hk]
  rw [mapE_ok_of_forall (g := fun i : Nat => (List.range nDim).map fun j : Nat =>
    ((i : ℝ) + lhsOffset kind d.u i j) / (n : ℝ))]
  · rw [ok_bind]
    refine mapE_ok_of_forall fun i hi => mapE_ok_of_forall fun j hj => ?_
    rw [List.mem_range] at hi hj
    have hj' : j < d.orders.length := by rw [hd.orders_length]; exact hj
    have hp := hd.orders_perm _ (List.getElem_mem hj')
    have hi' : i < d.orders[j].length := by rw [hp.length_eq]; simpa using hi
    have hlt := order_lt hd hi hj
    rw [getD_lt hj', getD_lt hi'] at hlt
    rw [pyGet_lt hj', ok_bind, pyGet_lt hi', ok_bind, pyGet_lt (by simpa using hlt), ok_bind,
      pyGet_lt (by simpa using hj), getD_lt hj', getD_lt hi']
    simp
  · intro i hi
    refine mapE_ok_of_forall fun j hj => ?_
    rw [List.mem_range] at hi hj
    exact (lhsEntry_exact hk (by omega) hd hi hj).1

theorem inStratum_unique {n j j' : Nat} (hn : 0 < n) {x : ℝ} (h : InStratum n j x)
    (h' : InStratum n j' x) : j = j' := by
  have hn' : (0 : ℝ) < n := by exact_mod_cast hn
  obtain ⟨a1, a2⟩ := h
  obtain ⟨b1, b2⟩ := h'
  rw [div_le_iff₀ hn'] at a1 b1
  rw [lt_div_iff₀ hn'] at a2 b2
  have c1 : (j : ℝ) < j' + 1 := by linarith
  have c2 : (j' : ℝ) < j + 1 := by linarith
  have d1 : j < j' + 1 := by exact_mod_cast c1
  have d2 : j' < j + 1 := by exact_mod_cast c2
  omega

theorem inStratum_offset {n j : Nat} (hn : 0 < n) {o : ℝ} (h0 : 0 ≤ o) (h1 : o < 1) :
    InStratum n j (((j : ℝ) + o) / n) := by
  have hn' : (0 : ℝ) < n := by exact_mod_cast hn
  exact ⟨by gcongr; linarith, by gcongr⟩

theorem lhsDesign_column {kind : LhsType} {nDim n : Nat} {d : LhsDraw ℝ} {j : Nat}
    (hj : j < nDim) : column j (lhsDesign kind nDim n d) = (List.range n).map fun i =>
      (((d.orders.getD j []).getD i 0 : Nat) +
        lhsOffset kind d.u ((d.orders.getD j []).getD i 0) j) / (n : ℝ) := by
  unfold column lhsDesign
  rw [List.filterMap_map, ← List.filterMap_eq_map]
  refine List.filterMap_congr fun i _ => ?_
  simp [hj]

theorem lhsDesign_stratified {kind : LhsType} (hk : kind ≠ .other) {nDim n : Nat}
    {d : LhsDraw ℝ} (hd : GoodDraw nDim n d) {j : Nat} (hj : j < nDim) :
    Stratified (column j (lhsDesign kind nDim n d)) := by
  rw [lhsDesign_column hj]
  intro s hs
  simp only [List.length_map, List.length_range] at hs ⊢
  have hn : 0 < n := by omega
  have hj' : j < d.orders.length := by rw [hd.orders_length]; exact hj
  have hp := hd.orders_perm _ (List.getElem_mem hj')
  have hlen : d.orders[j].length = n := by rw [hp.length_eq]; simp
  have hnd : d.orders[j].Nodup := hp.nodup_iff.2 List.nodup_range
  have hstr : ∀ i < n, InStratum n ((d.orders.getD j []).getD i 0)
      ((((d.orders.getD j []).getD i 0 : Nat) +
        lhsOffset kind d.u ((d.orders.getD j []).getD i 0) j) / (n : ℝ)) := by
    intro i hi
    have := lhsEntry_exact hk hn hd (order_lt hd hi hj) hj
    exact inStratum_offset hn this.2.1 this.2.2
  have hmem : s ∈ d.orders[j] := hp.mem_iff.2 (by simpa using hs)
  obtain ⟨i, hi, hsi⟩ := List.getElem_of_mem hmem
  refine ⟨i, ⟨_, by rw [List.getElem?_map, List.getElem?_range (by omega)]; rfl, ?_⟩, ?_⟩
  · have := hstr i (by omega)
    have e : (d.orders.getD j []).getD i 0 = s := by rw [getD_lt hj', getD_lt hi, hsi]
    rw [e] at this
    simpa only [e] using this
  · rintro i' ⟨x, hx, hin⟩
    rw [List.getElem?_map, Option.map_eq_some_iff] at hx
    obtain ⟨i'', hi'', rfl⟩ := hx
    obtain ⟨hlt, rfl⟩ := List.getElem?_eq_some_iff.1 hi''
    simp only [List.length_range] at hlt
    simp only [List.getElem_range] at hin
    have e := inStratum_unique hn (hstr i' hlt) hin
    have hi'l : i' < d.orders[j].length := by omega
    rw [getD_lt hj', getD_lt hi'l] at e
    have : d.orders[j][i'] = d.orders[j][i] := by rw [e, hsi]
    exact (List.Nodup.getElem_inj_iff hnd).1 this

theorem lhsDesign_unit {kind : LhsType} (hk : kind ≠ .other) {nDim n : Nat} {d : LhsDraw ℝ}
    (hd : GoodDraw nDim n d) : (lhsDesign kind nDim n d).length = n ∧
    ∀ r ∈ lhsDesign kind nDim n d, r.length = nDim ∧ ∀ x ∈ r, 0 ≤ x ∧ x < 1 := by
  refine ⟨by simp [lhsDesign], ?_⟩
  intro r hr
  obtain ⟨i, hi, rfl⟩ := List.mem_map.1 hr
  refine ⟨by simp, ?_⟩
  intro x hx
  obtain ⟨j, hj, rfl⟩ := List.mem_map.1 hx
  rw [List.mem_range] at hi hj
  have hn : 0 < n := by omega
  have hn' : (0 : ℝ) < n := by exact_mod_cast hn
  have hlt := order_lt hd hi hj
  have := lhsEntry_exact hk hn hd hlt hj
  generalize (d.orders.getD j []).getD i 0 = k at *
  have hk1 : (k : ℝ) + 1 ≤ n := by exact_mod_cast hlt
  constructor
  · exact div_nonneg (by have := this.2.1; positivity) hn'.le
  · rw [div_lt_one hn']; linarith [this.2.2]

/-! ## The optimisation loop -/

variable {F : Type}

theorem lhsLoop_invariant {S : Type} {gen : LhsDraw F → Except PyErr (List (List F))}
    {step : List (List F) → S → Except PyErr S} (P : List (LhsDraw F) → S → Prop)
    (hstep : ∀ done d h s s', gen d = .ok h → step h s = .ok s' → P done s → P (done ++ [d]) s') :
    ∀ (draws done : List (LhsDraw F)) (s s' : S), P done s →
      lhsLoop gen step draws s = .ok s' → P (done ++ draws) s' := by
  intro draws
  induction draws with
  | nil =>
    intro done s s' hP h
    simp only [lhsLoop, Except.ok.injEq] at h
    subst h
    simpa using hP
  | cons d ds ih =>
    intro done s s' hP h
    rw [lhsLoop, bind_eq_ok] at h
    obtain ⟨x, hx, h⟩ := h
    rw [bind_eq_ok] at h
    obtain ⟨s1, hs1, h⟩ := h
    have := ih (done ++ [d]) s1 s' (hstep done d x s s1 hx hs1 hP) h
    simpa using this

/-- The design kept by the loop is one of the candidates. -/
def FromDraws (gen : LhsDraw F → Except PyErr (List (List F))) (done : List (LhsDraw F))
    (o : Option (List (List F))) : Prop :=
  ∀ h, o = some h → ∃ d ∈ done, gen d = .ok h

theorem FromDraws.mono {gen : LhsDraw F → Except PyErr (List (List F))} {done : List (LhsDraw F)}
    {o : Option (List (List F))} (h : FromDraws gen done o) (d : LhsDraw F) :
    FromDraws gen (done ++ [d]) o := by
  intro x hx
  obtain ⟨d', hd', hg⟩ := h x hx
  exact ⟨d', by simp [hd'], hg⟩

theorem FromDraws.new {gen : LhsDraw F → Except PyErr (List (List F))} {done : List (LhsDraw F)}
    {d : LhsDraw F} {h : List (List F)} (hg : gen d = .ok h) :
    FromDraws gen (done ++ [d]) (some h) := by
  intro x hx
  injection hx with hx
  exact ⟨d, by simp, hx ▸ hg⟩

/-- Whatever the criterion: the chosen design is one of the designs drawn. -/
theorem Lhs.choose_mem [LinearOrder F] {A : Arith F} {num : LhsNum F} {l : Lhs} {nDim n : Nat}
    {first : LhsDraw F} {draws : List (LhsDraw F)} {M : List (List F)}
    (h : l.choose A num nDim n first draws = .ok M) :
    ∃ d ∈ first :: draws, lhsNormalized A l.lhsType nDim n d = .ok M := by
  unfold Lhs.choose at h
  rw [bind_eq_ok] at h
  obtain ⟨h0, hh0, h⟩ := h
  split at h
  · injection h with h
    exact ⟨first, by simp, h ▸ hh0⟩
  · have key : ∀ o : Option (List (List F)),
        FromDraws (lhsNormalized A l.lhsType nDim n) ([] ++ draws) o →
        o.getD h0 = M → ∃ d ∈ first :: draws, lhsNormalized A l.lhsType nDim n d = .ok M := by
      intro o ho hM
      cases o with
      | none => exact ⟨first, by simp, by rw [← hM]; exact hh0⟩
      | some x =>
        obtain ⟨d, hd, hg⟩ := ho x rfl
        simp only [Option.getD_some] at hM
        exact ⟨d, by simp only [List.nil_append] at hd; simp [hd], hM ▸ hg⟩
    simp only at h
    split at h
    · rw [bind_eq_ok] at h
      obtain ⟨st, hst, h⟩ := h
      injection h with h
      refine key st.2 ?_ h
      refine lhsLoop_invariant (fun done s => FromDraws (lhsNormalized A l.lhsType nDim n) done s.2)
        ?_ draws [] _ _ (by intro x hx; simp at hx) hst
      intro done d h s s' hg hs hP
      simp only [corrStep] at hs
      split at hs
      · injection hs with hs; subst hs; exact hP.mono d
      · split at hs
        · rw [bind_eq_ok] at hs
          obtain ⟨m', _, hs⟩ := hs
          injection hs with hs; subst hs; exact FromDraws.new hg
        · injection hs with hs; subst hs; exact hP.mono d
    · rw [bind_eq_ok] at h
      obtain ⟨st, hst, h⟩ := h
      injection h with h
      refine key st.2 ?_ h
      refine lhsLoop_invariant (fun done s => FromDraws (lhsNormalized A l.lhsType nDim n) done s.2)
        ?_ draws [] _ _ (by intro x hx; simp at hx) hst
      intro done d h s s' hg hs hP
      rw [maximinStep, bind_eq_ok] at hs
      obtain ⟨m, _, hs⟩ := hs
      split at hs
      · injection hs with hs; subst hs; exact FromDraws.new hg
      · injection hs with hs; subst hs; exact hP.mono d
    · rw [bind_eq_ok] at h
      obtain ⟨st, hst, h⟩ := h
      injection h with h
      refine key st.2 ?_ h
      refine lhsLoop_invariant (fun done s => FromDraws (lhsNormalized A l.lhsType nDim n) done s.2)
        ?_ draws [] _ _ (by intro x hx; simp at hx) hst
      intro done d h s s' hg hs hP
      rw [ratioStep, bind_eq_ok] at hs
      obtain ⟨m, _, hs⟩ := hs
      split at hs
      · injection hs with hs; subst hs; exact FromDraws.new hg
      · injection hs with hs; subst hs; exact hP.mono d
    · simp at h

end Skopt

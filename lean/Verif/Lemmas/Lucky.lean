import Verif.Spec.Lucky
import Verif.Lemmas.Exhaustive

/-!
# C139: helper lemmas
-/

namespace Skopt

variable {M R G : Type}

theorem refit_draws {F : Type} [LinearOrder F] {A : Arith F} {W : World F M R G} {dims : List (Dim F)} {s t : Opt F M R}
    (h : refit A W dims s = (t, .ok ())) :
    ∃ Xt est s', (W.fit s.rng Xt s.yi).2 = .ok est ∧ suggest A W dims est s' = (t, .ok ()) ∧ s'.cfg = s.cfg ∧
      s'.yi = s.yi ∧ s'.rng = (W.fit s.rng Xt s.yi).1 ∧ t.models.getLast? = some est := by
  unfold refit at h
  cases hX : Space.transform A dims (s.Xi.map Val.items) with
  | error e => simp [hX] at h
  | ok Xt =>
    simp only [hX] at h
    cases hm : (W.fit s.rng Xt s.yi).2 with
    | error e => simp [hm] at h
    | ok est =>
      simp only [hm] at h
      generalize hg : updateGains A W _ est = g at h
      cases g with
      | error e => simp at h
      | ok g =>
        simp only at h
        generalize hpm : pushModel _ _ est = ms at h
        cases ms with
        | error e => simp at h
        | ok ms =>
          simp only at h
          refine ⟨Xt, est, _, hm, h, rfl, rfl, rfl, ?_⟩
          have hf := suggest_frame A W dims est
            { s with rng := (W.fit s.rng Xt s.yi).1, gains := g, models := ms }
          rw [h] at hf
          rw [hf.2.1]
          exact pushModel_getLast hpm

/-- A fitting `tell` that returns searched with the random state that the fit left behind. -/
theorem tell_draws {F : Type} [LinearOrder F] {A : Arith F} {W : World F M R G} {dims : List (Dim F)} {s : Opt F M R}
    {x : XArg F} {y : YArg F} {res : Result F M} (hest : s.cfg.hasEst = true)
    (h : (tell A W dims s x y true).2 = .ok res) (hn : (tell A W dims s x y true).1.nInit ≤ 0) :
    ∃ Xt est s', suggest A W dims est s' = ((tell A W dims s x y true).1, .ok ()) ∧ s'.cfg = s.cfg ∧
      s'.yi = (tell A W dims s x y true).1.yi ∧ s'.rng = (W.fit s.rng Xt (tell A W dims s x y true).1.yi).1 ∧
      (tell A W dims s x y true).1.models.getLast? = some est := by
  rcases tell_cases A W dims s x y true with ⟨e, he⟩ | ⟨y', _, _, _, he⟩
  · rw [he] at h; cases h
  · rw [he] at h hn ⊢
    rcases tellCore_cases A W dims s x y' true with ⟨e, _, h3⟩ | ⟨u, hu, h3⟩
    · rw [h3] at h; cases h
    · obtain ⟨r1, -, -, -, -, -, r7, -⟩ := record_frame hu
      have hf := tellCore_frame A W dims s x y' true hu
      rcases h3 with ⟨_, _, _, h7, h8⟩ | ⟨h4, _⟩
      · rcases h8 with ⟨e, _, h9⟩ | ⟨h9, _⟩
        · rw [h9] at h; cases h
        · have hr : refit A W dims u = ((tellCore A W dims s x y' true).1, .ok ()) := Prod.ext h7.symm h9
          obtain ⟨Xt, est, s', a2, a3, a4, a5, a6, a7⟩ := refit_draws hr
          exact ⟨Xt, est, s', a3, a4.trans r1, by rw [a5, hf.yi], by rw [hf.yi, a6, r7], a7⟩
      · exfalso
        refine h4 ⟨rfl, ?_, by rw [r1]; exact hest⟩
        have := hf.nInit
        rw [← this]; exact hn

/-- Candidates are made one by one from their numbers. -/
theorem rvs_columns {dims : List (Dim ℝ)} (hne : dims ≠ []) (hv : ∀ d ∈ dims, ValidDim exact d) :
    ∃ g : Fin dims.length → ℝ → Except PyErr (Val ℝ), ∀ (n : Nat) (ω : Fin n → Fin dims.length → ℝ) (P : List (Point ℝ)),
      Space.rvs exact dims (columnDraws ω) = .ok P ↔
        ∃ hl : P.length = n, ∀ j : Fin n, ∃ hj : P[j.val].length = dims.length,
          ∀ i : Fin dims.length, g i (ω j i) = .ok P[j.val][i.val] := by
  have hg : ∀ i : Fin dims.length, ∃ g : ℝ → Except PyErr (Val ℝ), ∀ us vs,
      Dim.rvs exact dims[i] (rawsOf us) = .ok vs ↔ mapE g us = .ok vs := fun i =>
    Dim.rvs_pointwise _ (hv _ (List.getElem_mem _))
  choose g hg using hg
  refine ⟨g, fun n ω P => ?_⟩
  have hzip : dims.zip (columnDraws ω) =
      List.ofFn fun i : Fin dims.length => (dims[i], rawsOf (List.ofFn fun j => ω j i)) := by
    unfold columnDraws
    apply List.ext_getElem <;> simp
  have hcols : ∀ cols, mapE (fun p : Dim ℝ × RawDraw ℝ => Dim.rvs exact p.1 p.2) (dims.zip (columnDraws ω)) = .ok cols ↔
      ColumnsOf (List.ofFn fun i (j : Fin n) => g i (ω j i)) (List.finRange n) cols := by
    intro cols
    unfold ColumnsOf
    rw [hzip, mapE_eq_ok, List.forall₂_iff_get, List.forall₂_iff_get]
    simp only [List.length_ofFn, List.get_eq_getElem, List.getElem_ofFn]
    refine and_congr Iff.rfl (forall_congr' fun i => forall_congr' fun h1 => forall_congr' fun h2 => ?_)
    rw [hg ⟨i, h1⟩, List.ofFn_eq_map, mapE_mapped]
  have hnefn : (List.ofFn fun i (j : Fin n) => g i (ω j i)) ≠ [] := by
    intro h
    exact hne (by simpa using congrArg List.length h)
  have hrow : ∀ rows : List (Point ℝ),
      mapE (fun x => mapE (fun h => h x) (List.ofFn fun i (j : Fin n) => g i (ω j i))) (List.finRange n) = .ok rows ↔
      ∃ hl : rows.length = n, ∀ j : Fin n, ∃ hj : rows[j.val].length = dims.length,
        ∀ i : Fin dims.length, g i (ω j i) = .ok rows[j.val][i.val] := by
    intro rows
    rw [mapE_eq_ok, List.forall₂_iff_get]
    simp only [List.length_finRange, List.get_eq_getElem, List.getElem_finRange, mapE_eq_ok, List.forall₂_iff_get,
      List.length_ofFn, List.getElem_ofFn]
    constructor
    · rintro ⟨h1, h2⟩
      refine ⟨h1.symm, fun j => ?_⟩
      obtain ⟨h3, h4⟩ := h2 j.val j.isLt (by omega)
      exact ⟨h3.symm, fun i => h4 i.val i.isLt (by omega)⟩
    · rintro ⟨h1, h2⟩
      refine ⟨h1.symm, fun j hj _ => ?_⟩
      obtain ⟨h3, h4⟩ := h2 ⟨j, hj⟩
      exact ⟨h3.symm, fun i hi _ => h4 ⟨i, hi⟩⟩
  rw [← hrow]
  unfold Space.rvs
  constructor
  · intro hP
    obtain ⟨cols, hc, ht⟩ := bind_eq_ok.1 hP
    obtain ⟨rows, hr1, hr2⟩ := transpose_columnsOf hnefn ((hcols cols).1 hc)
    rw [ht] at hr1
    cases hr1
    exact hr2
  · intro hrows
    obtain ⟨cols, hcs⟩ := columnsOf_of_rows hrows
    obtain ⟨rows, hr1, hr2⟩ := transpose_columnsOf hnefn hcs
    rw [hrows] at hr2
    cases hr2
    rw [(hcols cols).2 hcs, ok_bind, hr1]

theorem rvs_column {dims : List (Dim ℝ)} (hne : dims ≠ []) (hv : ∀ d ∈ dims, ValidDim exact d) {n : Nat}
    {ω : Fin n → Fin dims.length → ℝ} {P : List (Point ℝ)} (h : Space.rvs exact dims (columnDraws ω) = .ok P) :
    ∃ hl : P.length = n, ∀ j : Fin n, ∀ p, Space.rvs exact dims (List.ofFn fun i => rawOf (ω j i)) = .ok [p] ↔
      p = P[j.val] := by
  obtain ⟨g, hg⟩ := rvs_columns hne hv
  obtain ⟨hl, hj⟩ := (hg n ω P).1 h
  refine ⟨hl, fun j p => ?_⟩
  have e : (List.ofFn fun i => rawOf (ω j i)) = columnDraws fun (_ : Fin 1) i => ω j i := by
    unfold columnDraws
    simp [rawsOf, rawOf]
  obtain ⟨h1, h2⟩ := hj j
  rw [e, hg 1]
  constructor
  · rintro ⟨_, h⟩
    obtain ⟨h3, h4⟩ := h 0
    simp only [Fin.val_zero, List.getElem_cons_zero] at h3 h4
    refine List.ext_getElem (h3.trans h1.symm) fun i hi hi' => ?_
    have := (h4 ⟨i, by omega⟩).symm.trans (h2 ⟨i, by omega⟩)
    simpa using this
  · rintro rfl
    refine ⟨rfl, fun k => ?_⟩
    have : k = 0 := Subsingleton.elim _ _
    subst this
    exact ⟨h1, h2⟩

/-- What a `tell` with these candidates has computed: the candidates, their encodings and the row chosen. -/
theorem Candidates.search {W : World ℝ M R G} {dims : List (Dim ℝ)} (hd : Workable dims) {s : Opt ℝ M R}
    (hest : s.cfg.hasEst = true) {x : XArg ℝ} {y : YArg ℝ} {m : M} {best : Flt ℝ} {r : R}
    {ω : Fin s.cfg.nPoints → Fin dims.length → ℝ} (h : Candidates W dims s x y m best r ω) {c : AcqFunc}
    (hc : s.cfg.acq.candidates = [c]) :
    ∃ (P : List (Point ℝ)) (X : List (List (Val ℝ))) (r₁ r₂ : R) (row : List (Val ℝ)) (ps : List (Point ℝ)) (p : Point ℝ),
      Space.rvs exact dims (columnDraws ω) = .ok P ∧ (∀ q ∈ P, InSpace exact dims q) ∧ P ≠ [] ∧
      List.Forall₂ (fun p r => Space.transform exact dims [p] = .ok [r]) P X ∧ Space.transform exact dims P = .ok X ∧
      proposeOne exact W s.cfg dims m best X r₁ c = (r₂, .ok row) ∧
      Space.inverseTransform exact dims [row] = .ok ps ∧ pyGet ps 0 = .ok p ∧
      (tell exact W dims { s with rng := r } x y true).1.nextX = some p := by
  obtain ⟨res, hres⟩ := h.returns
  obtain ⟨Xt, est, s', h1, h2, h3, h4, h5⟩ := tell_draws (s := { s with rng := r }) hest hres h.fitted.1
  have e : est = m := by
    have := h.fitted.2
    rw [h5] at this
    exact Option.some.inj this
  subst e
  obtain ⟨P, X, yOpt, cand, r₁, r₂, row, ps, p, g1, g2, g3, g4, g5, g6, g7, g8⟩ := suggest_ok h1
  rw [h3, h.incumbent] at g3
  injection g3 with g3
  subst g3
  simp only [h2] at g1 g4 g5
  rw [h4, h.draws] at g1
  rw [hc, List.mem_singleton] at g4
  subst g4
  obtain ⟨c1, c2⟩ := C05_rvs_in_space exact exact_orderly dims hd.valid s.cfg.nPoints _ (by simp [columnDraws])
    (by simp [columnDraws, rawsOf]) P g1
  have hP : P ≠ [] := by
    rintro rfl
    simp [Space.transform, bind_eq_ok] at g2
  have hmix : (∀ d ∈ dims, YieldsNoStr d) ∨ (∀ d ∈ dims, YieldsNoNum d) := Or.inl fun d h => (hd.bounds d h).yieldsNoStr
  exact ⟨P, X, r₁, r₂, row, ps, p, g1, c2, hP,
    (C67_transform_pointwise_partial exact dims hd.nonempty hd.valid hmix P hP c2 X).1 g2, g2, g5, g6, g7, g8⟩

/-- Candidate `j` is among the points of value at most `v` if and only if its encoding is rated so. -/
theorem candidate_hits {dims : List (Dim ℝ)} (hd : Workable dims) {n : Nat} {ω : Fin n → Fin dims.length → ℝ}
    {P : List (Point ℝ)} {X : List (List (Val ℝ))} (h1 : Space.rvs exact dims (columnDraws ω) = .ok P)
    (h2 : List.Forall₂ (fun p r => Space.transform exact dims [p] = .ok [r]) P X) (a : List (Val ℝ) → ℝ) (v : ℝ) :
    (∃ j, ∃ p, Space.rvs exact dims (List.ofFn fun i => rawOf (ω j i)) = .ok [p] ∧ p ∈ atMost dims a v) ↔
      ∃ row ∈ X, a row ≤ v := by
  obtain ⟨hl, hj⟩ := rvs_column hd.nonempty hd.valid h1
  rw [List.forall₂_iff_get] at h2
  constructor
  · rintro ⟨j, p, hp, row, h3, h4⟩
    rw [hj j p] at hp
    subst hp
    have hjX : j.val < X.length := by rw [← h2.1, hl]; exact j.isLt
    have := h2.2 j.val (by rw [hl]; exact j.isLt) hjX
    simp only [List.get_eq_getElem] at this
    rw [this] at h3
    simp only [Except.ok.injEq, List.cons.injEq, and_true] at h3
    subst h3
    exact ⟨_, List.getElem_mem hjX, h4⟩
  · rintro ⟨row, hm, hr⟩
    obtain ⟨j, hjX, rfl⟩ := List.getElem_of_mem hm
    have hjP : j < P.length := by rw [h2.1]; exact hjX
    refine ⟨⟨j, hl ▸ hjP⟩, P[j], (hj _ _).2 rfl, X[j], h2.2 j hjP hjX, hr⟩

end Skopt

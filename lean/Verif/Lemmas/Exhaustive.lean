import Verif.Props.BestCandidate
import Verif.Lemmas.RandomSearch

/-!
# Lemmas: which points a noise-free surrogate suggests
-/

namespace Skopt

variable {M R G : Type} {W : World ℝ M R G} {dims : List (Dim ℝ)}

theorem refit_fits {F : Type} [LinearOrder F] {A : Arith F} {W : World F M R G} {dims : List (Dim F)} {s t : Opt F M R}
    (h : refit A W dims s = (t, .ok ())) :
    ∃ Xt est s', Space.transform A dims (s.Xi.map Val.items) = .ok Xt ∧ (W.fit s.rng Xt s.yi).2 = .ok est ∧
      suggest A W dims est s' = (t, .ok ()) ∧ s'.cfg = s.cfg ∧ s'.yi = s.yi := by
  unfold refit at h
  cases hX : Space.transform A dims (s.Xi.map Val.items) with
  | error e => simp [hX] at h
  | ok Xt =>
    simp only [hX] at h
    cases hm : (W.fit s.rng Xt s.yi).2 with
    | error e => simp [hm] at h
    | ok est =>
      simp only [hm] at h
      generalize hg : updateGains A W _ est = g at h
      cases g with
      | error e => simp at h
      | ok g =>
        simp only at h
        generalize hpm : pushModel _ _ est = ms at h
        cases ms with
        | error e => simp at h
        | ok ms => exact ⟨Xt, est, _, rfl, hm, h, rfl, rfl⟩

/-- A fitting `_tell` that returns fitted the surrogate on the complete history and searched with it. -/
theorem tellCore_fits {F : Type} [LinearOrder F] {A : Arith F} {W : World F M R G} {dims : List (Dim F)} {s : Opt F M R}
    {x : XArg F} {y : YArg F} {res : Result F M} (hest : s.cfg.hasEst = true)
    (h : (tellCore A W dims s x y true).2 = .ok res) (hn : (tellCore A W dims s x y true).1.nInit ≤ 0) :
    ∃ r Xt est s', Space.transform A dims ((tellCore A W dims s x y true).1.Xi.map Val.items) = .ok Xt ∧
      (W.fit r Xt (tellCore A W dims s x y true).1.yi).2 = .ok est ∧
      suggest A W dims est s' = ((tellCore A W dims s x y true).1, .ok ()) ∧ s'.cfg = s.cfg ∧
      s'.yi = (tellCore A W dims s x y true).1.yi := by
  rcases tellCore_cases A W dims s x y true with ⟨e, _, h3⟩ | ⟨u, hu, h3⟩
  · rw [h3] at h; cases h
  · obtain ⟨r1, -⟩ := record_frame hu
    have hf := tellCore_frame A W dims s x y true hu
    rcases h3 with ⟨_, _, _, h7, h8⟩ | ⟨h4, _⟩
    · rcases h8 with ⟨e, _, h9⟩ | ⟨h9, _⟩
      · rw [h9] at h; cases h
      · have hr : refit A W dims u = ((tellCore A W dims s x y true).1, .ok ()) := Prod.ext h7.symm h9
        obtain ⟨Xt, est, s', a1, a2, a3, a4, a5⟩ := refit_fits hr
        exact ⟨u.rng, Xt, est, s', by rw [hf.Xi]; exact a1, by rw [hf.yi]; exact a2, a3, a4.trans r1,
          by rw [a5, hf.yi]⟩
    · exfalso
      refine h4 ⟨rfl, ?_, by rw [r1]; exact hest⟩
      have := hf.nInit
      rw [← this]; exact hn

/-- A fitting `tell` that returns fitted the surrogate on the complete history and searched with it. -/
theorem tell_fits {F : Type} [LinearOrder F] {A : Arith F} {W : World F M R G} {dims : List (Dim F)} {s : Opt F M R}
    {x : XArg F} {y : YArg F} {res : Result F M} (hest : s.cfg.hasEst = true)
    (h : (tell A W dims s x y true).2 = .ok res) (hn : (tell A W dims s x y true).1.nInit ≤ 0) :
    ∃ r Xt est s', Space.transform A dims ((tell A W dims s x y true).1.Xi.map Val.items) = .ok Xt ∧
      (W.fit r Xt (tell A W dims s x y true).1.yi).2 = .ok est ∧
      suggest A W dims est s' = ((tell A W dims s x y true).1, .ok ()) ∧ s'.cfg = s.cfg ∧
      s'.yi = (tell A W dims s x y true).1.yi := by
  rcases tell_cases A W dims s x y true with ⟨e, he⟩ | ⟨y', _, _, _, he⟩
  · rw [he] at h; cases h
  · rw [he] at h hn ⊢
    exact tellCore_fits hest h hn

/-- After a fit with `acq_optimizer="sampling"`: the surrogate was fitted on the encoded history, the candidates are a
sample of the space, and the suggestion is the candidate with the smallest acquisition value. -/
theorem sampled_suggestion (hd : Workable dims) (hW : Reliable W dims) {s t : Opt ℝ M R} (hsamp : s.cfg.lbfgs = false)
    (hfit : ∃ r Xt est s', Space.transform exact dims (t.Xi.map Val.items) = .ok Xt ∧ (W.fit r Xt t.yi).2 = .ok est ∧
      suggest exact W dims est s' = (t, .ok ()) ∧ s'.cfg = s.cfg ∧ s'.yi = t.yi) :
    ∃ (r r' : R) (Xt : List (List (Val ℝ))) (est : M) (pts : List (Point ℝ)) (X : List (List (Val ℝ))) (yOpt : Flt ℝ)
      (cand : AcqFunc) (values : List (Flt ℝ)) (i : Nat) (p : Point ℝ) (v : Flt ℝ),
      Space.transform exact dims (t.Xi.map Val.items) = .ok Xt ∧ (W.fit r Xt t.yi).2 = .ok est ∧
      Space.rvs exact dims (W.draws r' dims s.cfg.nPoints).2 = .ok pts ∧ (∀ q ∈ pts, InSpace exact dims q) ∧
      (do let ys ← flatNums t.yi; fltMin ys) = .ok yOpt ∧
      Space.transform exact dims pts = .ok X ∧ cand ∈ s.cfg.acq.candidates ∧
      W.acquisition est X yOpt cand = .ok values ∧
      pts[i]? = some p ∧ values[i]? = some v ∧ (∀ w ∈ values, v ≤ w) ∧ t.nextX = some p := by
  obtain ⟨r₀, Xt, est, s', f1, f2, h1, h2, h3⟩ := hfit
  obtain ⟨pts, X, yOpt, cand, r, r', row, ps, z, g1, g2, g3, g4, g5, g6, g7, g8⟩ := suggest_ok h1
  rw [h2] at g1 g4 g5
  rw [h3] at g3
  obtain ⟨values, i, enc, k1, k2, k3, k4⟩ := proposeOne_sampling hsamp g5
  obtain ⟨c1, c2⟩ := C05_rvs_in_space exact exact_orderly dims hd.valid s.cfg.nPoints _
    (hW.draws s'.rng s.cfg.nPoints).1.length_eq.symm (hW.draws s'.rng s.cfg.nPoints).2 pts g1
  have hrow : row = enc := by
    rcases k4 with k4 | k4
    · exact k4
    · rw [C62_clip_changes_nothing_partial exact exact_mono dims hd.valid (by simpa [exact] using hd.invertible)
        hd.bounds pts c2 X g2 enc (pyGet_mem k3)] at k4
      injection k4 with k4
      exact k4.symm
  subst hrow
  have hpts : pts ≠ [] := by
    rintro rfl
    simp [Space.transform, bind_eq_ok] at g2
  obtain ⟨M', m1, m2⟩ := C02_round_trip_partial dims hd.nonempty hd.valid hd.invertible
    (Or.inl fun d h => (hd.bounds d h).yieldsNoStr) pts hpts c2 fun p hp => hd.representable (c2 p hp)
  rw [g2] at m1
  injection m1 with m1
  subst m1
  have hXne : X ≠ [] := by
    rintro rfl
    simp [pyGet] at k3
  have hinv := (C67_inverse_pointwise_partial exact dims hd.nonempty hd.valid (fun c hc => by
    rcases hd.bounds _ hc with h | h <;> simp [h]) X hXne pts).1 m2
  rw [List.forall₂_iff_get] at hinv
  have hget := pyGet_eq_ok.1 k3
  obtain ⟨hiX, hrowX⟩ := List.getElem?_eq_some_iff.1 hget
  have hip : i < pts.length := by rw [← hinv.1]; exact hiX
  have hp := hinv.2 i hiX hip
  simp only [List.get_eq_getElem, hrowX] at hp
  rw [g6] at hp
  injection hp with hp
  subst hp
  simp only [pyGet, List.getElem?_cons_zero, Except.ok.injEq] at g7
  obtain ⟨hiv, hmin, _⟩ := npArgmin_spec k2
  refine ⟨r₀, _, Xt, est, pts, X, yOpt, cand, values, i, pts[i], values[i], f1, f2, g1, c2, g3, g2, g4, k1,
    List.getElem?_eq_getElem hip, List.getElem?_eq_getElem hiv, hmin, ?_⟩
  rw [g8, ← g7]

/-- Different points of the space have different encodings, also when they were encoded with other points. -/
theorem encoded_mem (hd : Workable dims) {P Q : List (Point ℝ)} (hP : ∀ p ∈ P, InSpace exact dims p)
    (hQ : ∀ q ∈ Q, InSpace exact dims q) {X Y : List (List (Val ℝ))} (h1 : Space.transform exact dims P = .ok X)
    (h2 : Space.transform exact dims Q = .ok Y) {j : Nat} {p : Point ℝ} {row : List (Val ℝ)} (hp : P[j]? = some p)
    (hr : X[j]? = some row) : row ∈ Y ↔ p ∈ Q := by
  have hPn : P ≠ [] := by rintro rfl; simp at hp
  have hQn : Q ≠ [] := by
    rintro rfl
    simp [Space.transform, bind_eq_ok] at h2
  have hmix : (∀ d ∈ dims, YieldsNoStr d) ∨ (∀ d ∈ dims, YieldsNoNum d) := Or.inl fun d h => (hd.bounds d h).yieldsNoStr
  have e1 := (C67_transform_pointwise_partial exact dims hd.nonempty hd.valid hmix P hPn hP X).1 h1
  have e2 := (C67_transform_pointwise_partial exact dims hd.nonempty hd.valid hmix Q hQn hQ Y).1 h2
  obtain ⟨hjP, rfl⟩ := List.getElem?_eq_some_iff.1 hp
  obtain ⟨hjX, rfl⟩ := List.getElem?_eq_some_iff.1 hr
  have hrow : Space.transform exact dims [P[j]] = .ok [X[j]] := (List.forall₂_iff_get.1 e1).2 j hjP hjX
  constructor
  · intro hm
    obtain ⟨k, hk, hkr⟩ := List.getElem_of_mem hm
    have hkQ : k < Q.length := by rw [e2.length_eq]; exact hk
    have hq : Space.transform exact dims [Q[k]] = .ok [Y[k]] := (List.forall₂_iff_get.1 e2).2 k hkQ hk
    rw [hkr] at hq
    have back : ∀ q, InSpace exact dims q → Space.transform exact dims [q] = .ok [X[j]] →
        Space.inverseTransform exact dims [X[j]] = .ok [q] := by
      intro q hqS hqt
      obtain ⟨M, m1, m2⟩ := C02_round_trip_partial dims hd.nonempty hd.valid hd.invertible hmix [q] (by simp)
        (by simpa using hqS) (by simpa using hd.representable hqS)
      rw [hqt] at m1
      injection m1 with m1
      subst m1
      exact m2
    have b1 := back _ (hP _ (List.getElem_mem hjP)) hrow
    have b2 := back _ (hQ _ (List.getElem_mem hkQ)) hq
    rw [b1] at b2
    simp only [Except.ok.injEq, List.cons.injEq, and_true] at b2
    rw [b2]
    exact List.getElem_mem hkQ
  · intro hm
    obtain ⟨k, hk, hkr⟩ := List.getElem_of_mem hm
    have hkY : k < Y.length := by rw [← e2.length_eq]; exact hk
    have hq : Space.transform exact dims [Q[k]] = .ok [Y[k]] := (List.forall₂_iff_get.1 e2).2 k hk hkY
    rw [hkr, hrow] at hq
    simp only [Except.ok.injEq, List.cons.injEq, and_true] at hq
    rw [hq]
    exact List.getElem_mem hkY

end Skopt

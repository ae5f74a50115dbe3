import Verif.Props.Exhaustive
import Verif.Props.KernelNorm

/-!
# C131: with LCB, a repeated suggestion is optimal
-/

namespace Skopt

variable {M R G : Type}

/-! ## Specification -/

/-- The objective `g`, a function of the encoded points, never leaves the predicted band: fitted on values of `g`, the
surrogate predicts means that differ from `g` by at most `kappa` predicted standard deviations. -/
def Banded (W : World ℝ M R G) (predict : M → List (List (Val ℝ)) → Pred) (g : List (Val ℝ) → ℝ) (kappa : ℝ) : Prop :=
  ∀ r Xt est, (W.fit r Xt (Xt.map fun row => .num (.fin (g row)))).2 = .ok est →
    ∀ (X : List (List (Val ℝ))) (j : Nat) row m sd, X[j]? = some row → (predict est X).mu[j]? = some m →
      (predict est X).std[j]? = some sd → |g row - m| ≤ kappa * sd

/-- The surrogate is certain of the observations: it predicts with the standard deviation zero at the rows it was
fitted on. -/
def CertainAtData (W : World ℝ M R G) (predict : M → List (List (Val ℝ)) → Pred) : Prop :=
  ∀ r Xt y est, (W.fit r Xt y).2 = .ok est → ∀ (X : List (List (Val ℝ))) (j : Nat) row sd,
    X[j]? = some row → (predict est X).std[j]? = some sd → row ∈ Xt → sd = 0

/-- `f`, a function of the points of the space, is the function `g` of their encodings. -/
def Encodes (dims : List (Dim ℝ)) (f : Point ℝ → ℝ) (g : List (Val ℝ) → ℝ) : Prop :=
  ∀ p row, InSpace exact dims p → Space.transform exact dims [p] = .ok [row] → g row = f p

/-! ## Lemmas -/

variable {W : World ℝ M R G} {dims : List (Dim ℝ)}

/-- What a fit with LCB stores. -/
theorem lcb_suggestion (hd : Workable dims) (hW : Reliable W dims) {s t : Opt ℝ M R} (hsamp : s.cfg.lbfgs = false)
    (hacq : s.cfg.acq = .LCB)
    (hfit : ∃ r Xt est s', Space.transform exact dims (t.Xi.map Val.items) = .ok Xt ∧ (W.fit r Xt t.yi).2 = .ok est ∧
      suggest exact W dims est s' = (t, .ok ()) ∧ s'.cfg = s.cfg ∧ s'.yi = t.yi)
    (hpts : ∀ v ∈ t.Xi, ∃ p, v = .seq p ∧ InSpace exact dims p) {f : Point ℝ → ℝ} {g : List (Val ℝ) → ℝ}
    (hfg : Encodes dims f g) (hys : t.yi = t.Xi.map fun v => .num (.fin (f v.items)))
    {predict : M → List (List (Val ℝ)) → Pred} {xi kappa : ℝ} (hp : GaussianValues W predict .LCB xi (.num kappa))
    (hband : Banded W predict g kappa) :
    ∃ (r r' : R) (Xt : List (List (Val ℝ))) (est : M) (pts : List (Point ℝ)) (X : List (List (Val ℝ))) (i : Nat)
      (p : Point ℝ) (sd : ℝ), Space.transform exact dims (t.Xi.map Val.items) = .ok Xt ∧ (W.fit r Xt t.yi).2 = .ok est ∧
      Space.rvs exact dims (W.draws r' dims s.cfg.nPoints).2 = .ok pts ∧ (∀ q ∈ pts, InSpace exact dims q) ∧
      Space.transform exact dims pts = .ok X ∧ pts[i]? = some p ∧ (predict est X).std[i]? = some sd ∧
      t.nextX = some p ∧ ∀ q ∈ pts, f p ≤ f q + 2 * kappa * sd := by
  obtain ⟨r, r', Xt, est, pts, X, yOpt, cand, values, i, p, v, h1, h2, h3, h4, h5, h6, h7, h8, h9, h10, h11, h12⟩ :=
    sampled_suggestion hd hW hsamp hfit
  obtain ⟨m1, m2⟩ := items_mem hpts
  have hmix : (∀ d ∈ dims, YieldsNoStr d) ∨ (∀ d ∈ dims, YieldsNoNum d) := Or.inl fun d h => (hd.bounds d h).yieldsNoStr
  have hne : pts ≠ [] := by rintro rfl; simp at h9
  have hX := (C67_transform_pointwise_partial exact dims hd.nonempty hd.valid hmix pts hne h4 X).1 h6
  have hne' : t.Xi.map Val.items ≠ [] := by
    intro e
    rw [e] at h1
    simp [Space.transform, bind_eq_ok] at h1
  have hXt := (C67_transform_pointwise_partial exact dims hd.nonempty hd.valid hmix _ hne' m1 Xt).1 h1
  -- the values on record are those of `g` at the encodings
  have hyg : t.yi = Xt.map fun row => .num (.fin (g row)) := by
    rw [hys]
    have : (t.Xi.map fun v => (YArg.num (.fin (f v.items)) : YArg ℝ)) =
        (t.Xi.map Val.items).map fun p => .num (.fin (f p)) := by rw [List.map_map]; rfl
    rw [this]
    clear this h1 hys h2 hne'
    generalize t.Xi.map Val.items = P at hXt m1
    induction hXt with
    | nil => rfl
    | @cons q row _ _ e _ ih =>
      simp only [List.map_cons]
      rw [hfg q row (m1 q (by simp)) e, ih fun q hq => m1 q (List.mem_cons_of_mem _ hq)]
  rw [hyg] at h2 h5
  have hmin : ∃ best, yOpt = .fin best := by
    have e : (Xt.map fun row => (YArg.num (.fin (g row)) : YArg ℝ)) = (Xt.map g).map fun v => .num (.fin v) := by
      rw [List.map_map]; rfl
    rw [e, flatNums_fin, ok_bind, fltMin_iff] at h5
    obtain ⟨best, -, hb⟩ := List.mem_map.1 h5.1
    exact ⟨best, hb.symm⟩
  obtain ⟨best, rfl⟩ := hmin
  rw [hacq] at h7
  obtain rfl : cand = .LCB := by simpa [AcqFunc.candidates] using h7
  rw [hp.values] at h8
  simp only [gaussianAcquisition, Surrogate.single, ok_bind, Except.map, Except.ok.injEq] at h8
  subst h8
  have hlm : (predict est X).mu.length = X.length := hp.mu est X
  have hls : (predict est X).std.length = X.length := hp.std est X
  have hat : ∀ j (hj : j < X.length), (gaussianLcb (predict est X) (.num kappa))[j]? =
      some ((predict est X).mu[j] - kappa * (predict est X).std[j]) := by
    intro j hj
    simp only [gaussianLcb, List.getElem?_zipWith, List.getElem?_eq_getElem (hlm ▸ hj : j < _),
      List.getElem?_eq_getElem (hls ▸ hj : j < _)]
  obtain ⟨hip, hpi⟩ := List.getElem?_eq_some_iff.1 h9
  have hiX : i < X.length := by rw [← hX.length_eq]; exact hip
  have hpg : ∀ j (hj : j < pts.length) (hj' : j < X.length), g X[j] = f pts[j] := fun j hj hj' =>
    hfg _ _ (h4 _ (List.getElem_mem hj)) ((List.forall₂_iff_get.1 hX).2 j hj hj')
  have hb : ∀ j (hj : j < X.length), |g X[j] - (predict est X).mu[j]| ≤ kappa * (predict est X).std[j] := fun j hj =>
    hband r Xt est h2 X j _ _ _ (List.getElem?_eq_getElem hj) (List.getElem?_eq_getElem _) (List.getElem?_eq_getElem _)
  refine ⟨r, r', Xt, est, pts, X, i, p, (predict est X).std[i], h1, by rw [hyg]; exact h2, h3, h4, h6, h9,
    List.getElem?_eq_getElem _, h12, fun q hq => ?_⟩
  obtain ⟨j, hj, rfl⟩ := List.getElem_of_mem hq
  have hjX : j < X.length := by rw [← hX.length_eq]; exact hj
  rw [List.getElem?_map, hat i hiX, Option.map_some, Option.some.injEq] at h10
  subst h10
  have hle := h11 (.fin ((predict est X).mu[j] - kappa * (predict est X).std[j])) (List.mem_map.2 ⟨_,
    List.mem_of_getElem? (hat j hjX), rfl⟩)
  rw [Flt.fin_le_fin] at hle
  have b1 := abs_le.1 (hb i hiX)
  have b2 := abs_le.1 (hb j hjX)
  rw [hpg i hip hiX, hpi] at b1
  rw [hpg j hj hjX] at b2
  linarith [b1.1, b1.2, b2.1, b2.2]

/-- A repeated suggestion of LCB is optimal. -/
theorem lcb_repeat (hd : Workable dims) (hW : Reliable W dims) {s t : Opt ℝ M R} (hsamp : s.cfg.lbfgs = false)
    (hacq : s.cfg.acq = .LCB)
    (hfit : ∃ r Xt est s', Space.transform exact dims (t.Xi.map Val.items) = .ok Xt ∧ (W.fit r Xt t.yi).2 = .ok est ∧
      suggest exact W dims est s' = (t, .ok ()) ∧ s'.cfg = s.cfg ∧ s'.yi = t.yi)
    (hpts : ∀ v ∈ t.Xi, ∃ p, v = .seq p ∧ InSpace exact dims p) {f : Point ℝ → ℝ} {g : List (Val ℝ) → ℝ}
    (hfg : Encodes dims f g) (hys : t.yi = t.Xi.map fun v => .num (.fin (f v.items)))
    {predict : M → List (List (Val ℝ)) → Pred} {xi kappa : ℝ} (hp : GaussianValues W predict .LCB xi (.num kappa))
    (hband : Banded W predict g kappa) (hcert : CertainAtData W predict) :
    ∃ (r : R) (pts : List (Point ℝ)) (p : Point ℝ), Space.rvs exact dims (W.draws r dims s.cfg.nPoints).2 = .ok pts ∧
      p ∈ pts ∧ t.nextX = some p ∧ (.seq p ∈ t.Xi → ∀ q ∈ pts, f p ≤ f q) := by
  obtain ⟨r, r', Xt, est, pts, X, i, p, sd, h1, h2, h3, h4, h6, h9, h10, h12, h13⟩ :=
    lcb_suggestion hd hW hsamp hacq hfit hpts hfg hys hp hband
  refine ⟨r', pts, p, h3, List.mem_of_getElem? h9, h12, fun hmem q hq => ?_⟩
  obtain ⟨m1, m2⟩ := items_mem hpts
  have his := (List.getElem?_eq_some_iff.1 h10).1
  have hiX : i < X.length := by rw [← hp.std est X]; exact his
  have hold : X[i] ∈ Xt := by
    rw [encoded_mem hd h4 m1 h6 h1 h9 (List.getElem?_eq_getElem hiX), m2]
    exact hmem
  have := h13 q hq
  rw [hcert r Xt _ est h2 X i _ _ (List.getElem?_eq_getElem hiX) h10 hold] at this
  linarith

/-! ## C131 -/

theorem tell_hasEst {s : Opt ℝ M R} {x : XArg ℝ} {y : YArg ℝ} {res : Result ℝ M} (hest : s.cfg.hasEst = true)
    (h : (tell exact W dims s x y true).2 = .ok res) (hn : (tell exact W dims s x y true).1.nInit ≤ 0) :
    (tell exact W dims s x y true).1.cfg.hasEst = true := by
  obtain ⟨-, -, est, s', -, -, e, e', -⟩ := tell_fits hest h hn
  have := (suggest_frame exact W dims est s').1.cfg
  rw [e] at this
  rw [this, e', hest]

/-- **C131 (one step).** With `acq_func="LCB"` and `acq_optimizer="sampling"`, after a `tell` that fitted the surrogate: if
the objective stays within `kappa` predicted standard deviations of the predicted mean, then its value at the point that
`ask` returns exceeds its value at any of the sampled candidates by at most `2 * kappa` times the standard deviation that
the surrogate predicts for that point. -/
theorem C131_one_step (W : World ℝ M R G) (dims : List (Dim ℝ)) (hd : Workable dims) (hW : Reliable W dims)
    (s : Opt ℝ M R) (hsamp : s.cfg.lbfgs = false) (hest : s.cfg.hasEst = true) (hacq : s.cfg.acq = .LCB) (x : XArg ℝ)
    (y : YArg ℝ) (res : Result ℝ M) (h : (tell exact W dims s x y true).2 = .ok res)
    (hn : (tell exact W dims s x y true).1.nInit ≤ 0)
    (hpts : ∀ v ∈ (tell exact W dims s x y true).1.Xi, ∃ p, v = .seq p ∧ InSpace exact dims p) (f : Point ℝ → ℝ)
    (g : List (Val ℝ) → ℝ) (hfg : Encodes dims f g)
    (hys : (tell exact W dims s x y true).1.yi =
      (tell exact W dims s x y true).1.Xi.map fun v => .num (.fin (f v.items)))
    (predict : M → List (List (Val ℝ)) → Pred) (xi kappa : ℝ) (hp : GaussianValues W predict .LCB xi (.num kappa))
    (hband : Banded W predict g kappa) (p : Point ℝ)
    (hask : (askOne exact W dims (tell exact W dims s x y true).1).2 = .ok p) :
    ∃ (r : R) (pts : List (Point ℝ)) (X : List (List (Val ℝ))) (est : M) (i : Nat) (sd : ℝ),
      Space.rvs exact dims (W.draws r dims s.cfg.nPoints).2 = .ok pts ∧ Space.transform exact dims pts = .ok X ∧
      pts[i]? = some p ∧ (predict est X).std[i]? = some sd ∧
      (∃ r Xt, Space.transform exact dims ((tell exact W dims s x y true).1.Xi.map Val.items) = .ok Xt ∧
        (W.fit r Xt (tell exact W dims s x y true).1.yi).2 = .ok est) ∧
      ∀ q ∈ pts, f p ≤ f q + 2 * kappa * sd := by
  obtain ⟨r, r', Xt, est, pts, X, i, q, sd, h1, h2, h3, h4, h6, h9, h10, h12, h13⟩ :=
    lcb_suggestion hd hW hsamp hacq (tell_fits hest h hn) hpts hfg hys hp hband
  have := askOne_next hn (tell_hasEst hest h hn) hask
  rw [h12] at this
  injection this with this
  subst this
  exact ⟨r', pts, X, est, i, sd, h3, h6, h9, h10, ⟨r, Xt, h1, h2⟩, h13⟩

/-- **C131 (certificate).** If moreover the surrogate is certain of the observations: when `ask` returns a point that has
been observed before, no sampled candidate has a smaller value. -/
theorem C131_repeat_is_optimal (W : World ℝ M R G) (dims : List (Dim ℝ)) (hd : Workable dims) (hW : Reliable W dims)
    (s : Opt ℝ M R) (hsamp : s.cfg.lbfgs = false) (hest : s.cfg.hasEst = true) (hacq : s.cfg.acq = .LCB) (x : XArg ℝ)
    (y : YArg ℝ) (res : Result ℝ M) (h : (tell exact W dims s x y true).2 = .ok res)
    (hn : (tell exact W dims s x y true).1.nInit ≤ 0)
    (hpts : ∀ v ∈ (tell exact W dims s x y true).1.Xi, ∃ p, v = .seq p ∧ InSpace exact dims p) (f : Point ℝ → ℝ)
    (g : List (Val ℝ) → ℝ) (hfg : Encodes dims f g)
    (hys : (tell exact W dims s x y true).1.yi =
      (tell exact W dims s x y true).1.Xi.map fun v => .num (.fin (f v.items)))
    (predict : M → List (List (Val ℝ)) → Pred) (xi kappa : ℝ) (hp : GaussianValues W predict .LCB xi (.num kappa))
    (hband : Banded W predict g kappa) (hcert : CertainAtData W predict) (p : Point ℝ)
    (hask : (askOne exact W dims (tell exact W dims s x y true).1).2 = .ok p)
    (hmem : .seq p ∈ (tell exact W dims s x y true).1.Xi) :
    ∃ (r : R) (pts : List (Point ℝ)), Space.rvs exact dims (W.draws r dims s.cfg.nPoints).2 = .ok pts ∧ p ∈ pts ∧
      ∀ q ∈ pts, f p ≤ f q := by
  obtain ⟨r, pts, q, h1, h2, h3, h4⟩ := lcb_repeat hd hW hsamp hacq (tell_fits hest h hn) hpts hfg hys hp hband hcert
  have := askOne_next hn (tell_hasEst hest h hn) hask
  rw [h3] at this
  injection this with this
  subst this
  exact ⟨r, pts, h1, h2, h4 hmem⟩

/-! ### Whole runs -/

/-- The settings of the search and what the surrogate is like. -/
structure Optimist (W : World ℝ M R G) (dims : List (Dim ℝ)) (f : Point ℝ → ℝ) (cfg : Config) : Prop where
  est : cfg.hasEst = true
  sampling : cfg.lbfgs = false
  acq : cfg.acq = .LCB
  surrogate : ∃ predict g xi kappa, Encodes dims f g ∧ GaussianValues W predict .LCB xi (.num kappa) ∧
    Banded W predict g kappa ∧ CertainAtData W predict
  covers : Covers W dims cfg.nPoints

/-- An optimum is on record. -/
def Solved (dims : List (Dim ℝ)) (f : Point ℝ → ℝ) (s : Opt ℝ M R) : Prop :=
  ∃ p, .seq p ∈ s.Xi ∧ ∀ q, InSpace exact dims q → f p ≤ f q

theorem minimizeLoop_solves (hd : Workable dims) (hW : Reliable W dims) (hdis : ∀ d ∈ dims, d.discrete)
    {func : Objective ℝ} {f : Point ℝ → ℝ} (hfunc : ∀ done p, InSpace exact dims p → func done (.seq p) = .ok (.num (.fin (f p))))
    {cbs : List (Callback ℝ M)} (hcbs : Patient cbs) (n : Nat)
    (done : List (Val ℝ)) (hist : List (Result ℝ M)) {s : Opt ℝ M R} (hs : Running W dims s) (hG : Optimist W dims f s.cfg)
    (hnext : s.nInit ≤ 0 → ∃ q, s.nextX = some q ∧ (.seq q ∈ s.Xi → Solved dims f s))
    (hrec : s.yi = s.Xi.map fun v => .num (.fin (f v.items)))
    (hmeas : Solved dims f s ∨ s.nInit.toNat + (unvisited dims s).ncard ≤ n)
    (last : Option (Result ℝ M)) (hlast : n = 0 → ∃ r, last = some r ∧ getResult s = .ok r) :
    ∃ r, (minimizeLoop exact W dims func cbs n done hist s last).2 = .ok (some r) ∧
      ∀ p, InSpace exact dims p → BestAtMost (f p) r := by
  have hfin : ∀ u : Opt ℝ M R, (unvisited dims u).Finite := fun u => (space_finite hdis).subset fun p hp => hp.1
  have hps : s.cfg.acq.isPs = false := by rw [hG.acq]; rfl
  induction n generalizing done hist s last with
  | zero =>
    obtain ⟨r, rfl, hr⟩ := hlast rfl
    have hrecorded : ∀ p, .seq p ∈ s.Xi → ∃ y ∈ s.yi, AtMost (f p) y := fun p hp =>
      ⟨.num (.fin (f p)), by rw [hrec]; exact List.mem_map.2 ⟨_, hp, rfl⟩, f p, le_rfl, .inl rfl⟩
    refine ⟨r, rfl, fun p hp => ?_⟩
    rcases hmeas with ⟨o, ho, hmin⟩ | hmeas
    · obtain ⟨b, e, hb⟩ := result_atMost hs.live hr (hrecorded o ho)
      exact ⟨b, e, hb.trans (hmin p hp)⟩
    · refine result_atMost hs.live hr (hrecorded p ?_)
      by_contra hn
      have : 0 < (unvisited dims s).ncard := (Set.ncard_pos (hfin s)).2 ⟨p, hp, hn⟩
      omega
  | succ n ih =>
    obtain ⟨p, hp⟩ := askOne_live hd hW hs.live hs.ready
    have hpS := askOne_member hd hW hs.design hs.ready hp
    obtain ⟨rng', hfr⟩ := askOne_frame exact W dims s
    have hv := hfunc done p hpS
    have hs' : Running W dims { s with rng := rng' } :=
      ⟨⟨hs.live.points, hs.live.values, hs.live.aligned, hs.live.hedge, hs.live.proposals⟩,
        ⟨hs.ready.initial, hs.ready.model⟩, hs.sane, hs.design⟩
    have hflat := inSpace_flat hd.nonempty hd.valid hpS
    obtain ⟨t, r, h1, h2, h3, h2'⟩ := tell_running hd hW hs' (c := .one p (.num (.fin (f p))) true)
      ⟨hpS, hflat, by
        show Told s.cfg.acq.isPs _
        rw [hps]; exact ⟨_, rfl⟩⟩ rfl
    obtain ⟨⟨y', k1, k2⟩, k3, k4, k5, k6⟩ := tell_one_state hflat h1
    have kX := tell_one_points hflat h1
    simp only at k2 k3 kX h2'
    have hc := evalCallbacks_patient hcbs (hist ++ [r]) r 0
    have hask : askOne exact W dims s = ({ s with rng := rng' }, .ok p) := by
      rw [← hfr, ← hp]
    have hG' : Optimist W dims f t.cfg := by rw [h2']; exact hG
    have hpsT : t.cfg.acq.isPs = false := by rw [h2']; exact hps
    have hsub : unvisited dims t ⊆ unvisited dims s \ {p} := by
      rintro q ⟨hq, hn⟩
      rw [kX, List.mem_append, List.mem_singleton, not_or] at hn
      refine ⟨⟨hq, hn.1⟩, ?_⟩
      rintro rfl
      exact hn.2 rfl
    have hrecT : t.yi = t.Xi.map fun v => .num (.fin (f v.items)) := by
      have k1 : OnRecord W s.cfg.acq (.num (.fin (f p))) y' := k1
      unfold OnRecord at k1
      rw [hps] at k1
      have k1 : y' = .num (.fin (f p)) := by simpa using k1
      rw [k2, kX, hrec, k1, List.map_append]
      rfl
    have hkeep : Solved dims f s → Solved dims f t := fun ⟨o, ho, hmin⟩ => ⟨o, by rw [kX]; exact List.mem_append_left _ ho, hmin⟩
    have hnextT : t.nInit ≤ 0 → ∃ q, t.nextX = some q ∧ (.seq q ∈ t.Xi → Solved dims f t) := by
      intro hn
      obtain ⟨predict, g, xi, kappa, hfg, hgv, hband, hcert⟩ := hG.surrogate
      obtain ⟨r₁, pts, q, g1, g2, g3, g4⟩ := lcb_repeat (W := W) (dims := dims) (s := { s with rng := rng' })
        hd hW hG.sampling hG.acq (tell_fits (x := .lst p) (y := .num (.fin (f p))) (res := r) hG.est (by rw [h1])
          (by rw [h1]; exact hn)) (by rw [h1]; exact h2.live.points) hfg (by rw [h1]; exact hrecT) hgv hband hcert
      rw [h1] at g3 g4
      exact ⟨q, g3, fun hq => ⟨q, hq, fun u hu => g4 hq u (hG.covers r₁ pts g1 u hu)⟩⟩
    have hmeasT : Solved dims f t ∨ t.nInit.toNat + (unvisited dims t).ncard ≤ n := by
      rcases hmeas with hm | hm
      · exact .inl (hkeep hm)
      have hle : (unvisited dims t).ncard ≤ (unvisited dims s \ {p}).ncard :=
        Set.ncard_le_ncard hsub ((hfin s).subset Set.sdiff_subset)
      have hle' : (unvisited dims s \ {p}).ncard ≤ (unvisited dims s).ncard :=
        Set.ncard_le_ncard Set.sdiff_subset (hfin s)
      by_cases hn : 0 < s.nInit
      · exact .inr (by omega)
      · have hn : s.nInit ≤ 0 := not_lt.1 hn
        obtain ⟨q, hq, hqn⟩ := hnext hn
        have hpq := askOne_next hn hG.est hp
        rw [hq] at hpq
        injection hpq with hpq
        subst hpq
        by_cases hmem : .seq q ∈ s.Xi
        · exact .inl (hkeep (hqn hmem))
        · have : (unvisited dims s \ {q}).ncard < (unvisited dims s).ncard :=
            Set.ncard_sdiff_singleton_lt_of_mem ⟨hpS, hmem⟩ (hfin s)
          exact .inr (by omega)
    obtain ⟨r', g1, g2⟩ := ih (done ++ [.seq p]) (hist ++ [r]) h2 hG' hnextT hrecT hmeasT (some r)
      (fun _ => ⟨r, rfl, k6⟩) hpsT
    refine ⟨r', ?_, g2⟩
    obtain ⟨tc, hc'⟩ : ∃ tc, evalCallbacks (hist ++ [r]) r cbs 0 false = (tc, .ok false) := ⟨_, Prod.ext rfl hc⟩
    simp only [minimizeLoop, hask, hv, h1, hc', g1]

/-- **C131 (finite spaces).** A run with `acq_func="LCB"` over a space of `Integer` and `Categorical` dimensions, with
sampled candidates that contain the whole space and a surrogate that is certain of the observations: if the objective
stays within `kappa` predicted standard deviations of the predicted mean, then `n_initial_points` plus the number of points
of the space evaluations suffice – the value reported is at most the one of each point of the space. -/
theorem C131_finds_optimum (W : World ℝ M R G) (sh : Shared ℝ G) (func : Objective ℝ) (m : MinArgs ℝ M) (rng : R)
    (hset : SaneArgs m.opt) (hest : m.opt.est.isNone = false) (hopt : m.opt.optimizer = .sampling)
    (hacq : m.opt.acq = some .LCB) (hdis : ∀ d ∈ sh.dims, d.discrete)
    (hd : Workable (searched m.opt.est.isGP sh.dims)) (hW : Reliable W (searched m.opt.est.isGP sh.dims))
    (hgen : sh.gen = none ∨ Generates W (searched m.opt.est.isGP sh.dims)) (f : Point ℝ → ℝ)
    (hfunc : ∀ done p, InSpace exact sh.dims p → func done (.seq p) = .ok (.num (.fin (f p))))
    (hx : m.x0 = .none) (hy : m.y0 = .none) (hpos : 0 < m.nRandomStarts.getD m.nInitialPoints)
    (hcalls : m.nRandomStarts.getD m.nInitialPoints + spaceSize sh.dims ≤ m.nCalls)
    (hcb : m.callback ≠ .invalid) (hpat : Patient m.callback.callables)
    (predict : M → List (List (Val ℝ)) → Pred) (g : List (Val ℝ) → ℝ)
    (hfg : Encodes (searched m.opt.est.isGP sh.dims) f g) (xi kappa : ℝ)
    (hp : GaussianValues W predict .LCB xi (.num kappa)) (hband : Banded W predict g kappa)
    (hcert : CertainAtData W predict) (hcov : Covers W (searched m.opt.est.isGP sh.dims) m.opt.nPoints) :
    ∃ r, (baseMinimize exact W sh func m rng).result = .ok (some r) ∧
      ∀ p, InSpace exact sh.dims p → ∃ v, r.fun_ = .fin v ∧ v ≤ f p := by
  obtain ⟨n, hn⟩ : ∃ n : Nat, m.nRandomStarts.getD m.nInitialPoints = n :=
    ⟨(m.nRandomStarts.getD m.nInitialPoints).toNat, by omega⟩
  rw [hn] at hpos hcalls
  have hprep : m.prepare = .ok ([], (n : ℤ)) := by
    unfold MinArgs.prepare
    rw [hx, hy, hn]
    simp only [X0.points, ok_bind]
    rw [if_neg (by simp; omega)]
    simp only [Y0.falsy, Y0.values]
    rw [if_neg]
    · simp
    · simp; omega
  obtain ⟨cfg, hcfg, hsane, hni, hgp, hest', hps⟩ := mkConfig_sane (n := n) hset (by omega)
  obtain ⟨f1, f2, f3⟩ := mkConfig_fields hcfg
  have f1 : m.opt.acq = some cfg.acq := f1
  have f2 : cfg.lbfgs = decide (m.opt.optimizer = .lbfgs) := f2
  have f3 : cfg.nPoints = m.opt.nPoints := f3
  rw [hacq] at f1
  injection f1 with f1
  rw [hopt] at f2
  rw [hest, Bool.not_false] at hest'
  rw [← hgp] at hd hW hcov hgen hfg
  obtain ⟨sh₁, s, hinit, hsd, hrun⟩ := init_runs (M := M) (W := W) (sh := sh) (cfg := cfg) hd hsane (by rw [hni]; omega)
    (hgen.imp_right fun h => ⟨hest', h⟩) rng
  have hs : s.cfg = cfg ∧ s.nInit = n ∧ s.Xi = [] ∧ s.yi = [] := by
    have hfresh : ∃ r pts, s = Opt.fresh exact cfg r pts := by
      unfold Opt.init at hinit
      split at hinit
      · cases hinit
      · repeat' split at hinit
        all_goals first
          | (simp only [Prod.mk.injEq, Except.ok.injEq] at hinit; exact ⟨_, _, hinit.2.symm⟩)
          | simp at hinit
    obtain ⟨r, pts, rfl⟩ := hfresh
    exact ⟨rfl, hni, rfl, rfl⟩
  obtain ⟨e1, e2, e3, e4⟩ := hs
  obtain ⟨cbs, hcb, hcs⟩ : ∃ cbs, checkCallback m.callback = .ok cbs ∧ m.callback.callables = cbs := by
    cases hc : m.callback with
    | none => exact ⟨[], rfl, rfl⟩
    | one c => exact ⟨[c], rfl, rfl⟩
    | list cs => exact ⟨cs, rfl, rfl⟩
    | invalid => exact absurd hc hcb
  have hpat' : Patient (if m.verbose then cbs ++ [verboseCallback] else cbs) := by
    intro c hc hist
    split at hc
    · rcases List.mem_append.1 hc with h | h
      · exact hpat c (by rw [hcs]; exact h) hist
      · rw [List.mem_singleton] at h
        subst h
        exact ⟨none, rfl, by simp⟩
    · exact hpat c (by rw [hcs]; exact hc) hist
  have hG : Optimist W (searched cfg.isGP sh.dims) f s.cfg := by
    rw [e1]
    exact ⟨hest', by rw [f2]; rfl, f1.symm, ⟨predict, g, xi, kappa, hfg, hp, hband, hcert⟩, by rw [f3]; exact hcov⟩
  have hcard : (unvisited (searched cfg.isGP sh.dims) s).ncard ≤ spaceSize sh.dims := by
    rw [← searched_size cfg.isGP]
    exact (Set.ncard_le_ncard (fun p hp => hp.1) (space_finite (searched_discrete hdis))).trans
      (space_ncard (searched_discrete hdis))
  obtain ⟨r, h1, h2⟩ := minimizeLoop_solves hd hW (searched_discrete hdis)
    (fun done p hp => hfunc done p (inSpace_searched.1 hp)) hpat' m.nCalls.toNat [] [] hrun hG
    (fun h => by rw [e2] at h; omega) (by rw [e3, e4]; rfl) (.inr (by rw [e2]; omega)) none (by omega)
  refine ⟨r, ?_, fun p hp => h2 p (inSpace_searched.2 hp)⟩
  have hstarts : checkStarts (searched cfg.isGP sh.dims).length ([] : List (Val ℝ)) = .ok () := rfl
  simp only [baseMinimize, hprep, MinArgs.optArgs, hcfg, hinit, hsd, hstarts, hcb, hy, minimizeBody]
  exact h1

open Matrix in
/-- **C131 (Gaussian processes).** A Gaussian process that was fitted without noise to the values of an objective whose
normalised form is bounded by `B` in the kernel is such a surrogate, for every `kappa` of at least `B`: it is certain of
the observations, and the objective is everywhere within `kappa` predicted standard deviations of the predicted mean. -/
theorem C131_gp {n d : Nat} (g : Gp n d) (K : Matrix (Fin n) (Fin n) ℝ) (f : (Fin d → ℝ) → ℝ) (B kappa : ℝ)
    (hK : Factored g K) (hN : NoisyCov g K fun _ => 0) (hs : 0 < g.yStd) (hv : g.kernel.Valid)
    (hper : d ≤ 1 ∨ ¬ g.kernel.Periodic) (hk : Noiseless g.kernel)
    (hB : 0 ≤ B) (hf : KernelBounded g.kernel B fun x => (f x - g.yMean) / g.yStd) (hkap : B ≤ kappa) (x : Fin d → ℝ) :
    ∃ p mu s, (g.fittedTo K fun i => f (g.X i)).predict { std := true } [x] = .ok p ∧ p.mean = [mu] ∧ p.std = some [s] ∧
      |f x - mu| ≤ kappa * s ∧ ((∃ i, x = g.X i) → s = 0 ∧ mu = f x) := by
  have hband := band_of_bounded hK hN (fun _ => le_rfl) hs.ne' hk hB hf x
  have hs0 : 0 ≤ g.std x := Real.sqrt_nonneg _
  refine ⟨_, _, _, rfl, rfl, rfl, hband.trans (mul_le_mul_of_nonneg_right hkap hs0), fun hx => ?_⟩
  have hdiag : ∀ x, (g.fittedTo K fun i => f (g.X i)).kernel.diag x = (g.fittedTo K fun i => f (g.X i)).kernel.value x x :=
    fun x => (C57_prior_variance g.kernel hk x).1
  obtain ⟨s, p, k1, k2, k3, -⟩ := C118_gp (g.fittedTo K fun i => f (g.X i)) K hK hN hdiag
    (fun x y => (noiseless_positive g.kernel hv hper hk).1 x y) hs x
  injection k1 with k1
  subst k1
  have k2 : some [g.std x] = some [s] := k2
  simp only [Option.some.injEq, List.cons.injEq, and_true] at k2
  have hz : g.std x = 0 := k2.trans (k3 hx)
  refine ⟨hz, ?_⟩
  rw [hz, mul_zero] at hband
  exact (sub_eq_zero.1 (abs_nonpos_iff.1 hband)).symm

/-! ## Examples -/

/-- `20 - 10 x` as a function of the encoded points, for `0 ≤ x ≤ 2`. -/
noncomputable def fallRow : List (Val ℝ) → ℝ
  | .num x :: _ => 20 - 10 * max 0 (min 2 x)
  | _ => 0

open Classical in
/-- Predictions for `f(x) = 20 - 10 x` by a surrogate that is certain at the training rows and guesses `c`, give or take 10,
elsewhere. -/
noncomputable def guessPredict (c : ℝ) (est X : List (List (Val ℝ))) : Pred where
  mu := X.map fun row => if row ∈ est then fallRow row else c
  std := X.map fun row => if row ∈ est then 0 else 10

/-- A world with that surrogate whose samples run through the numbers 0, 1, 2; `kappa = 2`. -/
noncomputable def guessWorld (c : ℝ) : World ℝ (List (List (Val ℝ))) Unit Unit :=
  { lineWorld with
    predict := fun est X => .ok (guessPredict c est X).mu
    acquisition := fun est X y a => match y, gaussianAcquisition (.one (guessPredict c est X)) (match y with
        | .fin y => y
        | .nan => 0) a 0.01 (.num 2) with
      | .fin _, .ok v => .ok (v.map .fin)
      | _, _ => .ok (X.map fun _ => .nan) }

theorem guessWorld_values (c : ℝ) : GaussianValues (guessWorld c) (guessPredict c) .LCB 0.01 (.num 2) where
  values est X y := by
    simp only [guessWorld, gaussianAcquisition, Surrogate.single, ok_bind, Except.map]
  muDim _ _ := rfl
  stdDim _ _ := rfl
  mu _ _ := by simp [guessPredict]
  std _ _ := by simp [guessPredict]

theorem guessWorld_certain (c : ℝ) : CertainAtData (guessWorld c) (guessPredict c) := by
  intro r Xt y est h X j row sd h1 h2 h3
  simp only [guessWorld, lineWorld, Except.ok.injEq] at h
  subst h
  simp only [guessPredict, List.getElem?_map, h1, Option.map_some, Option.some.injEq] at h2
  subst h2
  exact if_pos h3

theorem guessWorld_reliable (c : ℝ) : Reliable (guessWorld c) lineDims where
  fit _ Xt _ _ _ _ _ _ := ⟨Xt, rfl⟩
  predict _ X _ _ := ⟨_, rfl, by simp [guessPredict]⟩
  draws := lineWorld_reliable.draws
  acquisition est X y a _ _ := by
    have hl : (guessPredict c est X).mu.length = (guessPredict c est X).std.length := by simp [guessPredict]
    cases y with
    | nan => exact ⟨_, rfl, by simp⟩
    | fin y =>
      cases a <;> simp only [guessWorld, gaussianAcquisition, Surrogate.single, Surrogate.pair, ok_bind,
        gaussianEi_eq _ rfl rfl hl, gaussianPi_eq _ rfl rfl hl] <;>
        exact ⟨_, rfl, by simp [guessPredict, gaussianLcb]⟩
  argsort := lineWorld_reliable.argsort
  lbfgs := lineWorld_reliable.lbfgs
  multinomial := lineWorld_reliable.multinomial
  log := lineWorld_reliable.log

/-- The guess 0 is within two standard deviations of the values of the objective. -/
theorem guessWorld_banded : Banded (guessWorld 0) (guessPredict 0) fallRow 2 := by
  intro r Xt est h X j row m sd h1 h2 h3
  simp only [guessPredict, List.getElem?_map, h1, Option.map_some, Option.some.injEq] at h2 h3
  subst h2 h3
  by_cases hrow : row ∈ est
  · simp [hrow]
  · simp only [if_neg hrow, sub_zero]
    unfold fallRow
    split
    · next x _ =>
      have h1 : (0 : ℝ) ≤ max 0 (min 2 x) := le_max_left _ _
      have h2 : max 0 (min 2 x) ≤ 2 := max_le (by norm_num) (min_le_left _ _)
      rw [abs_le]
      constructor <;> linarith
    · norm_num

/-- The objective `20 - 10 x`. -/
noncomputable def fall : Objective ℝ := fun _ v => .ok (.num (.fin (fallRow v.items)))

theorem fall_encodes : Encodes lineDims fallRow fallRow := by
  intro p row hp h
  have hX : ∀ k : ℝ, Space.transform exact lineDims [[.num k]] = .ok [[.num k]] := fun k => rfl
  rcases List.mem_cons.1 (lineDims_iff.1 hp) with rfl | hp
  · rw [hX] at h
    simp only [Except.ok.injEq, List.cons.injEq, and_true] at h
    rw [h]
  · rcases List.mem_cons.1 hp with rfl | hp
    · rw [hX] at h
      simp only [Except.ok.injEq, List.cons.injEq, and_true] at h
      rw [h]
    · rcases List.mem_cons.1 hp with rfl | hp
      · rw [hX] at h
        simp only [Except.ok.injEq, List.cons.injEq, and_true] at h
        rw [h]
      · cases hp

/-- Four evaluations suffice to find the minimum of `20 - 10 x` over `Integer(0, 2)` with a surrogate that guesses 0 ± 10
at the points not observed.  Meets the hypotheses of `C131_finds_optimum`. -/
example : ∃ r, (baseMinimize exact (guessWorld 0) ⟨lineDims, none⟩ fall
    { lineRun with opt := { lineRun.opt with acq := some .LCB } } ()).result = .ok (some r) ∧
    ∃ v, r.fun_ = .fin v ∧ v ≤ 0 := by
  obtain ⟨r, h1, h2⟩ := C131_finds_optimum (guessWorld 0) ⟨lineDims, none⟩ fall
    { lineRun with opt := { lineRun.opt with acq := some .LCB } } ()
    ⟨⟨_, rfl⟩, .inl rfl, .inl rfl, by norm_num [lineRun], by norm_num [lineRun], by rintro k ⟨⟩⟩ rfl rfl rfl
    (by intro d hd; obtain rfl := List.mem_singleton.1 hd; trivial) lineDims_workable (guessWorld_reliable 0) (Or.inl rfl)
    fallRow (fun _ _ _ => rfl) rfl rfl (by norm_num [lineRun])
    (by show (1 : ℤ) + (spaceSize lineDims : ℤ) ≤ 4; rw [lineDims_size]; norm_num) (by simp [lineRun])
    (by simp [lineRun, Patient, CbArg.callables]) (guessPredict 0) fallRow fall_encodes 0.01 2 (guessWorld_values 0)
    guessWorld_banded (guessWorld_certain 0) lineWorld_covers
  obtain ⟨v, hv, hle⟩ := h2 [.num 2] (lineDims_iff.2 (by simp))
  refine ⟨r, h1, v, hv, hle.trans (le_of_eq ?_)⟩
  norm_num [fallRow]

/-- Told the value of the objective at a point, the optimizer returns and has a suggestion to make. -/
theorem guess_told (c k : ℝ) (hk : InSpace exact lineDims [.num k]) :
    ∃ t r, tell exact (guessWorld c) lineDims (lineOpt .LCB) (.lst [.num k]) (.num (.fin (fallRow [.num k]))) true = (t, .ok r) ∧
      Running (guessWorld c) lineDims t ∧ t.nInit ≤ 0 ∧ t.Xi = [.seq [.num k]] ∧
      t.yi = t.Xi.map fun v => .num (.fin (fallRow v.items)) := by
  have hflat := inSpace_flat lineDims_workable.nonempty lineDims_workable.valid hk
  have hrun : Running (guessWorld c) lineDims (lineOpt .LCB) :=
    ⟨live_fresh _ _ _ _, ⟨fun P h => (by cases h), fun h => absurd h (by simp [lineOpt, Opt.fresh])⟩,
      ⟨by simp [lineOpt, Opt.fresh], fun h => (by cases h), fun k h => (by cases h)⟩, fun P h => (by cases h)⟩
  obtain ⟨t, r, h1, h2, -, h4⟩ := tell_running lineDims_workable (guessWorld_reliable c) hrun
    (c := .one [.num k] (.num (.fin (fallRow [.num k]))) true) ⟨hk, hflat, by
      show Told AcqFunc.LCB.isPs _
      exact ⟨_, rfl⟩⟩ rfl
  obtain ⟨⟨y', k1, k2⟩, k3, -⟩ := tell_one_state hflat h1
  have kX := tell_one_points hflat h1
  have kX : t.Xi = [.seq [.num k]] := kX
  refine ⟨t, r, h1, h2, by rw [k3]; simp [lineOpt, Opt.fresh], kX, ?_⟩
  have k1 : OnRecord (guessWorld c) AcqFunc.LCB (.num (.fin (fallRow [.num k]))) y' := k1
  unfold OnRecord at k1
  have k1 : y' = .num (.fin (fallRow [.num k])) := by simpa [AcqFunc.isPs] using k1
  rw [k2, kX, k1]
  rfl

/-- **C131 needs a sufficient `kappa`.** With a surrogate that guesses 100 ± 10 for the values 10 and 0 and `kappa = 2`, told
the value 20 at the point 0, `ask` returns the observed point 0 again, although the candidates 1 and 2 have smaller
values. -/
theorem C131_needs_band : ∃ p, (askOne exact (guessWorld 100) lineDims
      (tell exact (guessWorld 100) lineDims (lineOpt .LCB) (.lst [.num 0]) (.num (.fin 20)) true).1).2 = .ok p ∧
    p = [.num 0] ∧
    .seq p ∈ (tell exact (guessWorld 100) lineDims (lineOpt .LCB) (.lst [.num 0]) (.num (.fin 20)) true).1.Xi ∧
    InSpace exact lineDims [.num 2] ∧ fallRow [.num 2] < fallRow p := by
  have hf0 : fallRow [.num 0] = 20 := by norm_num [fallRow]
  obtain ⟨t, r, h1, h2, h3, h4, h5⟩ := guess_told 100 0 (lineDims_iff.2 (by simp))
  rw [hf0] at h1
  obtain ⟨p, hp⟩ := askOne_live lineDims_workable (guessWorld_reliable 100) h2.live h2.ready
  obtain ⟨r₀, r', Xt, est, pts, X, yOpt, cand, values, i, q, v, g1, g2, g3, g4, g5, g6, g7, g8, g9, g10, g11, g12⟩ :=
    sampled_suggestion lineDims_workable (guessWorld_reliable 100) (s := lineOpt .LCB) rfl
      (tell_fits (x := .lst [.num 0]) (y := .num (.fin 20)) (res := r) rfl (by rw [h1]) (by rw [h1]; exact h3))
  have hest := tell_hasEst (W := guessWorld 100) (dims := lineDims) (s := lineOpt .LCB) (x := .lst [.num 0])
    (y := .num (.fin 20)) (res := r) rfl (by rw [h1]) (by rw [h1]; exact h3)
  rw [h1] at g1 g5 g12 hest ⊢
  have hq := askOne_next h3 hest hp
  rw [g12] at hq
  injection hq with hq
  subst hq
  have hq0 : q = [.num 0] := by
    have g3 : Space.rvs exact lineDims (lineWorld.draws r' lineDims 3).2 = .ok pts := g3
    rw [lineWorld_sample] at g3
    injection g3 with g3
    subst g3
    have hX : Space.transform exact lineDims [[.num 0], [.num 1], [.num 2]] = .ok [[.num 0], [.num 1], [.num 2]] := rfl
    rw [hX] at g6
    injection g6 with g6
    subst g6
    rw [h4] at g1
    have hXt : Space.transform exact lineDims ([.seq [.num (0 : ℝ)]].map Val.items) = .ok [[.num 0]] := rfl
    rw [hXt] at g1
    injection g1 with g1
    subst g1
    simp only [guessWorld, lineWorld, Except.ok.injEq] at g2
    subst g2
    obtain rfl : cand = .LCB := by simpa [lineOpt, Opt.fresh, AcqFunc.candidates] using g7
    rw [h5, h4] at g5
    have e : (List.map (fun v => (YArg.num (Flt.fin (fallRow v.items)) : YArg ℝ)) [Val.seq [.num 0]]) =
        [20].map fun v => .num (.fin v) := by simp [Val.items, hf0]
    rw [e, flatNums_fin, ok_bind, fltMin_iff] at g5
    obtain ⟨best, -, rfl⟩ := List.mem_map.1 g5.1
    rw [(guessWorld_values 100).values] at g8
    simp only [gaussianAcquisition, Surrogate.single, ok_bind, gaussianLcb, Except.map, guessPredict, List.map_cons,
      List.map_nil, List.zipWith_cons_cons, List.zipWith_nil_left, Except.ok.injEq] at g8
    subst g8
    have hv0 := g11 _ List.mem_cons_self
    rcases i with _ | _ | _ | i
    · simpa using g9.symm
    · exfalso
      simp only [List.getElem?_cons_succ, List.getElem?_cons_zero, Option.some.injEq] at g10
      rw [← g10, Flt.fin_le_fin] at hv0
      norm_num [hf0] at hv0
    · exfalso
      simp only [List.getElem?_cons_succ, List.getElem?_cons_zero, Option.some.injEq] at g10
      rw [← g10, Flt.fin_le_fin] at hv0
      norm_num [hf0] at hv0
    · simp at g9
  refine ⟨q, hp, hq0, by rw [h4, hq0]; simp, lineDims_iff.2 (by simp), ?_⟩
  rw [hq0, hf0]
  norm_num [fallRow]

/-- `10 x` as a function of the encoded points. -/
noncomputable def riseRow : List (Val ℝ) → ℝ
  | .num x :: _ => 10 * x
  | _ => 0

theorem rise_encodes : Encodes lineDims riseRow riseRow := by
  intro p row hp h
  have hX : ∀ k : ℝ, Space.transform exact lineDims [[.num k]] = .ok [[.num k]] := fun k => rfl
  have hp := lineDims_iff.1 hp
  simp only [List.mem_cons, List.not_mem_nil, or_false] at hp
  rcases hp with rfl | rfl | rfl <;>
  · rw [hX] at h
    simp only [Except.ok.injEq, List.cons.injEq, and_true] at h
    rw [h]

theorem lineWorld_banded : Banded lineWorld linePredict riseRow 1.96 := by
  intro r Xt est h X j row m sd h1 h2 h3
  simp only [linePredict, List.getElem?_map, h1, Option.map_some, Option.some.injEq] at h2 h3
  subst h2 h3
  change |riseRow row - riseRow row| ≤ _
  rw [sub_self, abs_zero]
  split <;> norm_num

theorem lineWorld_certain : CertainAtData lineWorld linePredict := fun r Xt y est h X j row sd h1 h2 h3 =>
  (lineWorld_free r Xt y est h X j row sd h1 h2).1 h3

/-- The search for the minimum of `10 x` that suggests the observed point 0 again: no candidate is better.
Meets the hypotheses of `C131_repeat_is_optimal` and `C131_one_step`. -/
example : ∃ pts : List (Point ℝ), [.num 0] ∈ pts ∧ ∀ q ∈ pts, riseRow [.num 0] ≤ riseRow q := by
  obtain ⟨t, r, h1, h2, h3, h4, h5⟩ := line_told .LCB (Or.inr (Or.inr rfl))
  obtain ⟨p, hp, rfl, hX⟩ := C118_lcb_repeats
  have hys : t.yi = t.Xi.map fun v => .num (.fin (riseRow v.items)) := by
    rw [h5, h4]
    simp [Val.items, riseRow]
  obtain ⟨r₀, pts, -, g2, g3⟩ := C131_repeat_is_optimal lineWorld lineDims lineDims_workable lineWorld_reliable (lineOpt .LCB)
    rfl rfl rfl (.lst [.num 0]) (.num (.fin 0)) r (by rw [h1]) (by rw [h1]; exact h3)
    (by rw [h1]; exact h2.live.points) riseRow riseRow rise_encodes (by rw [h1]; exact hys) linePredict 0.01 1.96
    (lineWorld_values .LCB (Or.inr (Or.inr rfl))) lineWorld_banded lineWorld_certain _ hp (by rw [hX]; simp)
  have := C131_one_step lineWorld lineDims lineDims_workable lineWorld_reliable (lineOpt .LCB)
    rfl rfl rfl (.lst [.num 0]) (.num (.fin 0)) r (by rw [h1]) (by rw [h1]; exact h3)
    (by rw [h1]; exact h2.live.points) riseRow riseRow rise_encodes (by rw [h1]; exact hys) linePredict 0.01 1.96
    (lineWorld_values .LCB (Or.inr (Or.inr rfl))) lineWorld_banded _ hp
  exact ⟨pts, g2, g3⟩

open Matrix in
/-- The process observed at 0 only and the objective `1 + 2 x`, with `kappa = 3`.  Meets the hypotheses of `C131_gp`. -/
example (x : Fin 1 → ℝ) : ∃ p mu s,
    (originSeen.fittedTo 1 fun i => 1 + 2 * originSeen.X i 0).predict { std := true } [x] = .ok p ∧ p.mean = [mu] ∧
      p.std = some [s] ∧ |1 + 2 * x 0 - mu| ≤ 3 * s := by
  have hval : ∀ x y : Fin 1 → ℝ, originSeen.kernel.value x y = 1 + x 0 * y 0 := by
    intro x y
    simp [originSeen, Kernel.value, add_comm]
  have hv : originSeen.kernel.Valid := by simp [originSeen, Kernel.Valid]
  have hk : Noiseless originSeen.kernel := trivial
  have hb := C125_sums originSeen.kernel hv (.inl le_rfl) hk (fun _ : Fin 1 => fun _ => 2) (fun _ => 1)
  obtain ⟨p, mu, s, h1, h2, h3, h4, -⟩ := C131_gp originSeen 1 (fun x => 1 + 2 * x 0) _ 3
    ⟨by simp [originSeen], by simp [originSeen]⟩ (by
      intro i j
      obtain rfl := Subsingleton.elim i j
      rw [hval]
      simp [originSeen]) (by simp [originSeen]) hv (.inl le_rfl) hk (Real.sqrt_nonneg _) (by
      convert hb using 1
      funext y
      simp only [hval]
      simp only [originSeen, Finset.sum_const, Finset.card_univ, Fintype.card_fin, one_smul]
      ring) (by
      rw [Real.sqrt_le_left (by norm_num)]
      simp only [hval]
      norm_num) x
  exact ⟨p, mu, s, h1, h2, h3, h4⟩

end Skopt

import Verif.Lemmas.Exhaustive
import Verif.Props.GpCertainty
import Verif.Props.RandomSearch
import Mathlib.Data.Set.Card

/-!
# C118: a noise-free search does not repeat itself and exhausts finite spaces
-/

namespace Skopt

variable {M R G : Type}

/-! ## Specification -/

/-- The surrogate takes the observations to be free of noise: fitted on the rows `Xt` it predicts with the standard
deviation zero at these rows and with a positive one at all others. -/
def NoiseFree (W : World ℝ M R G) (predict : M → List (List (Val ℝ)) → Pred) : Prop :=
  ∀ r Xt y est, (W.fit r Xt y).2 = .ok est → ∀ (X : List (List (Val ℝ))) (j : Nat) row sd,
    X[j]? = some row → (predict est X).std[j]? = some sd → (row ∈ Xt → sd = 0) ∧ (row ∉ Xt → 0 < sd)

/-- A dimension with finitely many values. -/
def Dim.discrete : Dim ℝ → Prop
  | .real _ => False
  | _ => True

/-- The number of values of a discrete dimension. -/
noncomputable def Dim.size : Dim ℝ → Nat
  | .real _ => 0
  | .int d => (⌊d.high⌋ - ⌈d.low⌉ + 1).toNat
  | .cat d => d.cats.length

/-- The number of points of a discrete space. -/
noncomputable def spaceSize (dims : List (Dim ℝ)) : Nat := (dims.map Dim.size).prod

/-- Every sample of `n` candidates contains all the points of the space. -/
def Covers (W : World ℝ M R G) (dims : List (Dim ℝ)) (n : Nat) : Prop :=
  ∀ r pts, Space.rvs exact dims (W.draws r dims n).2 = .ok pts → ∀ p, InSpace exact dims p → p ∈ pts

/-! ## Lemmas -/

variable {W : World ℝ M R G} {dims : List (Dim ℝ)}

/-- The value of EI and of PI is zero where the surrogate is certain and negative elsewhere. -/
theorem improving_values {pred : Pred} (hm : pred.muDim = 1) (hs : pred.stdDim = 1)
    (hl : pred.mu.length = pred.std.length) {c : AcqFunc} (hc : c = .EI ∨ c = .PI) {best xi : ℝ} {kappa : Kappa}
    {values : List ℝ} (h : gaussianAcquisition (.one pred) best c xi kappa = .ok values) :
    values.length = pred.std.length ∧ ∀ (i : Nat) (sd v : ℝ), pred.std[i]? = some sd → values[i]? = some v →
      (0 < sd → v < 0) ∧ (sd ≤ 0 → v = 0) := by
  rcases hc with rfl | rfl
  · obtain ⟨ei, e1, e2, e3⟩ := C53_expected_improvement_partial pred hm hs hl best xi
    simp only [gaussianAcquisition, Surrogate.single, ok_bind, e1, Except.ok.injEq] at h
    subst h
    refine ⟨by simp [e2, hl], fun i sd v h1 h2 => ?_⟩
    rw [List.getElem?_map] at h2
    obtain ⟨w, hw, rfl⟩ := Option.map_eq_some_iff.1 h2
    have hi := (List.getElem?_eq_some_iff.1 h1).1
    obtain ⟨k1, k2⟩ := e3 i _ sd w (List.getElem?_eq_getElem (hl ▸ hi)) h1 hw
    refine ⟨fun hp => ?_, fun hz => by rw [k2 hz, neg_zero]⟩
    rw [k1 hp, neg_lt_zero]
    exact expectedImprovement_pos _ _ hp
  · obtain ⟨ei, e1, e2, e3⟩ := C53_probability_of_improvement_partial pred hm hs hl best xi
    simp only [gaussianAcquisition, Surrogate.single, ok_bind, e1, Except.ok.injEq] at h
    subst h
    refine ⟨by simp [e2, hl], fun i sd v h1 h2 => ?_⟩
    rw [List.getElem?_map] at h2
    obtain ⟨w, hw, rfl⟩ := Option.map_eq_some_iff.1 h2
    have hi := (List.getElem?_eq_some_iff.1 h1).1
    obtain ⟨k1, k2⟩ := e3 i _ sd w (List.getElem?_eq_getElem (hl ▸ hi)) h1 hw
    refine ⟨fun hp => ?_, fun hz => by rw [k2 hz, neg_zero]⟩
    rw [k1 hp, neg_lt_zero, improvementProbability_eq _ _ hp]
    exact normCdf_pos _

theorem items_mem {Xi : List (Val ℝ)} (h : ∀ v ∈ Xi, ∃ p, v = .seq p ∧ InSpace exact dims p) :
    (∀ q ∈ Xi.map Val.items, InSpace exact dims q) ∧ ∀ p : Point ℝ, p ∈ Xi.map Val.items ↔ .seq p ∈ Xi := by
  constructor
  · intro q hq
    obtain ⟨v, hv, rfl⟩ := List.mem_map.1 hq
    obtain ⟨p, rfl, hp⟩ := h v hv
    exact hp
  · intro p
    constructor
    · intro hp
      obtain ⟨v, hv, rfl⟩ := List.mem_map.1 hp
      obtain ⟨q, rfl, -⟩ := h v hv
      exact hv
    · intro hp
      exact List.mem_map.2 ⟨_, hp, rfl⟩

/-- A fit stores a new point unless all its candidates are on record. -/
theorem next_new (hd : Workable dims) (hW : Reliable W dims) {s t : Opt ℝ M R} (hsamp : s.cfg.lbfgs = false)
    {c : AcqFunc} (hc : c = .EI ∨ c = .PI) (hacq : s.cfg.acq = c)
    (hfit : ∃ r Xt est s', Space.transform exact dims (t.Xi.map Val.items) = .ok Xt ∧ (W.fit r Xt t.yi).2 = .ok est ∧
      suggest exact W dims est s' = (t, .ok ()) ∧ s'.cfg = s.cfg ∧ s'.yi = t.yi)
    (hpts : ∀ v ∈ t.Xi, ∃ p, v = .seq p ∧ InSpace exact dims p) {ys : List ℝ}
    (hys : t.yi = ys.map fun v => .num (.fin v))
    {predict : M → List (List (Val ℝ)) → Pred} {xi : ℝ} {kappa : Kappa} (hp : GaussianValues W predict c xi kappa)
    (hfree : NoiseFree W predict) :
    ∃ (r : R) (pts : List (Point ℝ)) (p : Point ℝ), Space.rvs exact dims (W.draws r dims s.cfg.nPoints).2 = .ok pts ∧
      p ∈ pts ∧ t.nextX = some p ∧ ((∃ q ∈ pts, .seq q ∉ t.Xi) → .seq p ∉ t.Xi) := by
  obtain ⟨r, r', Xt, est, pts, X, yOpt, cand, values, i, p, v, h1, h2, h3, h4, h5, h6, h7, h8, h9, h10, h11, h12⟩ :=
    sampled_suggestion hd hW hsamp hfit
  refine ⟨r', pts, p, h3, List.mem_of_getElem? h9, h12, ?_⟩
  rintro ⟨q, hq, hqn⟩
  obtain ⟨m1, m2⟩ := items_mem hpts
  rw [hacq] at h7
  have hcand : cand = c := by
    rcases hc with rfl | rfl <;> simpa [AcqFunc.candidates] using h7
  subst hcand
  rw [hys, flatNums_fin, ok_bind, fltMin_iff] at h5
  obtain ⟨best, -, rfl⟩ := List.mem_map.1 h5.1
  rw [hp.values] at h8
  cases hvals : gaussianAcquisition (.one (predict est X)) best cand xi kappa with
  | error e => rw [hvals] at h8; cases h8
  | ok vals =>
    rw [hvals] at h8
    injection h8 with h8
    subst h8
    have hlX : (predict est X).std.length = X.length := hp.std est X
    obtain ⟨l1, l2⟩ := improving_values (hp.muDim est X) (hp.stdDim est X) (by rw [hp.mu, hp.std]) hc hvals
    have hXp : X.length = pts.length := by
      have hne : pts ≠ [] := List.ne_nil_of_mem hq
      exact ((C67_transform_pointwise_partial exact dims hd.nonempty hd.valid
        (Or.inl fun d h => (hd.bounds d h).yieldsNoStr) pts hne h4 X).1 h6).length_eq.symm
    -- the new candidate has a negative value
    obtain ⟨j, hj, hjq⟩ := List.getElem_of_mem hq
    have hjX : j < X.length := by omega
    have hjs : j < (predict est X).std.length := by omega
    have hjv : j < vals.length := by omega
    have hnew : X[j] ∉ Xt := by
      rw [encoded_mem hd h4 m1 h6 h1 (by rw [List.getElem?_eq_getElem hj, hjq]) (List.getElem?_eq_getElem hjX), m2]
      exact hqn
    have hsd := (hfree r Xt _ est h2 X j _ _ (List.getElem?_eq_getElem hjX) (List.getElem?_eq_getElem hjs)).2 hnew
    have hneg := (l2 j _ _ (List.getElem?_eq_getElem hjs) (List.getElem?_eq_getElem hjv)).1 hsd
    -- hence so has the suggested one
    rw [List.getElem?_map] at h10
    obtain ⟨w, hw, rfl⟩ := Option.map_eq_some_iff.1 h10
    have hle : w ≤ vals[j] := Flt.fin_le_fin.1 (h11 _ (List.mem_map_of_mem (List.getElem_mem hjv)))
    have hiv := (List.getElem?_eq_some_iff.1 hw).1
    have hiX : i < X.length := by omega
    have his : i < (predict est X).std.length := by omega
    intro hmem
    have hold : X[i] ∈ Xt := by
      rw [encoded_mem hd h4 m1 h6 h1 h9 (List.getElem?_eq_getElem hiX), m2]
      exact hmem
    have hz := (hfree r Xt _ est h2 X i _ _ (List.getElem?_eq_getElem hiX) (List.getElem?_eq_getElem his)).1 hold
    have := (l2 i _ _ (List.getElem?_eq_getElem his) hw).2 hz.le
    linarith

/-- Behind the initial phase `ask` returns the stored suggestion. -/
theorem askOne_next {F : Type} [LinearOrder F] {A : Arith F} {W : World F M R G} {dims : List (Dim F)} {s : Opt F M R}
    (hn : s.nInit ≤ 0) (hest : s.cfg.hasEst = true) {p : Point F} (h : (askOne A W dims s).2 = .ok p) :
    s.nextX = some p := by
  unfold askOne at h
  rw [if_neg (by simp [hest]; omega)] at h
  split at h
  · cases h
  · cases hx : s.nextX with
    | none => rw [hx] at h; cases h
    | some q =>
      rw [hx] at h
      obtain ⟨ds, -, h⟩ := bind_eq_ok.1 h
      split at h
      · cases h
      · injection h with h
        rw [h]

/-! ## C118 -/

/-- **C118 (no repetition).** With `acq_func="EI"` or `"PI"`, `acq_optimizer="sampling"` and a noise-free surrogate, after
a `tell` that fitted the surrogate: the point that `ask` returns is not one of those observed so far, unless all the
candidates that were sampled have been observed. -/
theorem C118_new_point (W : World ℝ M R G) (dims : List (Dim ℝ)) (hd : Workable dims) (hW : Reliable W dims)
    (s : Opt ℝ M R) (hsamp : s.cfg.lbfgs = false) (hest : s.cfg.hasEst = true) (c : AcqFunc) (hc : c = .EI ∨ c = .PI)
    (hacq : s.cfg.acq = c) (x : XArg ℝ) (y : YArg ℝ) (res : Result ℝ M) (h : (tell exact W dims s x y true).2 = .ok res)
    (hn : (tell exact W dims s x y true).1.nInit ≤ 0)
    (hpts : ∀ v ∈ (tell exact W dims s x y true).1.Xi, ∃ p, v = .seq p ∧ InSpace exact dims p) (ys : List ℝ)
    (hys : (tell exact W dims s x y true).1.yi = ys.map fun v => .num (.fin v))
    (predict : M → List (List (Val ℝ)) → Pred) (xi : ℝ) (kappa : Kappa) (hp : GaussianValues W predict c xi kappa)
    (hfree : NoiseFree W predict) (p : Point ℝ) (hask : (askOne exact W dims (tell exact W dims s x y true).1).2 = .ok p) :
    ∃ (r : R) (pts : List (Point ℝ)), Space.rvs exact dims (W.draws r dims s.cfg.nPoints).2 = .ok pts ∧ p ∈ pts ∧
      ((∃ q ∈ pts, .seq q ∉ (tell exact W dims s x y true).1.Xi) → .seq p ∉ (tell exact W dims s x y true).1.Xi) := by
  obtain ⟨r, pts, q, h1, h2, h3, h4⟩ := next_new hd hW hsamp hc hacq (tell_fits hest h hn) hpts hys hp hfree
  have hest' : (tell exact W dims s x y true).1.cfg.hasEst = true := by
    obtain ⟨-, -, est, s', -, -, e, e', -⟩ := tell_fits hest h hn
    have := (suggest_frame exact W dims est s').1.cfg
    rw [e] at this
    rw [this, e', hest]
  have := askOne_next hn hest' hask
  rw [h3] at this
  injection this with this
  subst this
  exact ⟨r, pts, h1, h2, h4⟩

/-! ### Finite spaces -/

/-- The values of a discrete dimension. -/
noncomputable def Dim.values : Dim ℝ → List (Val ℝ)
  | .real _ => []
  | .int d => (List.range (⌊d.high⌋ - ⌈d.low⌉ + 1).toNat).map fun i : Nat => .num ((⌈d.low⌉ + (i : ℤ) : ℤ) : ℝ)
  | .cat d => d.cats

/-- The points of a discrete space, one after the other. -/
noncomputable def allPoints : List (Dim ℝ) → List (Point ℝ)
  | [] => [[]]
  | d :: ds => d.values.flatMap fun v => (allPoints ds).map (v :: ·)

theorem Dim.values_length (d : Dim ℝ) : d.values.length = d.size := by
  cases d <;> simp [Dim.values, Dim.size]

theorem allPoints_length (dims : List (Dim ℝ)) : (allPoints dims).length = spaceSize dims := by
  induction dims with
  | nil => rfl
  | cons d ds ih =>
    unfold spaceSize at ih ⊢
    simp only [allPoints, List.length_flatMap, List.length_map, ih, List.map_const', List.sum_replicate,
      Dim.values_length, List.map_cons, List.prod_cons, smul_eq_mul]

theorem Dim.legal_values {d : Dim ℝ} (hd : d.discrete) {v : Val ℝ} (h : Legal exact d v) : v ∈ d.values := by
  cases d with
  | real d => exact hd.elim
  | cat d => exact h
  | int d =>
    obtain ⟨k, rfl, h1, h2⟩ := h
    have h1 : ⌈d.low⌉ ≤ k := Int.ceil_le.2 h1
    have h2 : k ≤ ⌊d.high⌋ := Int.le_floor.2 h2
    refine List.mem_map.2 ⟨(k - ⌈d.low⌉).toNat, List.mem_range.2 (by omega), ?_⟩
    have : ⌈d.low⌉ + (((k - ⌈d.low⌉).toNat : Nat) : ℤ) = k := by omega
    rw [this]
    rfl

theorem mem_allPoints (hd : ∀ d ∈ dims, d.discrete) {p : Point ℝ} (h : InSpace exact dims p) : p ∈ allPoints dims := by
  induction h with
  | nil => exact List.mem_singleton.2 rfl
  | @cons d v ds p h1 _ ih =>
    exact List.mem_flatMap.2 ⟨v, Dim.legal_values (hd d (by simp)) h1,
      List.mem_map.2 ⟨p, ih fun d h => hd d (by simp [h]), rfl⟩⟩

theorem space_finite (hd : ∀ d ∈ dims, d.discrete) : {p | InSpace exact dims p}.Finite :=
  (List.finite_toSet (allPoints dims)).subset fun _ h => mem_allPoints hd h

theorem space_ncard (hd : ∀ d ∈ dims, d.discrete) : {p | InSpace exact dims p}.ncard ≤ spaceSize dims := by
  classical
  have h : {p | InSpace exact dims p} ⊆ ((allPoints dims).toFinset : Set (Point ℝ)) := by
    intro p hp
    simpa using mem_allPoints hd hp
  refine (Set.ncard_le_ncard h (Finset.finite_toSet _)).trans ?_
  rw [Set.ncard_coe_finset, ← allPoints_length]
  exact List.toFinset_card_le _

/-- The points of the space that are not on record. -/
def unvisited (dims : List (Dim ℝ)) (s : Opt ℝ M R) : Set (Point ℝ) := {p | InSpace exact dims p ∧ .seq p ∉ s.Xi}

theorem tell_one_points {s t : Opt ℝ M R} {r : Result ℝ M} {p : Point ℝ} (hp : Flat p) {y : YArg ℝ}
    (h : tell exact W dims s (.lst p) y true = (t, .ok r)) : t.Xi = s.Xi ++ [.seq p] := by
  rcases tell_one exact W dims s hp y true with ⟨e, he⟩ | ⟨y', h1, -, h3, h4⟩
  · rw [he] at h; cases h
  · rw [h3] at h
    have hc := tellCore_frame exact W dims s (.lst p) y' true h4
    rw [h] at hc
    exact hc.Xi

/-- The settings of the search and what the surrogate is like. -/
structure Greedy (W : World ℝ M R G) (dims : List (Dim ℝ)) (cfg : Config) : Prop where
  est : cfg.hasEst = true
  sampling : cfg.lbfgs = false
  surrogate : ∃ predict c xi kappa, (c = .EI ∨ c = .PI) ∧ cfg.acq = c ∧ GaussianValues W predict c xi kappa ∧
    NoiseFree W predict
  covers : Covers W dims cfg.nPoints

theorem minimizeLoop_exhausts (hd : Workable dims) (hW : Reliable W dims) (hdis : ∀ d ∈ dims, d.discrete)
    {func : Objective ℝ} (hfunc : TotalOn false dims func) {cbs : List (Callback ℝ M)} (hcbs : Patient cbs) (n : Nat)
    (done : List (Val ℝ)) (hist : List (Result ℝ M)) {s : Opt ℝ M R} (hs : Running W dims s) (hG : Greedy W dims s.cfg)
    (hnext : s.nInit ≤ 0 → ∃ q, s.nextX = some q ∧ ((unvisited dims s).Nonempty → .seq q ∉ s.Xi))
    (hrec : ∀ p c, .seq p ∈ s.Xi → p ∈ sublevel func c → ∃ y ∈ s.yi, AtMost c y)
    (hmeas : s.nInit.toNat + (unvisited dims s).ncard ≤ n)
    (last : Option (Result ℝ M)) (hlast : n = 0 → ∃ r, last = some r ∧ getResult s = .ok r) :
    ∃ r, (minimizeLoop exact W dims func cbs n done hist s last).2 = .ok (some r) ∧
      ∀ p, InSpace exact dims p → .seq p ∈ r.xIters ∧ ∀ c, p ∈ sublevel func c → BestAtMost c r := by
  have hfin : ∀ u : Opt ℝ M R, (unvisited dims u).Finite := fun u => (space_finite hdis).subset fun p hp => hp.1
  have hps : s.cfg.acq.isPs = false := by
    obtain ⟨-, c, -, -, hc, e, -⟩ := hG.surrogate
    rw [e]
    rcases hc with rfl | rfl <;> rfl
  induction n generalizing done hist s last with
  | zero =>
    obtain ⟨r, rfl, hr⟩ := hlast rfl
    have hall : ∀ p, InSpace exact dims p → .seq p ∈ s.Xi := by
      intro p hp
      by_contra hn
      have : 0 < (unvisited dims s).ncard := (Set.ncard_pos (hfin s)).2 ⟨p, hp, hn⟩
      omega
    refine ⟨r, rfl, fun p hp => ⟨?_, fun c hc => result_atMost hs.live hr (hrec p c (hall p hp) hc)⟩⟩
    have hv := hs.live.values
    rw [hps] at hv
    obtain ⟨fs, hfs⟩ := observed_nums hv
    obtain ⟨b, -, -, -, -, -, h5, -⟩ := (C30_first_best_partial s r hr).1 fs hfs
    rw [h5]
    exact hall p hp
  | succ n ih =>
    obtain ⟨p, hp⟩ := askOne_live hd hW hs.live hs.ready
    have hpS := askOne_member hd hW hs.design hs.ready hp
    obtain ⟨rng', hfr⟩ := askOne_frame exact W dims s
    obtain ⟨y, hv, hy⟩ := hfunc done p hpS
    have hs' : Running W dims { s with rng := rng' } :=
      ⟨⟨hs.live.points, hs.live.values, hs.live.aligned, hs.live.hedge, hs.live.proposals⟩,
        ⟨hs.ready.initial, hs.ready.model⟩, hs.sane, hs.design⟩
    have hflat := inSpace_flat hd.nonempty hd.valid hpS
    obtain ⟨t, r, h1, h2, h3, h2'⟩ := tell_running hd hW hs' (c := .one p y true)
      ⟨hpS, hflat, by
        show Told s.cfg.acq.isPs y
        rw [hps]; exact hy⟩ rfl
    obtain ⟨⟨y', k1, k2⟩, k3, k4, k5, k6⟩ := tell_one_state hflat h1
    have kX := tell_one_points hflat h1
    simp only at k2 k3 kX h2'
    have hc := evalCallbacks_patient hcbs (hist ++ [r]) r 0
    have hask : askOne exact W dims s = ({ s with rng := rng' }, .ok p) := by
      rw [← hfr, ← hp]
    have hG' : Greedy W dims t.cfg := by rw [h2']; exact hG
    have hpsT : t.cfg.acq.isPs = false := by rw [h2']; exact hps
    have hsub : unvisited dims t ⊆ unvisited dims s \ {p} := by
      rintro q ⟨hq, hn⟩
      rw [kX, List.mem_append, List.mem_singleton, not_or] at hn
      refine ⟨⟨hq, hn.1⟩, ?_⟩
      rintro rfl
      exact hn.2 rfl
    have hnextT : t.nInit ≤ 0 → ∃ q, t.nextX = some q ∧ ((unvisited dims t).Nonempty → .seq q ∉ t.Xi) := by
      intro hn
      obtain ⟨predict, c, xi, kappa, hc, hacq, hgv, hfree⟩ := hG.surrogate
      have hvv := h2.live.values
      rw [hpsT] at hvv
      obtain ⟨fs, hfs⟩ := observed_nums hvv
      obtain ⟨r₁, pts, q, g1, g2, g3, g4⟩ := next_new (W := W) (dims := dims) (s := { s with rng := rng' })
        hd hW hG.sampling hc hacq (tell_fits (x := .lst p) (y := y) (res := r) hG.est (by rw [h1]) (by rw [h1]; exact hn))
        (by rw [h1]; exact h2.live.points) (ys := fs) (by rw [h1]; exact hfs) hgv hfree
      rw [h1] at g3 g4
      refine ⟨q, g3, fun ⟨u, hu, hun⟩ => g4 ⟨u, hG.covers r₁ pts g1 u hu, hun⟩⟩
    have hrecT : ∀ q c, .seq q ∈ t.Xi → q ∈ sublevel func c → ∃ y ∈ t.yi, AtMost c y := by
      intro q c hq hqc
      rw [kX, List.mem_append, List.mem_singleton] at hq
      rw [k2]
      rcases hq with hq | hq
      · obtain ⟨z, hz, hz'⟩ := hrec q c hq hqc
        exact ⟨z, List.mem_append_left _ hz, hz'⟩
      · obtain rfl : q = p := by simpa using hq
        exact ⟨y', by simp, onRecord_atMost k1 (hqc done y hv)⟩
    have hmeasT : t.nInit.toNat + (unvisited dims t).ncard ≤ n := by
      have hle : (unvisited dims t).ncard ≤ (unvisited dims s \ {p}).ncard :=
        Set.ncard_le_ncard hsub ((hfin s).subset Set.sdiff_subset)
      have hle' : (unvisited dims s \ {p}).ncard ≤ (unvisited dims s).ncard :=
        Set.ncard_le_ncard Set.sdiff_subset (hfin s)
      by_cases hn : 0 < s.nInit
      · omega
      · have hn : s.nInit ≤ 0 := not_lt.1 hn
        obtain ⟨q, hq, hqn⟩ := hnext hn
        have hpq := askOne_next hn hG.est hp
        rw [hq] at hpq
        injection hpq with hpq
        subst hpq
        by_cases hne : (unvisited dims s).Nonempty
        · have : (unvisited dims s \ {q}).ncard < (unvisited dims s).ncard :=
            Set.ncard_sdiff_singleton_lt_of_mem ⟨hpS, hqn hne⟩ (hfin s)
          omega
        · rw [Set.not_nonempty_iff_eq_empty.1 hne] at hle
          simp only [Set.empty_sdiff, Set.ncard_empty] at hle
          omega
    obtain ⟨r', g1, g2⟩ := ih (done ++ [.seq p]) (hist ++ [r]) h2 hG' hnextT hrecT hmeasT (some r)
      (fun _ => ⟨r, rfl, k6⟩) hpsT
    refine ⟨r', ?_, g2⟩
    obtain ⟨tc, hc'⟩ : ∃ tc, evalCallbacks (hist ++ [r]) r cbs 0 false = (tc, .ok false) := ⟨_, Prod.ext rfl hc⟩
    simp only [minimizeLoop, hask, hv, h1, hc', g1]

theorem mkConfig_fields {a : Args} {cfg : Config} (h : mkConfig a = .ok cfg) :
    a.acq = some cfg.acq ∧ cfg.lbfgs = decide (a.optimizer = .lbfgs) ∧ cfg.nPoints = a.nPoints := by
  unfold mkConfig at h
  cases ha : a.acq with
  | none => rw [ha] at h; cases h
  | some f =>
    rw [ha] at h
    simp only at h
    split at h
    · cases h
    · split at h
      · cases h
      · split at h
        · cases h
        · split at h
          · cases h
          · injection h with h
            rw [← h]
            exact ⟨rfl, rfl, rfl⟩

theorem searched_discrete {gp : Bool} (h : ∀ d ∈ dims, d.discrete) : ∀ d ∈ searched gp dims, d.discrete := by
  unfold searched
  split
  · intro d hd
    obtain ⟨d', hd', rfl⟩ := List.mem_map.1 hd
    have := h d' hd'
    cases d' with
    | real _ => exact this
    | int _ => trivial
    | cat _ => trivial
  · exact h

theorem searched_size (gp : Bool) (dims : List (Dim ℝ)) : spaceSize (searched gp dims) = spaceSize dims := by
  unfold searched
  split
  · unfold spaceSize
    rw [List.map_map]
    congr 1
    refine List.map_congr_left fun d _ => ?_
    cases d <;> rfl
  · rfl

/-- **C118 (finite spaces are exhausted).** A run over a space of `Integer` and `Categorical` dimensions with
`acq_func="EI"` or `"PI"`, sampled candidates, a noise-free surrogate and a budget of at least `n_initial_points` plus the
number of points of the space: if every sample of candidates contains the whole space, the run evaluates every point of
the space, and the value it reports is at most the one of each point – the global minimum. -/
theorem C118_exhausts (W : World ℝ M R G) (sh : Shared ℝ G) (func : Objective ℝ) (m : MinArgs ℝ M) (rng : R)
    (hset : SaneArgs m.opt) (hest : m.opt.est.isNone = false) (hopt : m.opt.optimizer = .sampling) (c : AcqFunc)
    (hc : c = .EI ∨ c = .PI) (hacq : m.opt.acq = some c) (hdis : ∀ d ∈ sh.dims, d.discrete)
    (hd : Workable (searched m.opt.est.isGP sh.dims)) (hW : Reliable W (searched m.opt.est.isGP sh.dims))
    (hgen : sh.gen = none ∨ Generates W (searched m.opt.est.isGP sh.dims)) (hfunc : TotalOn false sh.dims func)
    (hx : m.x0 = .none) (hy : m.y0 = .none) (hpos : 0 < m.nRandomStarts.getD m.nInitialPoints)
    (hcalls : m.nRandomStarts.getD m.nInitialPoints + spaceSize sh.dims ≤ m.nCalls)
    (hcb : m.callback ≠ .invalid) (hpat : Patient m.callback.callables)
    (predict : M → List (List (Val ℝ)) → Pred) (xi : ℝ) (kappa : Kappa) (hp : GaussianValues W predict c xi kappa)
    (hfree : NoiseFree W predict) (hcov : Covers W (searched m.opt.est.isGP sh.dims) m.opt.nPoints) :
    ∃ r, (baseMinimize exact W sh func m rng).result = .ok (some r) ∧
      ∀ p, InSpace exact sh.dims p → .seq p ∈ r.xIters ∧
        ∀ c, p ∈ sublevel func c → ∃ f, r.fun_ = .fin f ∧ f ≤ c := by
  obtain ⟨n, hn⟩ : ∃ n : Nat, m.nRandomStarts.getD m.nInitialPoints = n :=
    ⟨(m.nRandomStarts.getD m.nInitialPoints).toNat, by omega⟩
  rw [hn] at hpos hcalls
  have hprep : m.prepare = .ok ([], (n : ℤ)) := by
    unfold MinArgs.prepare
    rw [hx, hy, hn]
    simp only [X0.points, ok_bind]
    rw [if_neg (by simp; omega)]
    simp only [Y0.falsy, Y0.values]
    rw [if_neg]
    · simp
    · simp; omega
  obtain ⟨cfg, hcfg, hsane, hni, hgp, hest', hps⟩ := mkConfig_sane (n := n) hset (by omega)
  obtain ⟨f1, f2, f3⟩ := mkConfig_fields hcfg
  have f1 : m.opt.acq = some cfg.acq := f1
  have f2 : cfg.lbfgs = decide (m.opt.optimizer = .lbfgs) := f2
  have f3 : cfg.nPoints = m.opt.nPoints := f3
  rw [hacq] at f1
  injection f1 with f1
  rw [hopt] at f2
  rw [hest, Bool.not_false] at hest'
  rw [← hgp] at hd hW hcov hgen
  obtain ⟨sh₁, s, hinit, hsd, hrun⟩ := init_runs (M := M) (W := W) (sh := sh) (cfg := cfg) hd hsane (by rw [hni]; omega)
    (hgen.imp_right fun h => ⟨hest', h⟩) rng
  have hs : s.cfg = cfg ∧ s.nInit = n ∧ s.Xi = [] := by
    have hfresh : ∃ r pts, s = Opt.fresh exact cfg r pts := by
      unfold Opt.init at hinit
      split at hinit
      · cases hinit
      · repeat' split at hinit
        all_goals first
          | (simp only [Prod.mk.injEq, Except.ok.injEq] at hinit; exact ⟨_, _, hinit.2.symm⟩)
          | simp at hinit
    obtain ⟨r, pts, rfl⟩ := hfresh
    exact ⟨rfl, hni, rfl⟩
  obtain ⟨e1, e2, e3⟩ := hs
  obtain ⟨cbs, hcb, hcs⟩ : ∃ cbs, checkCallback m.callback = .ok cbs ∧ m.callback.callables = cbs := by
    cases hc : m.callback with
    | none => exact ⟨[], rfl, rfl⟩
    | one c => exact ⟨[c], rfl, rfl⟩
    | list cs => exact ⟨cs, rfl, rfl⟩
    | invalid => exact absurd hc hcb
  have hpat' : Patient (if m.verbose then cbs ++ [verboseCallback] else cbs) := by
    intro c hc hist
    split at hc
    · rcases List.mem_append.1 hc with h | h
      · exact hpat c (by rw [hcs]; exact h) hist
      · rw [List.mem_singleton] at h
        subst h
        exact ⟨none, rfl, by simp⟩
    · exact hpat c (by rw [hcs]; exact hc) hist
  have hG : Greedy W (searched cfg.isGP sh.dims) s.cfg := by
    rw [e1]
    exact ⟨hest', by rw [f2]; rfl, ⟨predict, c, xi, kappa, hc, f1.symm, hp, hfree⟩, by rw [f3]; exact hcov⟩
  have hcard : (unvisited (searched cfg.isGP sh.dims) s).ncard ≤ spaceSize sh.dims := by
    rw [← searched_size cfg.isGP]
    exact (Set.ncard_le_ncard (fun p hp => hp.1) (space_finite (searched_discrete hdis))).trans
      (space_ncard (searched_discrete hdis))
  obtain ⟨r, h1, h2⟩ := minimizeLoop_exhausts hd hW (searched_discrete hdis)
    (fun done p hp => hfunc done p (inSpace_searched.1 hp)) hpat' m.nCalls.toNat [] [] hrun hG
    (fun h => by rw [e2] at h; omega) (by rw [e3]; simp) (by rw [e2]; omega) none (by omega)
  refine ⟨r, ?_, fun p hp => h2 p (inSpace_searched.2 hp)⟩
  have hstarts : checkStarts (searched cfg.isGP sh.dims).length ([] : List (Val ℝ)) = .ok () := rfl
  simp only [baseMinimize, hprep, MinArgs.optArgs, hcfg, hinit, hsd, hstarts, hcb, hy, minimizeBody]
  exact h1

/-! ### Gaussian processes -/

open Matrix in
/-- The covariances that the kernel assigns to a point and the training points of the process. -/
noncomputable def jointCov {n d : Nat} (g : Gp n d) (x : Fin d → ℝ) : Matrix (Fin (n + 1)) (Fin (n + 1)) ℝ :=
  Matrix.of fun i j => g.kernel.value ((Fin.cons x g.X : Fin (n + 1) → Fin d → ℝ) i) ((Fin.cons x g.X : Fin (n + 1) → Fin d → ℝ) j)

open Matrix in
/-- **C118 (Gaussian processes).** A Gaussian process that was fitted without noise is a noise-free surrogate: the
standard deviation that `predict` returns is zero at the training points, and positive at every point at which the
kernel is strictly positive definite together with the training points. -/
theorem C118_gp {n d : Nat} (g : Gp n d) (K : Matrix (Fin n) (Fin n) ℝ) (h : Factored g K)
    (hK : NoisyCov g K fun _ => 0) (hdiag : ∀ x, g.kernel.diag x = g.kernel.value x x)
    (hsymm : ∀ x y, g.kernel.value x y = g.kernel.value y x) (hs : 0 < g.yStd) (x : Fin d → ℝ) :
    ∃ s p, g.predict { std := true } [x] = .ok p ∧ p.std = some [s] ∧ ((∃ i, x = g.X i) → s = 0) ∧
      ((jointCov g x).PosDef → 0 < s) := by
  refine ⟨g.std x, _, rfl, rfl, ?_, ?_⟩
  · rintro ⟨i, rfl⟩
    have h1 : g.rawVar (g.X i) ≤ 0 := by
      have := (C99_best_predictor g K h (g.X i)).2 ⟨Pi.single i 1, rfl⟩
      refine this.trans (le_of_eq ?_)
      simp only [predictorError, single_dotProduct, one_mul, mulVec_single_one]
      have : K i i = g.kernel.value (g.X i) (g.X i) + 0 := by rw [hK, if_pos rfl]
      simp only [Gp.kTrans, Matrix.col_apply, this, hdiag]
      ring
    refine le_antisymm ?_ (Real.sqrt_nonneg _)
    simpa using std_le_of_rawVar le_rfl h1
  · intro hpd
    have hraw : 0 < g.rawVar x := by
      obtain ⟨w, hw⟩ := (C99_best_predictor g K h x).1
      rw [← hw]
      have hne : (Fin.cons 1 (-w) : Fin (n + 1) → ℝ) ≠ 0 := fun e => by
        have := congrFun e 0
        simp at this
      have hq := hpd.dotProduct_mulVec_pos hne
      refine lt_of_lt_of_eq hq ?_
      have hKv : ∀ i j, K i j = g.kernel.value (g.X i) (g.X j) := fun i j => by rw [hK]; simp
      simp only [predictorError, dotProduct, mulVec, jointCov, Fin.sum_univ_succ, Fin.cons_zero, Fin.cons_succ, of_apply,
        Pi.star_apply, star_trivial, Pi.neg_apply, hdiag, hKv, Gp.kTrans]
      have e1 : ∑ i, -w i * (g.kernel.value (g.X i) x * 1 + ∑ j, g.kernel.value (g.X i) (g.X j) * -w j) =
          -(∑ i, w i * g.kernel.value x (g.X i)) + ∑ i, w i * ∑ j, g.kernel.value (g.X i) (g.X j) * w j := by
        rw [← Finset.sum_neg_distrib, ← Finset.sum_add_distrib]
        refine Finset.sum_congr rfl fun i _ => ?_
        rw [hsymm (g.X i) x]
        simp only [mul_neg, Finset.sum_neg_distrib]
        ring
      have e2 : ∑ i, g.kernel.value x (g.X i) * -w i = -∑ i, w i * g.kernel.value x (g.X i) := by
        rw [← Finset.sum_neg_distrib]
        exact Finset.sum_congr rfl fun i _ => by ring
      rw [e1, e2]
      ring
    unfold Gp.std
    rw [if_neg (not_lt.2 hraw.le)]
    exact Real.sqrt_pos.2 (by positivity)

/-! ## Examples -/

open Classical in
/-- Predictions for `f(x) = 10 x`, certain at the training rows only. -/
noncomputable def linePredict (est X : List (List (Val ℝ))) : Pred where
  mu := X.map fun row => match row with
    | .num x :: _ => 10 * x
    | _ => 0
  std := X.map fun row => if row ∈ est then 0 else 1

/-- A world whose surrogate keeps the training rows and predicts with `linePredict`, and whose samples run through the
numbers 0, 1, 2. -/
noncomputable def lineWorld : World ℝ (List (List (Val ℝ))) Unit Unit where
  fit _ Xt _ := ((), .ok Xt)
  predict est X := .ok (linePredict est X).mu
  draws _ dims n := ((), dims.map fun _ => ⟨(List.range n).map fun i : Nat => ((i % 3 : Nat) : ℝ), List.replicate n 0⟩)
  acquisition est X y c := match y, gaussianAcquisition (.one (linePredict est X)) (match y with
      | .fin y => y
      | .nan => 0) c 0.01 (.num 1.96) with
    | .fin _, .ok v => .ok (v.map .fin)
    | _, _ => .ok (X.map fun _ => .nan)
  argsort v := List.range v.length
  lbfgs _ _ _ _ x := ((), .ok (x, .fin 0))
  multinomial _ p := ((), (List.range p.length).map fun i => if i = 1 then 1 else 0)
  exp x := x
  log t := .ok t
  logMax := 700
  eta := 1
  seed _ := ((), ())
  generate g dims _ _ := (g, (dims, .ok []))

/-- `Integer(0, 2)`. -/
noncomputable def lineDims : List (Dim ℝ) := [.int ⟨(0 : ℤ), (2 : ℤ), .uniform, 10, .identity, none, id⟩]

theorem lineWorld_values (c : AcqFunc) (hc : c = .EI ∨ c = .PI ∨ c = .LCB) :
    GaussianValues lineWorld linePredict c 0.01 (.num 1.96) where
  values est X y := by
    have hl : (linePredict est X).mu.length = (linePredict est X).std.length := by simp [linePredict]
    rcases hc with rfl | rfl | rfl
    · simp only [lineWorld, gaussianAcquisition, Surrogate.single, ok_bind, gaussianEi_eq _ rfl rfl hl, Except.map]
    · simp only [lineWorld, gaussianAcquisition, Surrogate.single, ok_bind, gaussianPi_eq _ rfl rfl hl, Except.map]
    · simp only [lineWorld, gaussianAcquisition, Surrogate.single, ok_bind, Except.map]
  muDim _ _ := rfl
  stdDim _ _ := rfl
  mu _ _ := by simp [linePredict]
  std _ _ := by simp [linePredict]

theorem lineWorld_free : NoiseFree lineWorld linePredict := by
  intro r Xt y est h X j row sd h1 h2
  simp only [lineWorld, Except.ok.injEq] at h
  subst h
  simp only [linePredict, List.getElem?_map, h1, Option.map_some, Option.some.injEq] at h2
  subst h2
  exact ⟨fun h => if_pos h, fun h => by rw [if_neg h]; exact one_pos⟩

theorem lineDims_workable : Workable lineDims := by
  refine ⟨by simp [lineDims], ?_, ?_, ?_, ?_⟩ <;> intro d hd <;>
    (obtain rfl := List.mem_singleton.1 hd)
  · refine ⟨0, 2, by norm_num, rfl, rfl, ?_, ?_, Or.inl rfl, fun _ _ _ => rfl⟩
    · exact roundHalfEven_intCast (K := ℝ) 0
    · exact roundHalfEven_intCast (K := ℝ) 2
  · intro h
    cases h
  · exact Or.inr rfl
  · intro v _
    trivial

theorem lineWorld_reliable : Reliable lineWorld lineDims where
  fit _ Xt _ _ _ _ _ _ := ⟨Xt, rfl⟩
  predict _ X _ _ := ⟨_, rfl, by simp [linePredict]⟩
  draws r n := by
    constructor
    · exact .cons ⟨fun h => (by cases h), trivial⟩ .nil
    · intro d hd
      simp only [lineWorld, lineDims, List.map_cons, List.map_nil, List.mem_singleton] at hd
      subst hd
      simp
  acquisition est X y a _ _ := by
    have hl : (linePredict est X).mu.length = (linePredict est X).std.length := by simp [linePredict]
    cases y with
    | nan => exact ⟨_, rfl, by simp⟩
    | fin y =>
      cases a <;> simp only [lineWorld, gaussianAcquisition, Surrogate.single, Surrogate.pair, ok_bind,
        gaussianEi_eq _ rfl rfl hl, gaussianPi_eq _ rfl rfl hl] <;>
        exact ⟨_, rfl, by simp [linePredict, gaussianLcb]⟩
  argsort v hv := by
    constructor
    · simpa [lineWorld] using hv
    · intro i hi
      simpa [lineWorld] using hi
  lbfgs _ _ _ _ x hx := ⟨x, .fin 0, rfl, hx⟩
  multinomial _ p := by simp [lineWorld]
  log t _ := ⟨_, rfl⟩

theorem lineWorld_sample (r : Unit) :
    Space.rvs exact lineDims (lineWorld.draws r lineDims 3).2 = .ok [[.num 0], [.num 1], [.num 2]] := by
  have h : Space.rvs exact lineDims (lineWorld.draws r lineDims 3).2 = .ok
      [[.num ((roundHalfEven (npClip ((0 : ℤ) : ℝ) ((2 : ℤ) : ℝ) ((0 : Nat) : ℝ)) : ℤ) : ℝ)],
        [.num ((roundHalfEven (npClip ((0 : ℤ) : ℝ) ((2 : ℤ) : ℝ) ((1 : Nat) : ℝ)) : ℤ) : ℝ)],
        [.num ((roundHalfEven (npClip ((0 : ℤ) : ℝ) ((2 : ℤ) : ℝ) ((2 : Nat) : ℝ)) : ℤ) : ℝ)]] := rfl
  have e : ∀ k : Nat, k ≤ 2 → roundHalfEven (npClip ((0 : ℤ) : ℝ) ((2 : ℤ) : ℝ) ((k : Nat) : ℝ)) = (k : ℤ) := by
    intro k hk
    have : npClip ((0 : ℤ) : ℝ) ((2 : ℤ) : ℝ) ((k : Nat) : ℝ) = ((k : ℤ) : ℝ) := by
      unfold npClip
      rw [max_eq_left (by simp), min_eq_left (by exact_mod_cast hk)]
      simp
    rw [this]
    exact roundHalfEven_intCast (K := ℝ) k
  rw [h, e 0 (by norm_num), e 1 (by norm_num), e 2 (by norm_num)]
  norm_num

theorem lineDims_iff {p : Point ℝ} : InSpace exact lineDims p ↔ p ∈ ([[.num 0], [.num 1], [.num 2]] : List (Point ℝ)) := by
  simp only [List.mem_cons, List.not_mem_nil, or_false]
  constructor
  · intro h
    obtain ⟨v, vs, ⟨k, rfl, h1, h2⟩, h', rfl⟩ := List.forall₂_cons_left_iff.1 h
    cases h'
    have h1 : (0 : ℤ) ≤ k := by
      have h1 : ((0 : ℤ) : ℝ) ≤ (k : ℝ) := h1
      exact_mod_cast h1
    have h2 : k ≤ 2 := by
      have h2 : (k : ℝ) ≤ ((2 : ℤ) : ℝ) := h2
      exact_mod_cast h2
    have : k = 0 ∨ k = 1 ∨ k = 2 := by omega
    rcases this with rfl | rfl | rfl
    · left; simp [exact]
    · right; left; simp [exact]
    · right; right; simp [exact]
  · have hk : ∀ k : ℤ, 0 ≤ k → k ≤ 2 → InSpace exact lineDims [.num (k : ℝ)] := fun k h1 h2 =>
      .cons ⟨k, rfl, by show ((0 : ℤ) : ℝ) ≤ (k : ℝ); exact_mod_cast h1, by show (k : ℝ) ≤ ((2 : ℤ) : ℝ); exact_mod_cast h2⟩ .nil
    rintro (rfl | rfl | rfl)
    · simpa using hk 0 (by norm_num) (by norm_num)
    · simpa using hk 1 (by norm_num) (by norm_num)
    · simpa using hk 2 (by norm_num) (by norm_num)

theorem lineWorld_covers : Covers lineWorld lineDims 3 := by
  intro r pts h p hp
  rw [lineWorld_sample] at h
  injection h with h
  rw [← h]
  exact lineDims_iff.1 hp

/-- The objective `10 x`, which the surrogate knows. -/
noncomputable def line : Objective ℝ := fun _ v => match v with
  | .seq [.num x] => .ok (.num (.fin (10 * x)))
  | _ => .error .typeError

theorem line_total : TotalOn false lineDims line := by
  intro done p hp
  rcases List.mem_cons.1 (lineDims_iff.1 hp) with rfl | hp
  · exact ⟨_, rfl, _, rfl⟩
  · rcases List.mem_cons.1 hp with rfl | hp
    · exact ⟨_, rfl, _, rfl⟩
    · rcases List.mem_cons.1 hp with rfl | hp
      · exact ⟨_, rfl, _, rfl⟩
      · cases hp

/-- One initial point, four evaluations, three candidates each. -/
def lineRun : MinArgs ℝ (List (List (Val ℝ))) :=
  { opt := { est := { isNone := false, isRegressor := true }, acq := some .EI, acqOptimizer := .sampling, nPoints := 3 }
    nCalls := 4, nInitialPoints := 1 }

theorem lineDims_size : spaceSize lineDims = 3 := by
  simp [spaceSize, lineDims, Dim.size]

/-- Four evaluations suffice for the three points of `Integer(0, 2)`.  Meets the hypotheses of `C118_exhausts`. -/
example : ∃ r, (baseMinimize exact lineWorld ⟨lineDims, none⟩ line lineRun ()).result = .ok (some r) ∧
    .seq [.num 0] ∈ r.xIters ∧ .seq [.num 1] ∈ r.xIters ∧ .seq [.num 2] ∈ r.xIters ∧ ∃ f, r.fun_ = .fin f ∧ f ≤ 0 := by
  obtain ⟨r, h1, h2⟩ := C118_exhausts lineWorld ⟨lineDims, none⟩ line lineRun ()
    ⟨⟨_, rfl⟩, .inl rfl, .inl rfl, by norm_num [lineRun], by norm_num [lineRun], by rintro k ⟨⟩⟩ rfl rfl .EI (Or.inl rfl) rfl
    (by intro d hd; obtain rfl := List.mem_singleton.1 hd; trivial) lineDims_workable lineWorld_reliable (Or.inl rfl)
    line_total rfl rfl (by norm_num [lineRun]) (by rw [lineDims_size]; norm_num [lineRun]) (by simp [lineRun])
    (by simp [lineRun, Patient, CbArg.callables]) linePredict 0.01 (.num 1.96) (lineWorld_values .EI (Or.inl rfl))
    lineWorld_free lineWorld_covers
  refine ⟨r, h1, (h2 _ (lineDims_iff.2 (by simp))).1, (h2 _ (lineDims_iff.2 (by simp))).1,
    (h2 _ (lineDims_iff.2 (by simp))).1, (h2 [.num 0] (lineDims_iff.2 (by simp))).2 0 ?_⟩
  intro done y hy
  simp only [line, Except.ok.injEq] at hy
  exact ⟨10 * 0, by norm_num, .inl hy.symm⟩

/-- A fresh optimizer on `Integer(0, 2)` with three candidates. -/
noncomputable def lineOpt (acq : AcqFunc) : Opt ℝ (List (List (Val ℝ))) Unit := Opt.fresh exact
  { acq := acq, hasEst := true, isGP := false, lbfgs := false, nPoints := 3, nRestarts := 1, nInitial := 1, queueSize := none }
  () none

/-- Told the value at 0, the optimizer returns and has a suggestion to make. -/
theorem line_told (acq : AcqFunc) (hacq : acq = .EI ∨ acq = .PI ∨ acq = .LCB) :
    ∃ t r, tell exact lineWorld lineDims (lineOpt acq) (.lst [.num 0]) (.num (.fin 0)) true = (t, .ok r) ∧
      Running lineWorld lineDims t ∧ t.nInit ≤ 0 ∧ t.Xi = [.seq [.num 0]] ∧ t.yi = [0].map fun v => .num (.fin v) := by
  have hps : acq.isPs = false := by rcases hacq with rfl | rfl | rfl <;> rfl
  have hin : InSpace exact lineDims [.num 0] := lineDims_iff.2 (by simp)
  have hflat := inSpace_flat lineDims_workable.nonempty lineDims_workable.valid hin
  have hrun : Running lineWorld lineDims (lineOpt acq) :=
    ⟨live_fresh _ _ _ _, ⟨fun P h => (by cases h), fun h => absurd h (by simp [lineOpt, Opt.fresh])⟩,
      ⟨by simp [lineOpt, Opt.fresh], fun h => (by cases h), fun k h => (by cases h)⟩, fun P h => (by cases h)⟩
  obtain ⟨t, r, h1, h2, -, h4⟩ := tell_running lineDims_workable lineWorld_reliable hrun
    (c := .one [.num 0] (.num (.fin 0)) true) ⟨hin, hflat, by
      show Told acq.isPs _
      rw [hps]
      exact ⟨0, rfl⟩⟩ rfl
  obtain ⟨⟨y', k1, k2⟩, k3, -⟩ := tell_one_state hflat h1
  have kX := tell_one_points hflat h1
  refine ⟨t, r, h1, h2, by rw [k3]; simp [lineOpt, Opt.fresh], kX, ?_⟩
  have : y' = .num (.fin 0) := by
    have k1 : OnRecord lineWorld acq (.num (.fin 0)) y' := k1
    unfold OnRecord at k1
    rw [hps] at k1
    simpa using k1
  rw [k2, this]
  rfl

/-- The next point is one of the two others.  Meets the hypotheses of `C118_new_point`. -/
example : ∃ p, (askOne exact lineWorld lineDims
      (tell exact lineWorld lineDims (lineOpt .EI) (.lst [.num 0]) (.num (.fin 0)) true).1).2 = .ok p ∧ p ≠ [.num 0] := by
  obtain ⟨t, r, h1, h2, h3, h4, h5⟩ := line_told .EI (Or.inl rfl)
  obtain ⟨p, hp⟩ := askOne_live lineDims_workable lineWorld_reliable h2.live h2.ready
  obtain ⟨r', pts, g1, g2, g3⟩ := C118_new_point lineWorld lineDims lineDims_workable lineWorld_reliable (lineOpt .EI) rfl rfl
    .EI (Or.inl rfl) rfl (.lst [.num 0]) (.num (.fin 0)) r (by rw [h1]) (by rw [h1]; exact h3) (by rw [h1]; exact h2.live.points)
    [0] (by rw [h1]; exact h5) linePredict 0.01 (.num 1.96) (lineWorld_values .EI (Or.inl rfl)) lineWorld_free p
    (by rw [h1]; exact hp)
  rw [h1]
  refine ⟨p, hp, ?_⟩
  rintro rfl
  rw [h1] at g3
  refine g3 ⟨[.num 1], lineWorld_covers r' pts g1 _ (lineDims_iff.2 (by simp)), ?_⟩ (by rw [h4]; simp)
  rw [h4]
  simp

/-- **C118 does not hold of `acq_func="LCB"`**, which trades the predicted mean for certainty: in the same situation –
`f(x) = 10 x` known at 0 only, a surrogate with the right means and the standard deviation 1 at the other two
candidates – the point that `ask` returns is the observed point 0. -/
theorem C118_lcb_repeats : ∃ p, (askOne exact lineWorld lineDims
      (tell exact lineWorld lineDims (lineOpt .LCB) (.lst [.num 0]) (.num (.fin 0)) true).1).2 = .ok p ∧ p = [.num 0] ∧
    (tell exact lineWorld lineDims (lineOpt .LCB) (.lst [.num 0]) (.num (.fin 0)) true).1.Xi = [.seq [.num 0]] := by
  obtain ⟨t, r, h1, h2, h3, h4, h5⟩ := line_told .LCB (Or.inr (Or.inr rfl))
  obtain ⟨p, hp⟩ := askOne_live lineDims_workable lineWorld_reliable h2.live h2.ready
  obtain ⟨r₀, r', Xt, est, pts, X, yOpt, cand, values, i, q, v, g1, g2, g3, g4, g5, g6, g7, g8, g9, g10, g11, g12⟩ :=
    sampled_suggestion lineDims_workable lineWorld_reliable (s := lineOpt .LCB) rfl
      (tell_fits (x := .lst [.num 0]) (y := .num (.fin 0)) (res := r) rfl (by rw [h1]) (by rw [h1]; exact h3))
  have hest : t.cfg.hasEst = true := by
    obtain ⟨-, -, e, s', -, -, e1, e2, -⟩ := tell_fits (W := lineWorld) (dims := lineDims) (A := exact)
      (s := lineOpt .LCB) (x := .lst [.num 0]) (y := .num (.fin 0)) (res := r) rfl (by rw [h1]) (by rw [h1]; exact h3)
    have := (suggest_frame exact lineWorld lineDims e s').1.cfg
    rw [e1, h1] at this
    rw [this, e2]
    rfl
  rw [h1] at g1 g5 g12 ⊢
  have hq := askOne_next h3 hest hp
  rw [g12] at hq
  injection hq with hq
  subst hq
  refine ⟨q, hp, ?_, h4⟩
  have g3 : Space.rvs exact lineDims (lineWorld.draws r' lineDims 3).2 = .ok pts := g3
  rw [lineWorld_sample] at g3
  injection g3 with g3
  subst g3
  have hX : Space.transform exact lineDims [[.num 0], [.num 1], [.num 2]] = .ok [[.num 0], [.num 1], [.num 2]] := rfl
  rw [hX] at g6
  injection g6 with g6
  subst g6
  rw [h4] at g1
  have hXt : Space.transform exact lineDims ([.seq [.num (0 : ℝ)]].map Val.items) = .ok [[.num 0]] := rfl
  rw [hXt] at g1
  injection g1 with g1
  subst g1
  simp only [lineWorld, Except.ok.injEq] at g2
  subst g2
  obtain rfl : cand = .LCB := by simpa [lineOpt, Opt.fresh, AcqFunc.candidates] using g7
  rw [h5, flatNums_fin, ok_bind, fltMin_iff] at g5
  obtain ⟨best, -, rfl⟩ := List.mem_map.1 g5.1
  rw [(lineWorld_values .LCB (Or.inr (Or.inr rfl))).values] at g8
  simp only [gaussianAcquisition, Surrogate.single, ok_bind, gaussianLcb, Except.map, linePredict, List.map_cons,
    List.map_nil, List.zipWith_cons_cons, List.zipWith_nil_left, Except.ok.injEq] at g8
  subst g8
  have hv0 := g11 _ List.mem_cons_self
  rcases i with _ | _ | _ | i
  · simpa using g9.symm
  · exfalso
    simp only [List.getElem?_cons_succ, List.getElem?_cons_zero, Option.some.injEq] at g10
    rw [← g10, Flt.fin_le_fin] at hv0
    norm_num at hv0
  · exfalso
    simp only [List.getElem?_cons_succ, List.getElem?_cons_zero, Option.some.injEq] at g10
    rw [← g10, Flt.fin_le_fin] at hv0
    norm_num at hv0
  · simp at g9

/-- A process observed at 0 only. -/
noncomputable def originSeen : Gp 1 1 where
  kernel := .dot 1
  X := fun _ _ => 0
  L := 1
  alpha := fun _ => 3
  yMean := 0
  yStd := 1

open Matrix in
/-- The process is uncertain everywhere but at 0.  Meets the hypotheses of `C118_gp`. -/
example : ∃ s p, originSeen.predict { std := true } [fun _ => 2] = .ok p ∧ p.std = some [s] ∧ 0 < s := by
  have hval : ∀ x y : Fin 1 → ℝ, originSeen.kernel.value x y = 1 + x 0 * y 0 := by
    intro x y
    simp [originSeen, Kernel.value, add_comm]
  obtain ⟨s, p, h1, h2, -, h3⟩ := C118_gp originSeen 1 ⟨by simp [originSeen], by simp [originSeen]⟩ (by
      intro i j
      obtain rfl := Subsingleton.elim i j
      rw [hval]
      simp [originSeen]) (fun _ => rfl) (fun x y => by rw [hval, hval, mul_comm]) (by simp [originSeen]) (fun _ => 2)
  refine ⟨s, p, h1, h2, h3 ?_⟩
  refine Matrix.PosDef.of_dotProduct_mulVec_pos ?_ ?_
  · ext i j
    simp only [jointCov, conjTranspose_apply, of_apply, star_trivial, hval]
    ring
  · intro w hw
    have e : star w ⬝ᵥ (jointCov originSeen (fun _ => 2) *ᵥ w) = (w 0 + w 1) ^ 2 + 4 * w 0 ^ 2 := by
      simp only [jointCov, dotProduct, mulVec, Fin.sum_univ_succ, Finset.univ_eq_empty, Finset.sum_empty, of_apply, hval,
        Pi.star_apply, star_trivial, Fin.cons_zero, Fin.cons_succ]
      simp only [originSeen, Fin.succ_zero_eq_one]
      ring
    rw [e]
    by_contra hle
    have h0 : w 0 = 0 := by nlinarith [sq_nonneg (w 0 + w 1), sq_nonneg (w 0)]
    have h1 : w 1 = 0 := by
      rw [h0] at hle
      nlinarith [sq_nonneg (w 1)]
    refine hw (funext fun i => ?_)
    fin_cases i
    · exact h0
    · exact h1

end Skopt

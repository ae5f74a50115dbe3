import Verif.Lemmas.LiveRun
import Verif.Lemmas.OptimizerSound
import Verif.Props.OptimizerCopy

/-!
# Lemmas for C68 and C76: constructing, copying and asking for several points return
-/

namespace Skopt

variable {M R G : Type}

/-- The dimensions a search works on: a Gaussian process normalizes them. -/
def searched (gp : Bool) (dims : List (Dim ℝ)) : List (Dim ℝ) := if gp then dims.map Dim.normalized else dims

/-- The generator of initial points, asked for at least one point, returns at least as many points of the space as it
was asked for and leaves the dimensions as they were (C08, C21, C22, C24, C27). -/
def Generates (W : World ℝ M R G) (dims : List (Dim ℝ)) : Prop :=
  ∀ (g : G) (n : ℤ) (r : R), 0 < n → ∃ g' P, W.generate g dims n r = (g', dims, .ok P) ∧ n ≤ P.length ∧
    ∀ p ∈ P, InSpace exact dims p

variable {W : World ℝ M R G} {dims : List (Dim ℝ)}

theorem inSpace_searched {gp : Bool} {p : Point ℝ} : InSpace exact (searched gp dims) p ↔ InSpace exact dims p := by
  cases gp
  · exact Iff.rfl
  · exact inSpace_normalized

theorem inSpace_flat (hne : dims ≠ []) (hv : ∀ d ∈ dims, ValidDim exact d) {p : Point ℝ}
    (hp : InSpace exact dims p) : Flat p := by
  cases hp with
  | nil => exact absurd rfl hne
  | @cons d v ds vs h _ =>
    refine ⟨v, List.mem_cons_self, ?_⟩
    have hd := hv d List.mem_cons_self
    cases d with
    | real d => obtain ⟨x, rfl, _⟩ := h; rfl
    | int d => obtain ⟨x, rfl, _⟩ := h; rfl
    | cat d => exact hd.2.2.1 v h

theorem askOne_member (hd : Workable dims) (hW : Reliable W dims) {s : Opt ℝ M R}
    (hP : ∀ P, s.initialSamples = some P → ∀ p ∈ P, InSpace exact dims p) (hr : Ready dims s) {p : Point ℝ}
    (h : (askOne exact W dims s).2 = .ok p) : InSpace exact dims p := by
  unfold askOne at h
  split at h
  · split at h
    · simp only [bind_eq_ok] at h
      obtain ⟨pts, h1, h2⟩ := h
      obtain ⟨g1, g2⟩ := hW.draws s.rng 1
      exact (C05_rvs_in_space exact exact_orderly dims hd.valid 1 _ g1.length_eq.symm g2 pts h1).2 p (pyGet_mem h2)
    · next P hs =>
      simp only [pyGetI] at h
      split at h
      · exact hP P hs p (pyGet_mem h)
      · split at h
        · exact hP P hs p (pyGet_mem h)
        · cases h
  · next hn =>
    rw [not_or] at hn
    obtain ⟨-, -, q, hq, hqS⟩ := hr.model (by omega) (by simpa using hn.2)
    split at h
    · cases h
    · rw [hq] at h
      simp only [bind_eq_ok] at h
      obtain ⟨ds, _, h⟩ := h
      split at h
      · cases h
      · injection h with h
        rw [← h]; exact hqS

/-- The state of a run that goes well. -/
structure Running (W : World ℝ M R G) (dims : List (Dim ℝ)) (s : Opt ℝ M R) : Prop where
  live : Live dims s
  ready : Ready dims s
  sane : Sane s.cfg
  design : ∀ P, s.initialSamples = some P → ∀ p ∈ P, InSpace exact dims p

theorem init_runs {sh : Shared ℝ G} {cfg : Config} (hd : Workable (searched cfg.isGP sh.dims)) (hc : Sane cfg)
    (hn : 0 < cfg.nInitial)
    (hgen : sh.gen = none ∨ cfg.hasEst = true ∧ Generates W (searched cfg.isGP sh.dims)) (rng : R) :
    ∃ sh₁ s, Opt.init exact W sh cfg rng = (sh₁, .ok s) ∧ sh₁.dims = searched cfg.isGP sh.dims ∧
      Running W (searched cfg.isGP sh.dims) (s : Opt ℝ M R) := by
  have hdims : (if cfg.isGP then Space.setTransformer sh.dims .normalize else .ok sh.dims) =
      .ok (searched cfg.isGP sh.dims) := by
    unfold searched
    split
    · exact setTransformer_normalize _
    · rfl
  have hrun : ∀ (r : R) (pts : Option (List (Point ℝ))),
      (∀ P, pts = some P → cfg.hasEst = true ∧ cfg.nInitial ≤ P.length ∧
        ∀ p ∈ P, InSpace exact (searched cfg.isGP sh.dims) p) →
      Running W (searched cfg.isGP sh.dims) (Opt.fresh exact cfg r pts : Opt ℝ M R) := by
    intro r pts hp
    refine ⟨live_fresh _ cfg r pts, ⟨fun P hP => ⟨(hp P hP).1, (hp P hP).2.1⟩, ?_⟩, hc, fun P hP => (hp P hP).2.2⟩
    intro h
    exact absurd hn (not_lt.2 h)
  unfold Opt.init
  simp only [hdims]
  cases hg : sh.gen with
  | none => exact ⟨_, _, rfl, rfl, hrun _ _ (by simp)⟩
  | some g =>
    rcases hgen with h | ⟨he, h⟩
    · rw [hg] at h; cases h
    · obtain ⟨g', P, h1, h2, h3⟩ := h g cfg.nInitial (W.seed rng).2 hn
      simp only [h1, set_own_transformers fun d hm => (hd.valid d hm).legalTransform]
      exact ⟨_, _, rfl, rfl, hrun _ _ (by rintro P' ⟨⟩; exact ⟨he, h2, h3⟩)⟩


/-! ## The constant liar -/

theorem foldl_min_fin (f : ℝ) (fs : List ℝ) : ∃ v, (fs.map Flt.fin).foldl min (Flt.fin f) = .fin v := by
  induction fs generalizing f with
  | nil => exact ⟨f, rfl⟩
  | cons g fs ih =>
    rw [List.map_cons, List.foldl_cons]
    rcases le_total f g with h | h
    · rw [min_eq_left (Flt.fin_le_fin.2 h)]; exact ih f
    · rw [min_eq_right (Flt.fin_le_fin.2 h)]; exact ih g

theorem foldl_max_fin (f : ℝ) (fs : List ℝ) : ∃ v, (fs.map Flt.fin).foldl max (Flt.fin f) = .fin v := by
  induction fs generalizing f with
  | nil => exact ⟨f, rfl⟩
  | cons g fs ih =>
    rw [List.map_cons, List.foldl_cons]
    rcases le_total f g with h | h
    · rw [max_eq_right (Flt.fin_le_fin.2 h)]; exact ih g
    · rw [max_eq_left (Flt.fin_le_fin.2 h)]; exact ih f

theorem foldl_add_fin (f : ℝ) (fs : List ℝ) : ∃ v, (fs.map Flt.fin).foldl (fltAdd exact) (Flt.fin f) = .fin v := by
  induction fs generalizing f with
  | nil => exact ⟨f, rfl⟩
  | cons g fs ih => exact ih _

theorem aggregate_fin (strat : Strategy) (f : ℝ) (fs : List ℝ) :
    ∃ v, strat.aggregate exact ((f :: fs).map Flt.fin) = .ok (.fin v) := by
  have hmax : ∃ v, fltMax ((f :: fs).map Flt.fin) = .ok (.fin v) := by
    obtain ⟨v, hv⟩ := foldl_max_fin f fs
    refine ⟨v, ?_⟩
    rw [List.map_cons, fltMax, if_neg, hv]
    simp
  cases strat with
  | clMin =>
    obtain ⟨v, hv⟩ := foldl_min_fin f fs
    exact ⟨v, congrArg Except.ok hv⟩
  | clMean =>
    obtain ⟨v, hv⟩ := foldl_add_fin (exact.ofInt 0) (f :: fs)
    refine ⟨exact.div v (exact.ofInt ((f :: fs).map Flt.fin).length), congrArg Except.ok ?_⟩
    unfold fltMean
    rw [if_neg (by simp), hv]
  | clMax => exact hmax
  | other => exact hmax

/-- The lie is something `_tell` can work with. -/
theorem lie_observed (W : World ℝ M R G) (acq : AcqFunc) (strat : Strategy) {yi : List (YArg ℝ)}
    (h : ∀ y ∈ yi, Observed acq.isPs y) : ∃ l, lie exact W acq strat yi = .ok l ∧ Observed acq.isPs l := by
  by_cases he : yi = []
  · subst he
    unfold lie
    cases hps : acq.isPs with
    | false => exact ⟨_, rfl, _, rfl⟩
    | true => exact ⟨_, rfl, _, _, rfl⟩
  · have hemp : yi.isEmpty = false := by simpa using he
    obtain ⟨f, fs, hf⟩ := flatNums_observed h he
    obtain ⟨y, hy⟩ := aggregate_fin strat f fs
    cases hps : acq.isPs with
    | false =>
      refine ⟨.num (.fin y), ?_, y, rfl⟩
      simp only [lie, hemp, hps, hf, ok_bind, hy]
      rfl
    | true =>
      rw [hps] at h
      obtain ⟨g, gs, hg⟩ : ∃ g gs, recordedTimes yi = .ok ((g :: gs : List ℝ).map Flt.fin) := by
        obtain ⟨ps, rfl⟩ := observed_pairs h
        have : recordedTimes (ps.map fun p => (.seq [.num (.fin p.1), .num (.fin p.2)] : YArg ℝ)) =
            .ok ((ps.map Prod.snd).map Flt.fin) := by
          clear h he hy hf hemp
          unfold recordedTimes
          induction ps with
          | nil => rfl
          | cons p fs ih => exact mapE_cons_ok.2 ⟨_, _, rfl, ih, rfl⟩
        cases ps with
        | nil => exact absurd rfl he
        | cons p ps => exact ⟨p.2, ps.map Prod.snd, this⟩
      obtain ⟨t, ht⟩ := aggregate_fin strat g gs
      refine ⟨.seq [.num (.fin y), .num (.fin t)], ?_, y, t, rfl⟩
      simp only [lie, hemp, hps, hf, ok_bind, hy, hg, ht]
      rfl

/-- Telling one point with `_tell` keeps a run going. -/
theorem tellCore_running (hd : Workable dims) (hW : Reliable W dims) {s : Opt ℝ M R} (hs : Running W dims s)
    {p : Point ℝ} (hp : InSpace exact dims p) {y : YArg ℝ} (hy : Observed s.cfg.acq.isPs y) :
    ∃ t r, tellCore exact W dims s (.lst p) y true = (t, .ok r) ∧ Running W dims t := by
  have hrec := record_one (s := s) (inSpace_flat hd.nonempty hd.valid hp) y
  obtain ⟨t, r, h1, h2, h3, h4⟩ := tellCore_live hd hW (fit := true) hrec
    (hs.live.record (by simpa using hp) (by simpa using hy) rfl) (by simp [record.single]) hs.sane
  have hf := tellCore_frame exact W dims s (.lst p) y true hrec
  rw [h1] at hf
  refine ⟨t, r, h1, h2, ⟨?_, ?_⟩, ?_, ?_⟩
  · intro P hP
    rw [show t.initialSamples = _ from hf.initialSamples] at hP
    obtain ⟨g1, g2⟩ := hs.ready.initial P hP
    rw [show t.cfg = _ from hf.cfg, show t.nInit = _ from hf.nInit]
    refine ⟨g1, ?_⟩
    show s.nInit - 1 ≤ _
    omega
  · intro hn he
    rw [show t.cfg = _ from hf.cfg] at he
    rw [show t.nInit = _ from hf.nInit] at hn
    obtain ⟨g1, g2⟩ := h4 rfl hn he
    exact ⟨g1, h3, g2⟩
  · rw [show t.cfg = _ from hf.cfg]; exact hs.sane
  · rw [show t.initialSamples = _ from hf.initialSamples]; exact hs.design

/-- The loop of the constant liar returns. -/
theorem liarLoop_runs (hd : Workable dims) (hW : Reliable W dims) (strat : Strategy) (n : Nat) {o : Opt ℝ M R}
    (ho : Running W dims o) : ∃ o' X, liarLoop exact W dims strat n o = (o', .ok X) := by
  induction n generalizing o with
  | zero => exact ⟨o, [], rfl⟩
  | succ n ih =>
    obtain ⟨p, hp⟩ := askOne_live hd hW ho.live ho.ready
    have hpS := askOne_member hd hW ho.design ho.ready hp
    obtain ⟨rng', hfr⟩ := askOne_frame exact W dims o
    have ho' : Running W dims { o with rng := rng' } :=
      ⟨⟨ho.live.points, ho.live.values, ho.live.aligned, ho.live.hedge, ho.live.proposals⟩,
        ⟨ho.ready.initial, ho.ready.model⟩, ho.sane, ho.design⟩
    obtain ⟨l, hl, hlo⟩ := lie_observed W o.cfg.acq strat ho.live.values
    obtain ⟨t, r, h1, h2⟩ := tellCore_running hd hW ho' hpS hlo
    obtain ⟨o', X, h3⟩ := ih h2
    have hask : askOne exact W dims o = ({ o with rng := rng' }, .ok p) := by
      rw [← hfr, ← hp]
    exact ⟨o', p :: X, by simp only [liarLoop, hask, hl, h1, h3]⟩

/-! ## Copies -/

/-- A run that goes well, with the bookkeeping a copy relies on. -/
structure Going (W : World ℝ M R G) (dims : List (Dim ℝ)) (s : Opt ℝ M R) : Prop where
  running : Running W dims s
  count : s.nInit = s.cfg.nInitial - s.yi.length
  start : 0 < s.cfg.nInitial
  next : s.nextX ≠ none → s.nInit ≤ 0 ∧ s.cfg.hasEst = true
  gp : s.cfg.isGP = true → dims.map Dim.normalized = dims

/-- The generator, if there is one, does its work, at least one point is wanted and there is a surrogate. -/
def GenFits (W : World ℝ M R G) (dims : List (Dim ℝ)) (cfg : Config) (gen : Option G) : Prop :=
  gen = none ∨ 0 < cfg.nInitial ∧ cfg.hasEst = true ∧ Generates W dims

theorem init_same (hd : Workable dims) {cfg : Config} (hgp : cfg.isGP = true → dims.map Dim.normalized = dims)
    {gen : Option G} (hgen : GenFits W dims cfg gen) (rng : R) :
    ∃ gen' rng' pts, Opt.init exact W ⟨dims, gen⟩ cfg rng = (⟨dims, gen'⟩, .ok (Opt.fresh exact cfg rng' pts)) ∧
      GenFits W dims cfg gen' := by
  have hdims : (if cfg.isGP then Space.setTransformer dims .normalize else .ok dims) = .ok dims := by
    split
    · next h => rw [setTransformer_normalize, hgp h]
    · rfl
  unfold Opt.init
  simp only [hdims]
  cases gen with
  | none => exact ⟨_, _, _, rfl, hgen⟩
  | some g =>
    rcases hgen with h | ⟨hn, he, h⟩
    · cases h
    · obtain ⟨g', P, h1, h2, h3⟩ := h g cfg.nInitial (W.seed rng).2 hn
      simp only [h1, set_own_transformers fun d hm => (hd.valid d hm).legalTransform]
      exact ⟨_, _, _, rfl, Or.inr ⟨hn, he, h⟩⟩

/-- What `copy` makes of the fresh optimizer before telling it the history. -/
def copyStart (s o : Opt ℝ M R) : Opt ℝ M R :=
  { o with
    initialSamples := s.initialSamples
    gains := match s.gains with
      | some g => some g
      | none => o.gains }

theorem copy_empty {sh sh' : Shared ℝ G} {s o : Opt ℝ M R} {rng : R}
    (h : Opt.init exact W sh { s.cfg with queueSize := none } rng = (sh', .ok o)) (hX : s.Xi = []) :
    Opt.copy exact W sh s rng = (sh', .ok (copyStart s o)) := by
  unfold Opt.copy
  rw [h]
  dsimp only
  rw [if_pos (by simpa using hX)]
  unfold copyStart
  cases s.gains <;> rfl

theorem copy_tell {sh sh' : Shared ℝ G} {s o t : Opt ℝ M R} {rng : R} {r : Result ℝ M}
    (h : Opt.init exact W sh { s.cfg with queueSize := none } rng = (sh', .ok o)) (hX : s.Xi ≠ [])
    (ht : tellCore exact W sh'.dims (copyStart s o) (.lst s.Xi) (.seq s.yi) true = (t, .ok r)) :
    Opt.copy exact W sh s rng = (sh', .ok t) := by
  unfold Opt.copy
  rw [h]
  dsimp only
  rw [if_neg (by simpa using hX)]
  unfold copyStart at ht
  cases hg : s.gains <;> simp only [hg] at ht ⊢ <;> rw [ht]

/-- A copy can be made, and it is a run that goes well; if the original has a suggestion, so has the copy. -/
theorem copy_runs (hd : Workable dims) (hW : Reliable W dims) {s : Opt ℝ M R} (hs : Going W dims s) {gen : Option G}
    (hgen : GenFits W dims s.cfg gen) (rng : R) :
    ∃ gen' o, Opt.copy exact W ⟨dims, gen⟩ s rng = (⟨dims, gen'⟩, .ok o) ∧ GenFits W dims s.cfg gen' ∧
      Running W dims o ∧ (s.nextX ≠ none → ∃ p, o.nextX = some p ∧ InSpace exact dims p) := by
  obtain ⟨gen', rng', pts, hi, hg'⟩ := init_same (W := W) (cfg := { s.cfg with queueSize := none }) hd hs.gp hgen rng
  have hal := hs.running.live.aligned
  have hsane : Sane { s.cfg with queueSize := none } :=
    ⟨hs.running.sane.points, hs.running.sane.restarts, fun k hk => (by cases hk)⟩
  generalize ho : copyStart s (Opt.fresh exact { s.cfg with queueSize := none } rng' pts : Opt ℝ M R) = o
  have hlive : Live dims o := by
    subst ho
    refine ⟨by simp [Opt.fresh, copyStart], by simp [Opt.fresh, copyStart], rfl, ?_, by simp [Opt.fresh, copyStart]⟩
    intro h
    obtain ⟨g, hg, hg3⟩ := hs.running.live.hedge h
    exact ⟨g, by simp only [copyStart, hg], hg3⟩
  have e1 : o.cfg = { s.cfg with queueSize := none } := by subst ho; rfl
  have e2 : o.initialSamples = s.initialSamples := by subst ho; rfl
  have e3 : o.nInit = s.cfg.nInitial := by subst ho; rfl
  have e4 : o.Xi = [] := by subst ho; rfl
  have e5 : o.yi = [] := by subst ho; rfl
  by_cases he : s.Xi = []
  · rw [copy_empty hi he, ho]
    have hy0 : s.yi = [] := by
      rw [he] at hal
      exact List.length_eq_zero_iff.1 hal.symm
    have hcnt := hs.count
    rw [hy0, List.length_nil] at hcnt
    have hst := hs.start
    refine ⟨gen', o, rfl, hg', ⟨hlive, ⟨?_, ?_⟩, by rw [e1]; exact hsane, by rw [e2]; exact hs.running.design⟩, ?_⟩
    · intro P hP
      rw [e2] at hP
      obtain ⟨g1, g2⟩ := hs.running.ready.initial P hP
      rw [e1, e3]
      exact ⟨g1, by omega⟩
    · intro hn
      rw [e3] at hn
      omega
    · intro hnx
      have := (hs.next hnx).1
      omega
  · have hrec : record o (.lst s.Xi) (.seq s.yi) = .ok (record.batch o s.Xi s.yi) :=
      record_many (fun v hv => (hs.running.live.points v hv).imp fun _ h => h.1) _
    obtain ⟨t, r, h1, h2, h3, h4⟩ := tellCore_live hd hW (fit := true) hrec
      (hlive.record hs.running.live.points (by rw [e1]; exact hs.running.live.values) hal)
      (by simpa [record.batch, e4] using he) (by
        show Sane o.cfg
        rw [e1]; exact hsane)
    have hf := tellCore_frame exact W dims o (.lst s.Xi) (.seq s.yi) true hrec
    rw [h1] at hf
    rw [copy_tell hi he (by rw [ho]; exact h1)]
    have hcfg : t.cfg = { s.cfg with queueSize := none } := hf.cfg.trans e1
    have hni : t.nInit = s.nInit := by
      rw [show t.nInit = _ from hf.nInit]
      show o.nInit - (s.yi.length : ℤ) = _
      rw [e3, hs.count]
    have hini : t.initialSamples = s.initialSamples := hf.initialSamples.trans e2
    have hmod : s.nInit ≤ 0 → s.cfg.hasEst = true →
        t.models ≠ [] ∧ ∃ p, t.nextX = some p ∧ InSpace exact dims p := by
      intro g1 g2
      refine h4 rfl ?_ ?_
      · show o.nInit - (s.yi.length : ℤ) ≤ 0
        rw [e3, ← hs.count]; exact g1
      · show o.cfg.hasEst = true
        rw [e1]; exact g2
    refine ⟨gen', t, rfl, hg', ⟨h2, ⟨?_, ?_⟩, by rw [hcfg]; exact hsane, by rw [hini]; exact hs.running.design⟩, ?_⟩
    · intro P hP
      rw [hini] at hP
      rw [hcfg, hni]
      exact hs.running.ready.initial P hP
    · intro g1 g2
      rw [hni] at g1
      rw [hcfg] at g2
      obtain ⟨m1, m2⟩ := hmod g1 g2
      exact ⟨m1, h3, m2⟩
    · intro hnx
      obtain ⟨g1, g2⟩ := hs.next hnx
      exact (hmod g1 g2).2

/-! ## Every call -/

/-- The suggestion after a `tell` is the old one, or the initial phase is over and there is a surrogate. -/
theorem tell_next {F : Type} [LinearOrder F] {G : Type} (A : Arith F) (W : World F M R G) (dims : List (Dim F))
    (s : Opt F M R) (x : XArg F) (y : YArg F) (fit : Bool) :
    let t := (tell A W dims s x y fit).1
    t.nInit ≤ s.nInit ∧ (t.nextX = s.nextX ∨ t.nInit ≤ 0 ∧ t.cfg.hasEst = true) := by
  intro t
  rcases tell_cases A W dims s x y fit with ⟨e, h⟩ | ⟨y', -, -, -, h⟩
  · simp only [t, h]; exact ⟨le_rfl, Or.inl trivial⟩
  · simp only [t, h]
    clear h t
    rcases tellCore_cases A W dims s x y' fit with ⟨e, -, h⟩ | ⟨t, hr, h⟩
    · rw [h]; exact ⟨le_rfl, Or.inl rfl⟩
    · have hf := tellCore_frame A W dims s x y' fit hr
      obtain ⟨r1, r2, r3, r4, r5, r6, r7, r8, xs, ys, r9, r10, r11⟩ := record_frame hr
      have hle : (tellCore A W dims s x y' fit).1.nInit ≤ s.nInit := by
        rw [hf.nInit, r11]; omega
      refine ⟨hle, ?_⟩
      rcases h with ⟨-, h1, h2, -⟩ | ⟨-, h1⟩
      · right
        rw [hf.nInit, hf.cfg]
        exact ⟨h1, h2⟩
      · left
        rw [h1]; exact r6

/-- A call that should succeed in a run in which something was told already (`told`) or not: telling members of
the space (and fitting, the default), asking for one or several points with a known strategy, updating the
suggestion, or - once something was told - asking for the result. -/
def Proper (ps told : Bool) (dims : List (Dim ℝ)) : Call ℝ → Prop
  | .one p y fit => InSpace exact dims p ∧ Told ps y ∧ fit = true
  | .batch obs fit => obs ≠ [] ∧ (∀ o ∈ obs, InSpace exact dims o.1 ∧ Told ps o.2) ∧ fit = true
  | .ask => True
  | .askMany n strat => 0 < n ∧ strat ≠ .other
  | .updateNext => True
  | .getResult => told = true

theorem step_going (hd : Workable dims) (hW : Reliable W dims) {gen : Option G} {s : Opt ℝ M R}
    (hs : Going W dims s) (hgen : GenFits W dims s.cfg gen) {told : Bool} (htold : told = true → s.Xi ≠ [])
    {c : Call ℝ} (hc : Proper s.cfg.acq.isPs told dims c) :
    ∃ gen' t, (step exact W ⟨dims, gen⟩ s c.toOp).1 = ⟨dims, gen'⟩ ∧ (step exact W ⟨dims, gen⟩ s c.toOp).2.1 = t ∧
      Returns (step exact W ⟨dims, gen⟩ s c.toOp).2.2 ∧ Going W dims t ∧ GenFits W dims t.cfg gen' ∧
      t.cfg = s.cfg ∧ (c.isTell = true ∨ told = true → t.Xi ≠ []) := by
  have htell : ∀ c : Call ℝ, c.isTell = true → GoodCall s.cfg.acq.isPs dims c → c.fits → c.obs ≠ [] →
      ∃ gen' t, (step exact W ⟨dims, gen⟩ s c.toOp).1 = ⟨dims, gen'⟩ ∧ (step exact W ⟨dims, gen⟩ s c.toOp).2.1 = t ∧
      Returns (step exact W ⟨dims, gen⟩ s c.toOp).2.2 ∧ Going W dims t ∧ GenFits W dims t.cfg gen' ∧
      t.cfg = s.cfg ∧ (c.isTell = true ∨ told = true → t.Xi ≠ []) := by
    intro c hct hg hfit hobs
    obtain ⟨h1, h2, h3, h4, h5⟩ := step_live hd hW gen hs.running.live hs.running.sane hg (by rintro rfl; cases hct)
    obtain ⟨f1, f2, xs, ys, f3, f4, f5⟩ := step_frame exact W (⟨dims, gen⟩ : Shared ℝ G) s c.toOp
    have hcall := (step_call (A := exact) (W := W) (sh := ⟨dims, gen⟩) (s := s) (c := c)
      (fun p y f h => by subst h; exact hg.2.1) (fun _ => h2)).2.2.1
    have hnx : ∃ x y fit, (step exact W (⟨dims, gen⟩ : Shared ℝ G) s c.toOp).2.1 = (tell exact W dims s x y fit).1 := by
      cases c with
      | one p y fit => exact ⟨_, _, _, rfl⟩
      | batch o fit => exact ⟨_, _, _, rfl⟩
      | _ => cases hct
    refine ⟨gen, _, h1, rfl, h2, ⟨⟨h3, h5 hfit hs.running.ready, by rw [f1]; exact hs.running.sane,
      by rw [f2]; exact hs.running.design⟩, ?_, by rw [f1]; exact hs.start, ?_, by rw [f1]; exact hs.gp⟩,
      by rw [f1]; exact hgen, f1, ?_⟩
    · rw [f5, f4, f1, hs.count, List.length_append]
      push_cast
      ring
    · obtain ⟨x, y, fit, e⟩ := hnx
      rw [e] at f1 ⊢
      obtain ⟨g1, g2⟩ := tell_next exact W dims s x y fit
      intro hne
      rcases g2 with g2 | g2
      · rw [g2] at hne
        have := hs.next hne
        exact ⟨by omega, by rw [f1]; exact this.2⟩
      · exact g2
    · intro _
      rw [hcall]
      intro h0
      exact hobs (by simpa using (List.append_eq_nil_iff.1 h0).2)
  have hsame : ∀ (r : R) (ca : Option ((Nat × Strategy) × List (Point ℝ))),
      Going W dims { s with rng := r, cache := ca } := by
    intro r ca
    exact ⟨⟨⟨hs.running.live.points, hs.running.live.values, hs.running.live.aligned, hs.running.live.hedge,
      hs.running.live.proposals⟩, ⟨hs.running.ready.initial, hs.running.ready.model⟩, hs.running.sane,
      hs.running.design⟩, hs.count, hs.start, hs.next, hs.gp⟩
  cases c with
  | one p y fit =>
    exact htell (.one p y fit) rfl ⟨hc.1, inSpace_flat hd.nonempty hd.valid hc.1, hc.2.1⟩ hc.2.2 (by simp [Call.obs])
  | batch obs fit => exact htell (.batch obs fit) rfl ⟨hc.1, hc.2.1⟩ hc.2.2 hc.1
  | ask =>
    obtain ⟨p, hp⟩ := askOne_live hd hW hs.running.live hs.running.ready
    obtain ⟨r, hr⟩ := askOne_frame exact W dims s
    refine ⟨gen, { s with rng := r }, rfl, hr, ?_, hsame r s.cache, hgen, rfl, ?_⟩
    · exact ⟨.point p, by simp only [Call.toOp, step, hp, ok_bind]⟩
    · rintro (h | h)
      · cases h
      · exact htold h
  | askMany n strat =>
    obtain ⟨hn, hst⟩ := hc
    simp only [Call.toOp, step, askMany]
    rw [if_neg (by simpa using hn), if_neg hst]
    cases hca : askMany.cached s n.toNat strat with
    | some X =>
      exact ⟨gen, s, rfl, rfl, ⟨_, rfl⟩, hs, hgen, rfl, fun h => h.elim (fun h => by cases h) htold⟩
    | none =>
      dsimp only
      obtain ⟨gen', o, h1, h2, h3, -⟩ := copy_runs hd hW (hsame (W.seed s.rng).1 s.cache) hgen (W.seed s.rng).2
      have h1' : Opt.copy exact W ⟨dims, gen⟩ { s with rng := (W.seed s.rng).1 } (W.seed s.rng).2 =
        (⟨dims, gen'⟩, .ok o) := h1
      obtain ⟨o', X, h4⟩ := liarLoop_runs hd hW strat n.toNat h3
      simp only [h1', h4]
      exact ⟨gen', _, rfl, rfl, ⟨_, rfl⟩, hsame _ _, h2, rfl, fun h => h.elim (fun h => by cases h) htold⟩
  | updateNext =>
    rcases Option.eq_none_or_eq_some s.nextX with hnx | ⟨x, hnx⟩
    · have e : updateNext exact W ⟨dims, gen⟩ s = (⟨dims, gen⟩, { s with cache := none }, .ok ()) := by
        unfold updateNext
        dsimp only
        split
        · rfl
        · next h => rw [hnx] at h; cases h
      simp only [Call.toOp, step, e]
      exact ⟨gen, _, rfl, rfl, ⟨_, rfl⟩, hsame s.rng none, hgen, rfl, fun h => h.elim (fun h => by cases h) htold⟩
    · obtain ⟨gen', o, h1, h2, h3, h4⟩ := copy_runs hd hW (hsame s.rng none) hgen s.rng
      obtain ⟨p, hp, hpS⟩ := h4 (by simp [hnx])
      have e : updateNext exact W ⟨dims, gen⟩ s =
          (⟨dims, gen'⟩, { s with cache := none, rng := o.rng, nextX := some p }, .ok ()) := by
        unfold updateNext
        dsimp only
        split
        · next h => rw [hnx] at h; cases h
        · rw [h1]; simp only [hp]
      simp only [Call.toOp, step, e]
      refine ⟨gen', _, rfl, rfl, ⟨_, rfl⟩, ?_, h2, rfl, fun h => h.elim (fun h => by cases h) htold⟩
      have hlive := hs.running.live
      refine ⟨⟨⟨hlive.points, hlive.values, hlive.aligned, hlive.hedge, hlive.proposals⟩,
        ⟨hs.running.ready.initial, fun g1 g2 => ?_⟩, hs.running.sane, hs.running.design⟩, hs.count, hs.start,
        fun _ => hs.next (by simp [hnx]), hs.gp⟩
      obtain ⟨m1, m2, -⟩ := hs.running.ready.model g1 g2
      exact ⟨m1, m2, p, rfl, hpS⟩
  | getResult =>
    obtain ⟨r, hr⟩ := createResult_live hs.running.live (htold hc)
    refine ⟨gen, s, rfl, rfl, ⟨.result r, ?_⟩, hs, hgen, rfl, fun _ => htold hc⟩
    simp only [Call.toOp, step, getResult, hr, ok_bind]

theorem normalized_idem (dims : List (Dim ℝ)) :
    (dims.map Dim.normalized).map Dim.normalized = dims.map Dim.normalized := by
  rw [List.map_map]
  refine List.map_congr_left fun d _ => ?_
  cases d <;> rfl

/-- The constructor returns, and a run that goes well begins. -/
theorem init_going {sh : Shared ℝ G} {cfg : Config} (hd : Workable (searched cfg.isGP sh.dims)) (hc : Sane cfg)
    (hn : 0 < cfg.nInitial)
    (hgen : sh.gen = none ∨ cfg.hasEst = true ∧ Generates W (searched cfg.isGP sh.dims)) (rng : R) :
    ∃ gen' s, Opt.init exact W sh cfg rng = (⟨searched cfg.isGP sh.dims, gen'⟩, .ok s) ∧
      Going W (searched cfg.isGP sh.dims) (s : Opt ℝ M R) ∧ s.cfg = cfg ∧
      GenFits W (searched cfg.isGP sh.dims) cfg gen' := by
  obtain ⟨sh₁, s, h1, h2, h3⟩ := init_runs (M := M) (W := W) hd hc hn hgen rng
  obtain ⟨r, pts, rfl, -, -⟩ := init_ok h1
  obtain ⟨dims₁, gen'⟩ := sh₁
  cases h2
  refine ⟨gen', _, h1, ⟨h3, by simp [Opt.fresh], hn, fun h => absurd rfl h, ?_⟩, rfl, ?_⟩
  · intro hg
    have hg : cfg.isGP = true := hg
    simp only [searched, hg, if_true]
    exact normalized_idem _
  · rcases hgen with h | h
    · left
      have e := congrArg (fun q => q.1.gen) h1
      unfold Opt.init at e
      split at e
      · exact e.symm.trans h
      · rw [h] at e
        exact e.symm
    · exact Or.inr ⟨hn, h⟩

end Skopt

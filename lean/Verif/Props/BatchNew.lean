import Verif.Props.Exhaustive
import Verif.Props.Liveness
import Verif.Props.OptimizerAsk
import Verif.Model.ExampleWorld

/-!
# C119: parallel suggestions do not repeat each other or the past
-/

namespace Skopt

variable {M R G : Type}

/-! ## Specification -/

/-- Every sample of `n` candidates contains at least `k` different points: whatever fewer than `k` points are named, there
is another one in the sample. -/
def Varied (W : World ℝ M R G) (dims : List (Dim ℝ)) (n k : Nat) : Prop :=
  ∀ r pts, Space.rvs exact dims (W.draws r dims n).2 = .ok pts → ∀ seen : List (Point ℝ), seen.length < k →
    ∃ q ∈ pts, q ∉ seen

/-- The settings: `acq_func="EI"` or `"PI"`, `acq_optimizer="sampling"`, and a noise-free surrogate. -/
structure Keen (W : World ℝ M R G) (cfg : Config) : Prop where
  est : cfg.hasEst = true
  sampling : cfg.lbfgs = false
  surrogate : ∃ predict c xi kappa, (c = .EI ∨ c = .PI) ∧ cfg.acq = c ∧ GaussianValues W predict c xi kappa ∧
    NoiseFree W predict

/-! ## Lemmas -/

variable {W : World ℝ M R G} {dims : List (Dim ℝ)}

theorem Varied.mono {n k l : Nat} (h : Varied W dims n k) (hl : l ≤ k) : Varied W dims n l :=
  fun r pts hp seen hs => h r pts hp seen (hs.trans_le hl)

theorem Keen.plain {cfg : Config} (h : Keen W cfg) : cfg.acq.isPs = false := by
  obtain ⟨-, c, -, -, hc, e, -⟩ := h.surrogate
  rw [e]
  rcases hc with rfl | rfl <;> rfl

/-- A fit stores a point that is not on record. -/
theorem fit_new (hd : Workable dims) (hW : Reliable W dims) {s t : Opt ℝ M R} (hk : Keen W s.cfg) (ht : Live dims t)
    (hcfg : t.cfg.acq = s.cfg.acq)
    (hfit : ∃ r Xt est s', Space.transform exact dims (t.Xi.map Val.items) = .ok Xt ∧ (W.fit r Xt t.yi).2 = .ok est ∧
      suggest exact W dims est s' = (t, .ok ()) ∧ s'.cfg = s.cfg ∧ s'.yi = t.yi)
    (hv : Varied W dims s.cfg.nPoints (t.Xi.length + 1)) {q : Point ℝ} (hq : t.nextX = some q) : .seq q ∉ t.Xi := by
  obtain ⟨predict, c, xi, kappa, hc, hacq, hgv, hfree⟩ := hk.surrogate
  have hvv := ht.values
  rw [hcfg, hk.plain] at hvv
  obtain ⟨fs, hfs⟩ := observed_nums hvv
  obtain ⟨r, pts, p, g1, g2, g3, g4⟩ := next_new hd hW hk.sampling hc hacq hfit ht.points hfs hgv hfree
  rw [g3] at hq
  injection hq with hq
  subst hq
  obtain ⟨u, hu, hun⟩ := hv r pts g1 (t.Xi.map Val.items) (by simp)
  exact g4 ⟨u, hu, fun h => hun (((items_mem ht.points).2 u).2 h)⟩

/-- A successful single `_tell` behind the initial phase. -/
theorem tellCore_new (hd : Workable dims) (hW : Reliable W dims) {s t : Opt ℝ M R} (hs : Running W dims s)
    (hk : Keen W s.cfg) (hn : s.nInit ≤ 0) {p : Point ℝ} (hp : InSpace exact dims p) {y : YArg ℝ}
    (hy : Observed s.cfg.acq.isPs y) {res : Result ℝ M}
    (h : tellCore exact W dims s (.lst p) y true = (t, .ok res)) :
    Running W dims t ∧ t.cfg = s.cfg ∧ t.Xi = s.Xi ++ [.seq p] ∧ t.nInit ≤ 0 ∧
      (Varied W dims s.cfg.nPoints (t.Xi.length + 1) → ∀ q, t.nextX = some q → .seq q ∉ t.Xi) := by
  obtain ⟨t', r, h1, h2⟩ := tellCore_running hd hW hs hp hy
  rw [h] at h1
  obtain rfl : t = t' := congrArg Prod.fst h1
  have hrec := record_one (s := s) (inSpace_flat hd.nonempty hd.valid hp) y
  have hf := tellCore_frame exact W dims s (.lst p) y true hrec
  rw [h] at hf
  have hn' : t.nInit ≤ 0 := by
    rw [show t.nInit = _ from hf.nInit]
    show s.nInit - 1 ≤ 0
    omega
  have hc : t.cfg = s.cfg := hf.cfg
  refine ⟨h2, hc, hf.Xi, hn', fun hv q hq => ?_⟩
  have hfit := tellCore_fits (A := exact) (W := W) (dims := dims) (x := .lst p) (y := y) (res := res) hk.est (by rw [h])
    (by rw [h]; exact hn')
  rw [h] at hfit
  exact fit_new hd hW hk h2.live (by rw [hc]) hfit hv hq

/-- The constant liar behind the initial phase. -/
theorem liarLoop_new (hd : Workable dims) (hW : Reliable W dims) (strat : Strategy) (n : Nat) {o o' : Opt ℝ M R}
    {X : List (Point ℝ)} (ho : Running W dims o) (hk : Keen W o.cfg) (hn : o.nInit ≤ 0)
    (hnext : Varied W dims o.cfg.nPoints (o.Xi.length + 1) → ∀ q, o.nextX = some q → .seq q ∉ o.Xi)
    (hv : Varied W dims o.cfg.nPoints (o.Xi.length + n)) (h : liarLoop exact W dims strat n o = (o', .ok X)) :
    X.Nodup ∧ ∀ x ∈ X, InSpace exact dims x ∧ .seq x ∉ o.Xi := by
  induction n generalizing o X with
  | zero =>
    simp only [liarLoop, Prod.mk.injEq, Except.ok.injEq] at h
    rw [← h.2]
    simp
  | succ n ih =>
    obtain ⟨r, x, l, o₂, res, Y, h1, h2, h3, h4, rfl⟩ := liarLoop_succ h
    have hask : (askOne exact W dims o).2 = .ok x := by rw [h1]
    have hxS := askOne_member hd hW ho.design ho.ready hask
    have hx : .seq x ∉ o.Xi := hnext (hv.mono (by omega)) x (askOne_next hn hk.est hask)
    obtain ⟨l', hl, hlo⟩ := lie_observed W o.cfg.acq strat ho.live.values
    rw [h2] at hl
    injection hl with hl
    subst hl
    have ho' : Running W dims { o with rng := r } :=
      ⟨⟨ho.live.points, ho.live.values, ho.live.aligned, ho.live.hedge, ho.live.proposals⟩,
        ⟨ho.ready.initial, ho.ready.model⟩, ho.sane, ho.design⟩
    obtain ⟨k1, k2, k3, k4, k5⟩ := tellCore_new hd hW ho' hk hn hxS hlo h3
    have k2 : o₂.cfg = o.cfg := k2
    have k3 : o₂.Xi = o.Xi ++ [.seq x] := k3
    have hlen : o₂.Xi.length = o.Xi.length + 1 := by rw [k3]; simp
    obtain ⟨j1, j2⟩ := ih k1 (by rw [k2]; exact hk) k4 (by rw [k2]; exact k5)
      (by rw [k2, hlen]; exact hv.mono (by omega)) h4
    refine ⟨List.nodup_cons.2 ⟨fun hm => ?_, j1⟩, ?_⟩
    · have := (j2 x hm).2
      rw [k3] at this
      simp at this
    · intro z hz
      rcases List.mem_cons.1 hz with rfl | hz
      · exact ⟨hxS, hx⟩
      · refine ⟨(j2 z hz).1, fun hm => (j2 z hz).2 ?_⟩
        rw [k3]
        exact List.mem_append_left _ hm

/-- The suggestion of a copy is not on record. -/
theorem copy_new (hd : Workable dims) (hW : Reliable W dims) {s o : Opt ℝ M R} (hs : Going W dims s) {gen : Option G}
    {sh' : Shared ℝ G} (hgen : GenFits W dims s.cfg gen) (hk : Keen W s.cfg) (hn : s.nInit ≤ 0) {rng : R}
    (h : Opt.copy exact W ⟨dims, gen⟩ s rng = (sh', .ok o)) :
    Running W dims o ∧ o.cfg = { s.cfg with queueSize := none } ∧ o.Xi = s.Xi ∧ o.nInit ≤ 0 ∧ sh'.dims = dims ∧
      (Varied W dims s.cfg.nPoints (o.Xi.length + 1) → ∀ q, o.nextX = some q → .seq q ∉ o.Xi) := by
  have hal := hs.running.live.aligned
  obtain ⟨gen', o', h1, -, h3, -⟩ := copy_runs hd hW hs hgen rng
  rw [h] at h1
  obtain ⟨rfl, h1'⟩ := Prod.mk.inj h1
  injection h1' with h1'
  subst h1'
  have h2D : is2D s.Xi = true := by
    unfold is2D
    rw [List.all_eq_true]
    intro v hv
    obtain ⟨p, rfl, -⟩ := hs.running.live.points v hv
    rfl
  have hnil : s.Xi = [] → s.yi = [] := fun he => by
    rw [he] at hal
    exact List.length_eq_zero_iff.1 hal.symm
  obtain ⟨c1, c2, c3, c4, c5, c6⟩ := copy_ok h2D hs.count hnil h
  refine ⟨h3, c5, c1, by rw [c3]; exact hn, rfl, fun hv q hq => ?_⟩
  have hk' : Keen W o.cfg := by
    rw [c5]
    exact ⟨hk.est, hk.sampling, hk.surrogate⟩
  -- the copy was fitted on the history
  have hne : s.Xi ≠ [] := (hs.running.ready.model hn hk.est).2.1
  obtain ⟨gen₁, rng', pts, hi, -⟩ := init_same (M := M) (W := W) (cfg := { s.cfg with queueSize := none }) hd hs.gp hgen rng
  unfold Opt.copy at h
  rw [hi] at h
  dsimp only at h
  rw [if_neg (by simpa using hne)] at h
  split at h
  · cases h
  · next o₂ res ht =>
    simp only [Prod.mk.injEq, Except.ok.injEq] at h
    obtain ⟨-, rfl⟩ := h
    obtain ⟨u, hu, hcu⟩ : ∃ u : Opt ℝ M R, tellCore exact W dims u (.lst s.Xi) (.seq s.yi) true = (o₂, .ok res) ∧
        u.cfg = { s.cfg with queueSize := none } := ⟨_, ht, rfl⟩
    have hfit := tellCore_fits (A := exact) (W := W) (dims := dims) (s := u) (x := .lst s.Xi) (y := .seq s.yi) (res := res)
      (by rw [hcu]; exact hk.est) (by rw [hu]) (by rw [hu]; show o₂.nInit ≤ (0 : ℤ); rw [c3]; exact hn)
    rw [hu, hcu] at hfit
    obtain ⟨r, Xt, est, s', f1, f2, f3, f4, f5⟩ := hfit
    have e : s'.cfg = o₂.cfg := f4.trans c5.symm
    refine fit_new hd hW hk' h3.live rfl ⟨r, Xt, est, s', f1, f2, f3, e, f5⟩ ?_ hq
    rw [c5]
    exact hv

/-- What is kept between the calls: the suggestion and the batch handed out last are new. -/
structure Novel (W : World ℝ M R G) (dims : List (Dim ℝ)) (s : Opt ℝ M R) : Prop where
  next : s.nInit ≤ 0 → Varied W dims s.cfg.nPoints (s.Xi.length + 1) → ∀ q, s.nextX = some q → .seq q ∉ s.Xi
  batch : ∀ n strat X, s.cache = some ((n, strat), X) → s.nInit ≤ 0 → Varied W dims s.cfg.nPoints (s.Xi.length + n) →
    X.Nodup ∧ ∀ x ∈ X, InSpace exact dims x ∧ .seq x ∉ s.Xi

theorem askMany_new (hd : Workable dims) (hW : Reliable W dims) {gen : Option G} {s : Opt ℝ M R}
    (hs : Going W dims s) (hgen : GenFits W dims s.cfg gen) (hk : Keen W s.cfg) (hb : Novel W dims s)
    {n : ℤ} {strat : Strategy} {X : List (Point ℝ)} (h : (askMany exact W ⟨dims, gen⟩ s n strat).2.2 = .ok X) :
    Novel W dims (askMany exact W ⟨dims, gen⟩ s n strat).2.1 ∧ (s.nInit ≤ 0 →
      Varied W dims s.cfg.nPoints (s.Xi.length + n.toNat) → X.Nodup ∧ ∀ x ∈ X, InSpace exact dims x ∧ .seq x ∉ s.Xi) := by
  unfold askMany at h ⊢
  split at h
  · cases h
  · next h1 =>
    split at h
    · cases h
    · next h2 =>
      rw [if_neg h1, if_neg h2]
      cases hca : askMany.cached s n.toNat strat with
      | some Y =>
        rw [hca] at h
        simp only [Except.ok.injEq] at h ⊢
        subst h
        refine ⟨hb, fun hn hv => hb.batch n.toNat strat Y ?_ hn hv⟩
        unfold askMany.cached at hca
        split at hca
        · next k Z hc =>
          split at hca
          · next hk' =>
            injection hca with hca
            rw [hc, hk', hca]
          · cases hca
        · cases hca
      | none =>
        rw [hca] at h
        dsimp only at h ⊢
        have hs' : Going W dims { s with rng := (W.seed s.rng).1 } :=
          ⟨⟨⟨hs.running.live.points, hs.running.live.values, hs.running.live.aligned, hs.running.live.hedge,
            hs.running.live.proposals⟩, ⟨hs.running.ready.initial, hs.running.ready.model⟩, hs.running.sane,
            hs.running.design⟩, hs.count, hs.start, hs.next, hs.gp⟩
        split at h
        · cases h
        · next sh₁ o ho =>
          split at h
          · cases h
          · next o' Y hl =>
            simp only [Except.ok.injEq] at h
            subst h
            have key : s.nInit ≤ 0 → Varied W dims s.cfg.nPoints (s.Xi.length + n.toNat) →
                Y.Nodup ∧ ∀ x ∈ Y, InSpace exact dims x ∧ .seq x ∉ s.Xi := by
              intro hn hv
              obtain ⟨c1, c2, c3, c4, c5, c6⟩ := copy_new hd hW hs' hgen hk hn ho
              rw [c5] at hl
              have c3 : o.Xi = s.Xi := c3
              have hk' : Keen W o.cfg := by
                rw [c2]
                exact ⟨hk.est, hk.sampling, hk.surrogate⟩
              have hp : o.cfg.nPoints = s.cfg.nPoints := by rw [c2]
              have := liarLoop_new hd hW strat n.toNat c1 hk' c4 (by rw [hp]; exact c6) (by rw [hp, c3]; exact hv) hl
              rw [c3] at this
              exact this
            refine ⟨⟨hb.next, ?_⟩, key⟩
            intro k st Z hZ hn hv
            simp only [Option.some.injEq, Prod.mk.injEq] at hZ
            obtain ⟨⟨rfl, rfl⟩, rfl⟩ := hZ
            exact key hn hv

/-- Every proper call keeps the suggestions new. -/
theorem step_novel (hd : Workable dims) (hW : Reliable W dims) {gen : Option G} {s : Opt ℝ M R}
    (hs : Going W dims s) (hgen : GenFits W dims s.cfg gen) (hk : Keen W s.cfg) (hb : Novel W dims s) {told : Bool}
    (htold : told = true → s.Xi ≠ []) {c : Call ℝ} (hc : Proper s.cfg.acq.isPs told dims c) :
    Novel W dims (step exact W ⟨dims, gen⟩ s c.toOp).2.1 := by
  obtain ⟨gen', t, g1, g2, g3, g4, g5, g6, g7⟩ := step_going hd hW hs hgen htold hc
  have htell : ∀ x y, Returns (tell exact W dims s x y true).2 → Going W dims (tell exact W dims s x y true).1 →
      (tell exact W dims s x y true).1.cfg = s.cfg → Novel W dims (tell exact W dims s x y true).1 := by
    rintro x y ⟨res, hr⟩ hg hcfg
    constructor
    · intro hn hv q hq
      exact fit_new hd hW hk hg.running.live (by rw [hcfg]) (tell_fits hk.est hr hn) (by rw [hcfg] at hv; exact hv) hq
    · intro n strat X hX
      rw [((C34_tell_invalidates exact W dims s x y true none).2 ⟨res, hr⟩).2] at hX
      cases hX
  have hret : ∀ {α β : Type} {r : Except PyErr α} {f : α → Except PyErr β}, Returns (r >>= f) → Returns r := by
    rintro α β r f ⟨b, hb⟩
    obtain ⟨a, ha, -⟩ := bind_eq_ok.1 hb
    exact ⟨a, ha⟩
  cases c with
  | one p y fit =>
    obtain ⟨-, -, rfl⟩ := hc
    simp only [Call.toOp, step] at g2 g3 ⊢
    subst g2
    exact htell _ _ (hret g3) g4 g6
  | batch obs fit =>
    obtain ⟨-, -, rfl⟩ := hc
    simp only [Call.toOp, step] at g2 g3 ⊢
    subst g2
    exact htell _ _ (hret g3) g4 g6
  | ask =>
    obtain ⟨r, hr⟩ := askOne_frame exact W dims s
    have e : (step exact W (⟨dims, gen⟩ : Shared ℝ G) s (Call.ask : Call ℝ).toOp).2.1 = { s with rng := r } := hr
    rw [e]
    exact ⟨hb.next, hb.batch⟩
  | askMany n strat =>
    simp only [Call.toOp, step] at g3 ⊢
    obtain ⟨X, hX⟩ := hret g3
    exact (askMany_new hd hW hs hgen hk hb hX).1
  | updateNext =>
    simp only [Call.toOp, step] at g3 ⊢
    obtain ⟨u, hu⟩ := hret g3
    have hs' : Going W dims { s with cache := none } :=
      ⟨⟨⟨hs.running.live.points, hs.running.live.values, hs.running.live.aligned, hs.running.live.hedge,
        hs.running.live.proposals⟩, ⟨hs.running.ready.initial, hs.running.ready.model⟩, hs.running.sane,
        hs.running.design⟩, hs.count, hs.start, hs.next, hs.gp⟩
    unfold updateNext at hu ⊢
    dsimp only at hu ⊢
    split at hu
    · next hnx => exact ⟨hb.next, fun _ _ _ h => by cases h⟩
    · next x hnx =>
      have hn := (hs.next (by simp [hnx])).1
      split at hu
      · cases hu
      · next sh₁ o ho =>
        obtain ⟨c1, c2, c3, c4, c5, c6⟩ := copy_new hd hW hs' hgen hk hn ho
        split at hu
        · cases hu
        · next x' hx' =>
          refine ⟨fun _ hv q hq => ?_, fun _ _ _ h => by cases h⟩
          simp only [Option.some.injEq] at hq
          subst hq
          have c3 : o.Xi = s.Xi := c3
          have := c6 (by rw [c3]; exact hv) x' hx'
          rw [c3] at this
          exact this
  | getResult => exact hb

/-! ## C119 -/

/-- **C119.** `acq_func="EI"` or `"PI"`, `acq_optimizer="sampling"` and a noise-free surrogate.  The constructor returns, and
after every sequence of calls of the public methods with which at least `n_initial_points` observations were told:

* `ask()` returns a point that has not been told, if every sample of candidates contains more different points than have
  been told;
* `ask(n_points=n, strategy=…)` returns `n` different points, none of which has been told, if every sample of candidates
  contains at least `n` different points more than have been told. -/
theorem C119_new_suggestions (W : World ℝ M R G) (sh : Shared ℝ G) (cfg : Config) (hc : Sane cfg) (hk : Keen W cfg)
    (hn : 0 < cfg.nInitial) (hd : Workable (searched cfg.isGP sh.dims)) (hW : Reliable W (searched cfg.isGP sh.dims))
    (hgen : sh.gen = none ∨ Generates W (searched cfg.isGP sh.dims)) (rng : R) :
    ∃ sh' s, Opt.init exact W sh cfg rng = (sh', .ok s) ∧
      ∀ calls : List (Call ℝ), ProperRun false sh.dims false calls →
        let u := runOps exact W sh' s (calls.map Call.toOp)
        cfg.nInitial ≤ u.2.1.Xi.length →
        (Varied W (searched cfg.isGP sh.dims) cfg.nPoints (u.2.1.Xi.length + 1) →
          ∃ p, (askOne exact W u.1.dims u.2.1).2 = .ok p ∧ InSpace exact sh.dims p ∧ .seq p ∉ u.2.1.Xi) ∧
        ∀ (n : ℤ) (strat : Strategy), 0 < n → strat ≠ .other →
          Varied W (searched cfg.isGP sh.dims) cfg.nPoints (u.2.1.Xi.length + n.toNat) →
          ∃ X, (askMany exact W u.1 u.2.1 n strat).2.2 = .ok X ∧ (X.length : ℤ) = n ∧ X.Nodup ∧
            ∀ x ∈ X, InSpace exact sh.dims x ∧ .seq x ∉ u.2.1.Xi := by
  obtain ⟨gen', s, h1, h2, h3, h4⟩ := init_going (M := M) (W := W) hd hc hn (hgen.imp_right fun h => ⟨hk.est, h⟩) rng
  refine ⟨_, s, h1, ?_⟩
  have h0 : Novel W (searched cfg.isGP sh.dims) s := by
    obtain ⟨r, pts, rfl, -, -⟩ := init_ok h1
    exact ⟨fun _ _ q hq => by simp [Opt.fresh] at hq, fun _ _ _ h => by simp [Opt.fresh] at h⟩
  have hproper : ∀ told c, Proper false told sh.dims c → Proper cfg.acq.isPs told (searched cfg.isGP sh.dims) c := by
    intro told c h
    rw [hk.plain]
    cases c with
    | one p y fit => exact ⟨inSpace_searched.2 h.1, h.2⟩
    | batch obs fit => exact ⟨h.1, fun o ho => ⟨inSpace_searched.2 (h.2.1 o ho).1, (h.2.1 o ho).2⟩, h.2.2⟩
    | _ => exact h
  have key : ∀ (calls : List (Call ℝ)) (gen : Option G) (s : Opt ℝ M R) (told : Bool),
      Going W (searched cfg.isGP sh.dims) s → Novel W (searched cfg.isGP sh.dims) s → s.cfg = cfg →
      GenFits W (searched cfg.isGP sh.dims) cfg gen → (told = true → s.Xi ≠ []) → ProperRun false sh.dims told calls →
      ∃ gen₁ t, (runOps exact W ⟨searched cfg.isGP sh.dims, gen⟩ s (calls.map Call.toOp)).1 =
          ⟨searched cfg.isGP sh.dims, gen₁⟩ ∧
        (runOps exact W ⟨searched cfg.isGP sh.dims, gen⟩ s (calls.map Call.toOp)).2.1 = t ∧
        Going W (searched cfg.isGP sh.dims) t ∧ Novel W (searched cfg.isGP sh.dims) t ∧ t.cfg = cfg ∧
        GenFits W (searched cfg.isGP sh.dims) cfg gen₁ := by
    intro calls
    induction calls with
    | nil => intro gen s told a1 a2 a3 a4 _ _; exact ⟨gen, s, rfl, rfl, a1, a2, a3, a4⟩
    | cons c cs ih =>
      intro gen s told a1 a2 a3 a4 ht hrun
      obtain ⟨gen₁, t, g1, g2, g3, g4, g5, g6, g7⟩ := step_going hd hW a1 (by rw [a3]; exact a4) ht
        (by rw [a3]; exact hproper _ _ hrun.1)
      have hb := step_novel hd hW a1 (by rw [a3]; exact a4) (by rw [a3]; exact hk) a2 ht
        (c := c) (by rw [a3]; exact hproper _ _ hrun.1)
      rw [g2] at hb
      simp only [List.map_cons, runOps, g1, g2]
      refine ih gen₁ t (told || c.isTell) g4 hb (g6.trans a3) (by rw [g6, a3] at g5; exact g5) ?_ hrun.2
      intro h
      rcases Bool.or_eq_true _ _ ▸ h with h | h
      · exact g7 (Or.inr h)
      · exact g7 (Or.inl h)
  intro calls hrun
  obtain ⟨gen₁, t, e1, e2, k1, k2, k3, k4⟩ := key calls gen' s false h2 h0 h3 h4 (by simp) hrun
  simp only [e1, e2]
  intro hlen
  have hn' : t.nInit ≤ 0 := by
    rw [k1.count, k3, ← k1.running.live.aligned]
    omega
  constructor
  · intro hv
    obtain ⟨p, hp⟩ := askOne_live hd hW k1.running.live k1.running.ready
    exact ⟨p, hp, inSpace_searched.1 (askOne_member hd hW k1.running.design k1.running.ready hp),
      k2.next hn' (by rw [k3]; exact hv) p (askOne_next hn' (by rw [k3]; exact hk.est) hp)⟩
  · intro n strat hpos hst hv
    obtain ⟨-, -, -, -, hret, -⟩ := step_going hd hW k1 (by rw [k3]; exact k4) (told := false) (by simp)
      (c := .askMany n strat) ⟨hpos, hst⟩
    obtain ⟨out, hout⟩ := hret
    simp only [Call.toOp, step] at hout
    obtain ⟨X, hX, -⟩ := bind_eq_ok.1 hout
    have hnew := (askMany_new hd hW k1 (by rw [k3]; exact k4) (by rw [k3]; exact hk) k2 hX).2 hn' (by rw [k3]; exact hv)
    refine ⟨X, hX, ?_, hnew.1, fun x hx => ⟨inSpace_searched.1 (hnew.2 x hx).1, (hnew.2 x hx).2⟩⟩
    obtain ⟨r, pts, rfl, -, -⟩ := init_ok h1
    have hsize := C34_batch_size exact W ⟨searched cfg.isGP sh.dims, gen'⟩ cfg r pts (calls.map Call.toOp) n strat X
    simp only [e1, e2] at hsize
    exact (hsize hX).1

/-! ### Example and the lower confidence bound -/

theorem lineWorld_varied : Varied lineWorld lineDims 3 3 := by
  intro r pts hp seen hs
  rw [lineWorld_sample] at hp
  injection hp with hp
  subst hp
  by_contra hcon
  push Not at hcon
  have hsub : ([[.num 0], [.num 1], [.num 2]] : List (Point ℝ)) ⊆ seen := hcon
  have hnd : ([[.num 0], [.num 1], [.num 2]] : List (Point ℝ)).Nodup := by simp
  have := (hnd.subperm hsub).length_le
  simp at this
  omega

/-- A search for the minimum among 0, 1 and 2: after 0 was told, `ask(n_points=2)` returns 1 and 2 in some order. -/
example : ∃ sh' s, Opt.init exact lineWorld ⟨lineDims, none⟩ (lineOpt .EI).cfg () = (sh', .ok s) ∧
    let u := runOps exact lineWorld sh' s [.tell (.lst [.num 0]) (.num (.fin 0)) true]
    ∃ X, (askMany exact lineWorld u.1 u.2.1 2 .clMin).2.2 = .ok X ∧ X.Perm [[.num 1], [.num 2]] := by
  have hsearch : searched (lineOpt .EI).cfg.isGP lineDims = lineDims := rfl
  obtain ⟨sh', s, h1, h2⟩ := C119_new_suggestions lineWorld ⟨lineDims, none⟩ (lineOpt .EI).cfg
    ⟨by decide, by decide, by intro k hk; cases hk⟩
    ⟨rfl, rfl, linePredict, .EI, 0.01, .num 1.96, Or.inl rfl, rfl, lineWorld_values .EI (Or.inl rfl), lineWorld_free⟩
    (by decide) lineDims_workable lineWorld_reliable (Or.inl rfl) ()
  refine ⟨sh', s, h1, ?_⟩
  have h3 := h2 [.one [.num 0] (.num (.fin 0)) true] ⟨⟨lineDims_iff.2 (by simp), ⟨0, rfl⟩, rfl⟩, trivial⟩
  have h0 : Opt.init exact lineWorld ⟨lineDims, none⟩ (lineOpt .EI).cfg () = (⟨lineDims, none⟩, .ok (lineOpt .EI)) := rfl
  rw [h0] at h1
  have e1 := congrArg Prod.fst h1
  have e2 := congrArg Prod.snd h1
  dsimp only at e1 e2
  injection e2 with e2
  subst e1 e2
  obtain ⟨t, res, k1, -, -, k4, -⟩ := line_told .EI (Or.inl rfl)
  simp only [List.map_cons, List.map_nil, Call.toOp, runOps, step, k1, k4] at h3 ⊢
  obtain ⟨X, x1, x2, x3, x4⟩ := (h3 (by decide)).2 2 .clMin (by decide) (by decide) lineWorld_varied
  refine ⟨X, x1, (x3.subperm ?_).perm_of_length_le ?_⟩
  · intro x hx
    have hin := lineDims_iff.1 (x4 x hx).1
    have hne := (x4 x hx).2
    simp only [List.mem_cons, List.not_mem_nil, or_false] at hin hne ⊢
    rcases hin with rfl | h
    · exact absurd rfl hne
    · exact h
  · have : X.length = 2 := by exact_mod_cast x2
    simp [this]

/-- A surrogate over the rationals that predicts `10 x`, certainly at the points it was fitted on and with the standard
deviation 1 elsewhere; `LCB` with `kappa = 1.96`.  The candidates are always 0, 1 and 2.  (acquisition.py:94-136,
optimizer.py:531-608) -/
def lcbWorld : World ℚ (List (List (Val ℚ))) Nat Unit where
  fit r X _ := (r, .ok X)
  predict _ X := .ok (X.map lcbMean)
  draws r dims n := (r, dims.map fun _ => ⟨(List.range n).map fun i : Nat => ((i % 3 : Nat) : ℚ), List.replicate n 0⟩)
  acquisition est X _ _ := .ok (X.map fun row => .fin (lcbMean row - 49 / 25 * if row ∈ est then 0 else 1))
  argsort v := List.range v.length
  lbfgs r _ _ _ x := (r, .ok (x, .fin 0))
  multinomial r p := (r, p.map fun _ => 0)
  exp x := x
  log t := .ok t
  logMax := 700
  eta := 1
  seed r := (r + 1, r)
  generate g dims _ _ := (g, (dims, .ok []))
where
  /-- the predicted mean -/
  lcbMean : List (Val ℚ) → ℚ
    | .num x :: _ => 10 * x
    | _ => 0

/-- **C119 does not hold of `acq_func="LCB"`**: of the three candidates 0, 1 and 2 only 0 has been told, and
`ask(n_points=2)` returns the point 0 twice. -/
theorem C119_lcb_repeats :
    let dims : List (Dim ℚ) := [.int ⟨0, 2, .uniform, 10, .identity, none, id⟩]
    let cfg : Config := { toyCfg .LCB with isGP := false, nInitial := 1 }
    let u := runOps ratArith lcbWorld ⟨dims, none⟩ (Opt.fresh ratArith cfg 0 none)
      [.tell (.lst [.num 0]) (.num (.fin 0)) true]
    (askMany ratArith lcbWorld u.1 u.2.1 2 .clMin).2.2 = .ok [[.num 0], [.num 0]] ∧ u.2.1.Xi = [.seq [.num 0]] := by
  decide +kernel

end Skopt

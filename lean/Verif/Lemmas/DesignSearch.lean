import Verif.Lemmas.RandomSearch

/-!
# Lemmas: the initial design of a run
-/

namespace Skopt

variable {M R G : Type} {W : World ℝ M R G} {dims : List (Dim ℝ)} {func : Objective ℝ} {c : ℝ}

theorem pyGetI_eq {α : Type} {xs : List α} {k : Nat} {a : α} (h : xs[k]? = some a) {i : ℤ} (hi : i = k) :
    pyGetI xs i = .ok a := by
  subst hi
  unfold pyGetI pyGet
  simp [h]

theorem minimizeLoop_design (hd : Workable dims) (hW : Reliable W dims) {ps : Bool} (hfunc : TotalOn ps dims func)
    {cbs : List (Callback ℝ M)} (hcbs : Patient cbs) (n : Nat) (done : List (Val ℝ)) (hist : List (Result ℝ M))
    {s : Opt ℝ M R} (hs : Running W dims s) (hps : s.cfg.acq.isPs = ps) (pts : List (Point ℝ))
    (hdes : s.initialSamples = some pts)
    (hgood : (∃ y ∈ s.yi, AtMost c y) ∨ ∃ (k : Nat) (p : Point ℝ), pts[k]? = some p ∧ (pts.length : ℤ) - s.nInit ≤ k ∧
      (k : ℤ) < pts.length - s.nInit + n ∧ ∀ done y, func done (.seq p) = .ok y → AtMost c y)
    (last : Option (Result ℝ M)) (hlast : n = 0 → ∃ r, last = some r ∧ getResult s = .ok r) :
    ∃ r, (minimizeLoop exact W dims func cbs n done hist s last).2 = .ok (some r) ∧ BestAtMost c r := by
  induction n generalizing done hist s last with
  | zero =>
    obtain ⟨r, rfl, hr⟩ := hlast rfl
    refine ⟨r, rfl, result_atMost hs.live hr ?_⟩
    rcases hgood with h | ⟨k, p, -, h1, h2, -⟩
    · exact h
    · simp only [Nat.cast_zero, add_zero] at h2
      omega
  | succ n ih =>
    obtain ⟨p, hp⟩ := askOne_live hd hW hs.live hs.ready
    have hpS := askOne_member hd hW hs.design hs.ready hp
    obtain ⟨rng', hfr⟩ := askOne_frame exact W dims s
    obtain ⟨y, hv, hy⟩ := hfunc done p hpS
    have hs' : Running W dims { s with rng := rng' } :=
      ⟨⟨hs.live.points, hs.live.values, hs.live.aligned, hs.live.hedge, hs.live.proposals⟩,
        ⟨hs.ready.initial, hs.ready.model⟩, hs.sane, hs.design⟩
    have hflat := inSpace_flat hd.nonempty hd.valid hpS
    obtain ⟨t, r, h1, h2, h3, h2'⟩ := tell_running hd hW hs' (c := .one p y true)
      ⟨hpS, hflat, by
        show Told s.cfg.acq.isPs y
        rw [hps]; exact hy⟩ rfl
    obtain ⟨⟨y', k1, k2⟩, k3, k4, k5, k6⟩ := tell_one_state hflat h1
    have hc := evalCallbacks_patient hcbs (hist ++ [r]) r 0
    have hask : askOne exact W dims s = ({ s with rng := rng' }, .ok p) := by
      rw [← hfr, ← hp]
    have k3 : t.nInit = s.nInit - 1 := k3
    have hgood' : (∃ y ∈ t.yi, AtMost c y) ∨ ∃ (k : Nat) (p : Point ℝ), pts[k]? = some p ∧ (pts.length : ℤ) - t.nInit ≤ k ∧
        (k : ℤ) < pts.length - t.nInit + n ∧ ∀ done y, func done (.seq p) = .ok y → AtMost c y := by
      rcases hgood with ⟨z, hz, hz'⟩ | ⟨k, q, hq, g1, g2, hall⟩
      · exact .inl ⟨z, by rw [k2]; exact List.mem_append_left _ hz, hz'⟩
      · have hk : k < pts.length := by
          obtain ⟨h, _⟩ := List.getElem?_eq_some_iff.1 hq
          exact h
        by_cases e : (pts.length : ℤ) - s.nInit = k
        · left
          have hpos : 0 < s.nInit := by omega
          have : (askOne exact W dims s).2 = .ok q := by
            unfold askOne
            rw [if_pos (.inl hpos)]
            simp only [hdes]
            exact pyGetI_eq hq e
          rw [hp] at this
          obtain rfl : p = q := by injection this
          exact ⟨y', by rw [k2]; simp, onRecord_atMost k1 (hall done y hv)⟩
        · right
          push_cast at g2
          exact ⟨k, q, hq, by omega, by omega, hall⟩
    obtain ⟨r', g1, g2⟩ := ih (done ++ [.seq p]) (hist ++ [r]) h2 (by rw [h2']; exact hps) (by rw [k4]; exact hdes)
      hgood' (some r) (fun _ => ⟨r, rfl, k6⟩)
    refine ⟨r', ?_, g2⟩
    obtain ⟨tc, hc'⟩ : ∃ tc, evalCallbacks (hist ++ [r]) r cbs 0 false = (tc, .ok false) := ⟨_, Prod.ext rfl hc⟩
    simp only [minimizeLoop, hask, hv, h1, hc', g1]

/-- The constructor with a generator of initial points. -/
theorem init_design {sh : Shared ℝ G} {cfg : Config} (hd : Workable (searched cfg.isGP sh.dims)) (hc : Sane cfg)
    (hn : 0 < cfg.nInitial) (he : cfg.hasEst = true) {g : G} (hg : sh.gen = some g) (rng : R) {g' : G}
    {P : List (Point ℝ)}
    (hP : W.generate g (searched cfg.isGP sh.dims) cfg.nInitial (W.seed rng).2 = (g', searched cfg.isGP sh.dims, .ok P))
    (hlen : cfg.nInitial ≤ P.length) (hmem : ∀ p ∈ P, InSpace exact (searched cfg.isGP sh.dims) p) :
    Opt.init exact W sh cfg rng = (⟨searched cfg.isGP sh.dims, some g'⟩,
      .ok (Opt.fresh exact cfg (W.seed rng).1 (some P) : Opt ℝ M R)) ∧
      Running W (searched cfg.isGP sh.dims) (Opt.fresh exact cfg (W.seed rng).1 (some P) : Opt ℝ M R) := by
  have hdims : (if cfg.isGP then Space.setTransformer sh.dims .normalize else .ok sh.dims) =
      .ok (searched cfg.isGP sh.dims) := by
    unfold searched
    split
    · exact setTransformer_normalize _
    · rfl
  refine ⟨?_, live_fresh _ cfg _ _, ⟨?_, fun h => absurd hn (not_lt.2 h)⟩, hc, ?_⟩
  · unfold Opt.init
    simp only [hdims, hg, hP, set_own_transformers fun d hm => (hd.valid d hm).legalTransform]
  · rintro P' ⟨⟩
    exact ⟨he, hlen⟩
  · rintro P' ⟨⟩
    exact hmem

/-- The evaluation of one of the points of the initial design suffices for the whole run. -/
theorem baseMinimize_design (W : World ℝ M R G) (sh : Shared ℝ G) (func : Objective ℝ) (m : MinArgs ℝ M) (rng : R)
    (hset : SaneArgs m.opt) (hd : Workable (searched m.opt.est.isGP sh.dims))
    (hW : Reliable W (searched m.opt.est.isGP sh.dims)) (hest : m.opt.est.isNone = false)
    (hfunc : TotalOn m.opt.perSecond sh.dims func) (hx : m.x0 = .none) (hy : m.y0 = .none)
    (n : Nat) (hn : m.nRandomStarts.getD m.nInitialPoints = n) (hpos : 0 < n) (hcalls : (n : ℤ) ≤ m.nCalls)
    (hcb : m.callback ≠ .invalid) (hpat : Patient m.callback.callables)
    (g g' : G) (hgen : sh.gen = some g) (P : List (Point ℝ))
    (hP : W.generate g (searched m.opt.est.isGP sh.dims) n (W.seed rng).2 = (g', searched m.opt.est.isGP sh.dims, .ok P))
    (hlen : P.length = n) (hmem : ∀ p ∈ P, InSpace exact sh.dims p)
    (hgood : ∃ p ∈ P, ∀ done y, func done (.seq p) = .ok y → AtMost c y) :
    ∃ r, (baseMinimize exact W sh func m rng).result = .ok (some r) ∧ BestAtMost c r := by
  have hprep : m.prepare = .ok ([], (n : ℤ)) := by
    unfold MinArgs.prepare
    rw [hx, hy, hn]
    simp only [X0.points, ok_bind]
    rw [if_neg (by simp; omega)]
    simp only [Y0.falsy, Y0.values]
    rw [if_neg]
    · simp
    · simp; omega
  obtain ⟨cfg, hcfg, hsane, hni, hgp, hest', hacq⟩ := mkConfig_sane (n := n) hset (by omega)
  rw [← hgp] at hd hW hP
  rw [← hni] at hP
  obtain ⟨hinit, hrun⟩ := init_design (M := M) (W := W) (sh := sh) (cfg := cfg) hd hsane (by rw [hni]; omega)
    (by rw [hest', hest]; rfl) hgen rng hP (by rw [hni, hlen]) (fun p hp => inSpace_searched.2 (hmem p hp))
  obtain ⟨cbs, hcb, hcs⟩ : ∃ cbs, checkCallback m.callback = .ok cbs ∧ m.callback.callables = cbs := by
    cases hc : m.callback with
    | none => exact ⟨[], rfl, rfl⟩
    | one c => exact ⟨[c], rfl, rfl⟩
    | list cs => exact ⟨cs, rfl, rfl⟩
    | invalid => exact absurd hc hcb
  have hpat' : Patient (if m.verbose then cbs ++ [verboseCallback] else cbs) := by
    intro c hc hist
    split at hc
    · rcases List.mem_append.1 hc with h | h
      · exact hpat c (by rw [hcs]; exact h) hist
      · rw [List.mem_singleton] at h
        subst h
        exact ⟨none, rfl, by simp⟩
    · exact hpat c (by rw [hcs]; exact hc) hist
  obtain ⟨p, hpP, hall⟩ := hgood
  obtain ⟨k, hk, hkp⟩ := List.mem_iff_getElem.1 hpP
  obtain ⟨r, h1, h2⟩ := minimizeLoop_design (c := c) hd hW (fun done p hp => hfunc done p (inSpace_searched.1 hp)) hpat'
    m.nCalls.toNat [] [] hrun hacq P rfl
    (.inr ⟨k, p, by rw [List.getElem?_eq_getElem hk, hkp], by
      show (P.length : ℤ) - cfg.nInitial ≤ k
      rw [hni]; omega, by
      show (k : ℤ) < P.length - cfg.nInitial + _
      rw [hni]; omega, hall⟩) none (by omega)
  refine ⟨r, ?_, h2⟩
  have hstarts : checkStarts (searched cfg.isGP sh.dims).length ([] : List (Val ℝ)) = .ok () := rfl
  simp only [baseMinimize, hprep, MinArgs.optArgs, hcfg, hinit, hstarts, hcb, hy, minimizeBody]
  exact h1

end Skopt

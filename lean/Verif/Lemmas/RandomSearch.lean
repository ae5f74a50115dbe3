import Verif.Props.MinimizeRuns
import Verif.Props.SamplingMany

/-!
# Lemmas: the random phase of a run
-/

namespace Skopt

variable {M R G : Type}

/-- The next draws of the generator in state `rng`, one sample of the space at a time, are the given numbers. -/
def Delivers (W : World ℝ M R G) (dims : List (Dim ℝ)) : R → List (Fin dims.length → ℝ) → Prop
  | _, [] => True
  | rng, u :: us =>
    ∃ rng', W.draws rng dims 1 = (rng', List.ofFn fun i => rawOf (u i)) ∧ Delivers W dims rng' us

/-- The value (in the per-second modes: the first component) is a number that does not exceed `c`. -/
def AtMost (c : ℝ) (y : YArg ℝ) : Prop := ∃ f, f ≤ c ∧ (y = .num (.fin f) ∨ ∃ t, y = .seq [.num (.fin f), t])

/-- The numbers are decoded to a point at which the objective never exceeds `c`. -/
def HitsBelow (dims : List (Dim ℝ)) (func : Objective ℝ) (c : ℝ) (u : Fin dims.length → ℝ) : Prop :=
  ∃ p, Space.rvs exact dims (List.ofFn fun i => rawOf (u i)) = .ok [p] ∧
    ∀ done y, func done (.seq p) = .ok y → AtMost c y

/-- The result reports at most `c`. -/
def BestAtMost (c : ℝ) (r : Result ℝ M) : Prop := ∃ f, r.fun_ = .fin f ∧ f ≤ c

variable {W : World ℝ M R G} {dims : List (Dim ℝ)} {func : Objective ℝ} {c : ℝ}

theorem onRecord_atMost {acq : AcqFunc} {y y' : YArg ℝ} (h : OnRecord W acq y y') (hy : AtMost c y) : AtMost c y' := by
  unfold OnRecord at h
  split at h
  · obtain ⟨v, t, l, rfl, _, rfl⟩ := h
    obtain ⟨f, hf, h | ⟨t', h⟩⟩ := hy
    · cases h
    · simp only [YArg.seq.injEq, List.cons.injEq, and_true] at h
      exact ⟨f, hf, .inr ⟨.num l, by rw [h.1]⟩⟩
  · exact h ▸ hy

theorem result_atMost {s : Opt ℝ M R} (hs : Live dims s) {r : Result ℝ M} (h : getResult s = .ok r)
    (hy : ∃ y ∈ s.yi, AtMost c y) : BestAtMost c r := by
  obtain ⟨y, hy, f, hf, hyf⟩ := hy
  have hv := hs.values
  generalize s.cfg.acq.isPs = ps at hv
  cases ps with
  | false =>
    obtain ⟨fs, hfs⟩ := observed_nums hv
    obtain ⟨b, ⟨g, hg, hmin⟩, -, h3, -⟩ := (C30_first_best_partial s r h).1 fs hfs
    rw [hg] at h3
    simp only [Option.map_some, Option.some.injEq] at h3
    rw [hfs, List.mem_map] at hy
    obtain ⟨f', hf', rfl⟩ := hy
    rcases hyf with e | ⟨t, e⟩
    · obtain rfl : f' = f := by simpa using e
      exact ⟨g, h3.symm, (hmin.1 f' hf').trans hf⟩
    · cases e
  | true =>
    obtain ⟨qs, hqs⟩ := observed_pairs hv
    have hne : qs ≠ [] := by
      rintro rfl
      rw [hqs] at hy
      cases hy
    obtain ⟨b, ⟨g, hg, hmin⟩, -, h3, -⟩ := (C30_first_best_partial s r h).2 qs hqs hne
    rw [hqs, List.mem_map] at hy
    obtain ⟨q, hq, rfl⟩ := hy
    rcases hyf with e | ⟨t, e⟩
    · cases e
    · simp only [YArg.seq.injEq, List.cons.injEq, YArg.num.injEq, Flt.fin.injEq] at e
      refine ⟨g, ?_, ((hmin.1 _ (List.mem_map_of_mem hq)).trans e.1.le).trans hf⟩
      rw [List.getElem?_map] at hg
      cases hb : qs[b]? with
      | none => rw [hb] at hg; cases hg
      | some q' =>
        rw [hb] at h3 hg
        simp only [Option.map_some, Option.some.injEq] at h3 hg
        rw [← h3, hg]

/-- What a successful `tell` of one observation does to the state. -/
theorem tell_one_state {s t : Opt ℝ M R} {r : Result ℝ M} {p : Point ℝ} (hp : Flat p) {y : YArg ℝ}
    (h : tell exact W dims s (.lst p) y true = (t, .ok r)) :
    (∃ y', OnRecord W s.cfg.acq y y' ∧ t.yi = s.yi ++ [y']) ∧ t.nInit = s.nInit - 1 ∧
      t.initialSamples = s.initialSamples ∧ (1 < s.nInit ∨ s.cfg.hasEst = false → t.rng = s.rng) ∧
      getResult t = .ok r := by
  have hg := C30_tell_returns_result exact W dims s (.lst p) y true r (by rw [h])
  rw [h] at hg
  rcases tell_one exact W dims s hp y true with ⟨e, he⟩ | ⟨y', h1, -, h3, h4⟩
  · rw [he] at h; cases h
  · rw [h3] at h
    have hc := tellCore_frame exact W dims s (.lst p) y' true h4
    rw [h] at hc
    refine ⟨⟨y', h1, hc.yi⟩, hc.nInit, hc.initialSamples, fun hn => ?_, hg⟩
    rcases tellCore_cases exact W dims s (.lst p) y' true with ⟨e, he, _⟩ | ⟨u, hu, ⟨-, g2, g3, -⟩ | ⟨-, g⟩⟩
    · rw [h4] at he; cases he
    · rw [h4] at hu
      injection hu with hu
      subst hu
      rcases hn with hn | hn
      · simp only [record.single] at g2; omega
      · simp only [record.single] at g3; rw [hn] at g3; cases g3
    · rw [h4] at hu
      injection hu with hu
      subst hu
      rw [g] at h
      injection h with h _
      rw [← h]
      rfl

/-- Callbacks that neither raise nor stop the run. -/
def Patient (cbs : List (Callback ℝ M)) : Prop := ∀ cb ∈ cbs, ∀ hist, ∃ d, cb hist = .ok d ∧ d ≠ some true

theorem evalCallbacks_patient {cbs : List (Callback ℝ M)} (h : Patient cbs) (hist : List (Result ℝ M))
    (r : Result ℝ M) (i : Nat) : (evalCallbacks hist r cbs i false).2 = .ok false := by
  induction cbs generalizing i with
  | nil => rfl
  | cons cb cs ih =>
    obtain ⟨d, hd, hn⟩ := h cb List.mem_cons_self hist
    have ht := ih (fun c hc => h c (List.mem_cons_of_mem _ hc)) (i + 1)
    have e : (false || d.getD false) = false := by
      cases d with
      | none => rfl
      | some b => cases b with
        | false => rfl
        | true => exact absurd rfl hn
    simp only [evalCallbacks, hd, e, ht]

theorem minimizeLoop_random (hd : Workable dims) (hW : Reliable W dims) {ps : Bool} (hfunc : TotalOn ps dims func)
    {cbs : List (Callback ℝ M)} (hcbs : Patient cbs) (n : Nat) (done : List (Val ℝ)) (hist : List (Result ℝ M))
    {s : Opt ℝ M R} (hs : Running W dims s) (hps : s.cfg.acq.isPs = ps) (hdes : s.initialSamples = none)
    (us : List (Fin dims.length → ℝ)) (hdel : Delivers W dims s.rng us) (hlen : us.length ≤ n)
    (hini : us = [] ∨ (us.length : ℤ) ≤ s.nInit ∨ s.cfg.hasEst = false)
    (hgood : (∃ y ∈ s.yi, AtMost c y) ∨ ∃ u ∈ us, HitsBelow dims func c u)
    (last : Option (Result ℝ M)) (hlast : n = 0 → ∃ r, last = some r ∧ getResult s = .ok r) :
    ∃ r, (minimizeLoop exact W dims func cbs n done hist s last).2 = .ok (some r) ∧ BestAtMost c r := by
  induction n generalizing done hist s last us with
  | zero =>
    obtain ⟨r, rfl, hr⟩ := hlast rfl
    obtain rfl : us = [] := by cases us with
      | nil => rfl
      | cons _ _ => simp at hlen
    refine ⟨r, rfl, result_atMost hs.live hr ?_⟩
    rcases hgood with h | ⟨u, hu, -⟩
    · exact h
    · cases hu
  | succ n ih =>
    obtain ⟨p, hp⟩ := askOne_live hd hW hs.live hs.ready
    have hpS := askOne_member hd hW hs.design hs.ready hp
    obtain ⟨rng', hfr⟩ := askOne_frame exact W dims s
    obtain ⟨y, hv, hy⟩ := hfunc done p hpS
    have hs' : Running W dims { s with rng := rng' } :=
      ⟨⟨hs.live.points, hs.live.values, hs.live.aligned, hs.live.hedge, hs.live.proposals⟩,
        ⟨hs.ready.initial, hs.ready.model⟩, hs.sane, hs.design⟩
    have hflat := inSpace_flat hd.nonempty hd.valid hpS
    obtain ⟨t, r, h1, h2, h3, h2'⟩ := tell_running hd hW hs' (c := .one p y true)
      ⟨hpS, hflat, by
        show Told s.cfg.acq.isPs y
        rw [hps]; exact hy⟩ rfl
    obtain ⟨⟨y', k1, k2⟩, k3, k4, k5, k6⟩ := tell_one_state hflat h1
    have hc := evalCallbacks_patient hcbs (hist ++ [r]) r 0
    have hask : askOne exact W dims s = ({ s with rng := rng' }, .ok p) := by
      rw [← hfr, ← hp]
    -- the rows still to come
    obtain ⟨us', hdel', hlen', hini', hgood'⟩ : ∃ us', Delivers W dims t.rng us' ∧ us'.length ≤ n ∧
        (us' = [] ∨ (us'.length : ℤ) ≤ t.nInit ∨ t.cfg.hasEst = false) ∧
        ((∃ y ∈ t.yi, AtMost c y) ∨ ∃ u ∈ us', HitsBelow dims func c u) := by
      have hold : (∃ y ∈ s.yi, AtMost c y) → ∃ y ∈ t.yi, AtMost c y := by
        rintro ⟨z, hz, hz'⟩
        exact ⟨z, by rw [k2]; exact List.mem_append_left _ hz, hz'⟩
      cases us with
      | nil =>
        refine ⟨[], trivial, by simp, .inl rfl, ?_⟩
        · rcases hgood with h | ⟨u, hu, -⟩
          · exact .inl (hold h)
          · cases hu
      | cons u us =>
        obtain ⟨rng₁, hdr, hrest⟩ := hdel
        have hcond : 0 < s.nInit ∨ s.cfg.hasEst = false := by
          rcases hini with h | h | h
          · cases h
          · left; simp only [List.length_cons] at h; omega
          · exact .inr h
        have hask' : askOne exact W dims s = ({ s with rng := rng₁ },
            (do let pts ← Space.rvs exact dims (List.ofFn fun i => rawOf (u i)); pyGet pts 0)) := by
          unfold askOne
          rw [if_pos hcond]
          simp only [hdes, hdr]
        rw [hask] at hask'
        have e1 : rng' = rng₁ := by
          have := congrArg (fun q => q.1.rng) hask'
          exact this
        have e2 : (do let pts ← Space.rvs exact dims (List.ofFn fun i => rawOf (u i)); pyGet pts 0) = .ok p :=
          (congrArg Prod.snd hask').symm
        refine ⟨us, ?_, by simpa using hlen, ?_, ?_⟩
        · cases us with
          | nil => trivial
          | cons v vs =>
            rw [k5, e1]
            · exact hrest
            · rcases hini with h | h | h
              · cases h
              · left; simp only [List.length_cons] at h; show 1 < s.nInit; omega
              · exact .inr h
        · rcases hini with h | h | h
          · cases h
          · right; left; rw [k3]; simp only [List.length_cons] at h; show _ ≤ s.nInit - 1; omega
          · right; right; rw [h2']; exact h
        · rcases hgood with h | ⟨v, hv', hgv⟩
          · exact .inl (hold h)
          · rcases List.mem_cons.1 hv' with rfl | hv'
            · left
              obtain ⟨p', hp', hall⟩ := hgv
              rw [hp'] at e2
              obtain rfl : p' = p := by injection e2
              exact ⟨y', by rw [k2]; simp, onRecord_atMost k1 (hall done y hv)⟩
            · exact .inr ⟨v, hv', hgv⟩
    obtain ⟨r', g1, g2⟩ := ih (done ++ [.seq p]) (hist ++ [r]) h2 (by rw [h2']; exact hps) (by rw [k4]; exact hdes)
      us' hdel' hlen' hini' hgood' (some r) (fun _ => ⟨r, rfl, k6⟩)
    refine ⟨r', ?_, g2⟩
    obtain ⟨tc, hc'⟩ : ∃ tc, evalCallbacks (hist ++ [r]) r cbs 0 false = (tc, .ok false) := ⟨_, Prod.ext rfl hc⟩
    simp only [minimizeLoop, hask, hv, h1, hc', g1]

/-- The evaluation of one of the first `n` random points suffices for the whole run. -/
theorem baseMinimize_random (W : World ℝ M R G) (sh : Shared ℝ G) (func : Objective ℝ) (m : MinArgs ℝ M) (rng : R)
    (hset : SaneArgs m.opt) (hd : Workable (searched m.opt.est.isGP sh.dims))
    (hW : Reliable W (searched m.opt.est.isGP sh.dims)) (hgen : sh.gen = none)
    (hfunc : TotalOn m.opt.perSecond sh.dims func) (hx : m.x0 = .none) (hy : m.y0 = .none)
    (us : List (Fin (searched m.opt.est.isGP sh.dims).length → ℝ))
    (hn : m.nRandomStarts.getD m.nInitialPoints = us.length) (hpos : us ≠ []) (hcalls : (us.length : ℤ) ≤ m.nCalls)
    (hcb : m.callback ≠ .invalid) (hpat : Patient m.callback.callables)
    (hdel : Delivers W (searched m.opt.est.isGP sh.dims) rng us)
    (hgood : ∃ u ∈ us, HitsBelow (searched m.opt.est.isGP sh.dims) func c u) :
    ∃ r, (baseMinimize exact W sh func m rng).result = .ok (some r) ∧ BestAtMost c r := by
  have hlen : 0 < us.length := List.length_pos_iff.2 hpos
  have hprep : m.prepare = .ok ([], (us.length : ℤ)) := by
    unfold MinArgs.prepare
    rw [hx, hy, hn]
    simp only [X0.points, ok_bind]
    rw [if_neg (by simp; omega)]
    simp only [Y0.falsy, Y0.values]
    rw [if_neg]
    · simp
    · simp; omega
  obtain ⟨cfg, hcfg, hsane, hni, hgp, hest, hacq⟩ := mkConfig_sane (n := us.length) hset (by omega)
  rw [← hgp] at hd hW
  obtain ⟨sh₁, s, hinit, hsd, hrun⟩ := init_runs (M := M) (W := W) (sh := sh) (cfg := cfg) hd hsane (by rw [hni]; omega)
    (.inl hgen) rng
  have hs : s = Opt.fresh exact cfg rng none := by
    unfold Opt.init at hinit
    rw [hgen] at hinit
    split at hinit
    · cases hinit
    · simp only [Prod.mk.injEq, Except.ok.injEq] at hinit
      exact hinit.2.symm
  obtain ⟨cbs, hcb, hcs⟩ : ∃ cbs, checkCallback m.callback = .ok cbs ∧ m.callback.callables = cbs := by
    cases hc : m.callback with
    | none => exact ⟨[], rfl, rfl⟩
    | one c => exact ⟨[c], rfl, rfl⟩
    | list cs => exact ⟨cs, rfl, rfl⟩
    | invalid => exact absurd hc hcb
  have hpat' : Patient (if m.verbose then cbs ++ [verboseCallback] else cbs) := by
    intro c hc hist
    split at hc
    · rcases List.mem_append.1 hc with h | h
      · exact hpat c (by rw [hcs]; exact h) hist
      · rw [List.mem_singleton] at h
        subst h
        exact ⟨none, rfl, by simp⟩
    · exact hpat c (by rw [hcs]; exact hc) hist
  generalize m.opt.est.isGP = gp at *
  subst hgp
  obtain ⟨r, h1, h2⟩ := minimizeLoop_random hd hW (fun done p hp => hfunc done p (inSpace_searched.1 hp)) hpat'
    m.nCalls.toNat [] [] hrun (by rw [hs]; exact hacq) (by rw [hs]; rfl) us (by rw [hs]; exact hdel) (by omega)
    (.inr (.inl (by rw [hs]; show _ ≤ cfg.nInitial; rw [hni]))) (.inr hgood) none (by omega)
  refine ⟨r, ?_, h2⟩
  have hstarts : checkStarts (searched cfg.isGP sh.dims).length ([] : List (Val ℝ)) = .ok () := rfl
  simp only [baseMinimize, hprep, MinArgs.optArgs, hcfg, hinit, hsd, hstarts, hcb, hy, minimizeBody]
  exact h1

end Skopt

import Verif.Props.Liveness
import Verif.Props.OptimizerAsk
import Verif.Props.OptimizerHistory

/-!
# C93: `Optimizer.run`
-/

namespace Skopt

variable {F M R G : Type}

section
variable [LinearOrder F]

/-- One round by hand: `x = opt.ask()`, then `opt.tell(x, y)`. -/
def rounds (obs : List (Point F × YArg F)) : List (Op F) :=
  obs.flatMap fun o => [.ask, .tell (.lst o.1) o.2 true]

/-- The outcomes of such rounds: the points asked for, and results. -/
def roundOutcomes (obs : List (Point F × YArg F)) (rs : List (Result F M)) : List (Except PyErr (Out F M)) :=
  (obs.zip rs).flatMap fun q => [.ok (.point q.1.1), .ok (.result q.2)]

/-- **C93.** A call `run(func, n)` that returns has evaluated the objective `n` times, each time at the point `ask()`
suggested, and is the same as `n` rounds of `ask` and `tell` by hand: the same points are suggested, the optimizer is
left in the same state, and what is returned is the result of that state. -/
theorem C93_run_is_ask_tell (A : Arith F) (W : World F M R G) (sh : Shared F G) (func : List (Point F) → Point F → Except PyErr (YArg F))
    (n : Nat) (s : Opt F M R) (xs : List (Point F)) (s' : Opt F M R) (res : Result F M)
    (h : Opt.run A W sh.dims func n s = (xs, s', .ok res)) :
    ∃ obs : List (Point F × YArg F), obs.length = n ∧ xs = obs.map Prod.fst ∧
      (∀ i o, obs[i]? = some o → func (xs.take i) o.1 = .ok o.2) ∧
      (∃ rs : List (Result F M), rs.length = n ∧ runOps A W sh s (rounds obs) = (sh, s', roundOutcomes obs rs)) ∧
      getResult s' = .ok res := by
  induction n generalizing func s xs with
  | zero =>
    simp only [Opt.run, Prod.mk.injEq] at h
    obtain ⟨rfl, rfl, h⟩ := h
    exact ⟨[], rfl, rfl, by simp, ⟨[], rfl, rfl⟩, h⟩
  | succ n ih =>
    unfold Opt.run at h
    rcases ha : askOne A W sh.dims s with ⟨s1, e | x⟩
    · simp [ha] at h
    simp only [ha] at h
    cases hf : func [] x with
    | error e => simp [hf] at h
    | ok y =>
      simp only [hf] at h
      rcases ht : tell A W sh.dims s1 (.lst x) y true with ⟨s2, e | r⟩
      · simp [ht] at h
      simp only [ht] at h
      rcases hr : Opt.run A W sh.dims (fun done => func (x :: done)) n s2 with ⟨xs', s3, r'⟩
      simp only [hr, Prod.mk.injEq] at h
      obtain ⟨rfl, rfl, rfl⟩ := h
      obtain ⟨obs, h1, rfl, h3, ⟨rs, h4, h5⟩, h6⟩ := ih _ s2 xs' hr
      refine ⟨(x, y) :: obs, by simp [h1], rfl, ?_, ⟨r :: rs, by simp [h4], ?_⟩, h6⟩
      · intro i o ho
        cases i with
        | zero =>
          simp only [List.getElem?_cons_zero, Option.some.injEq] at ho
          subst ho
          exact hf
        | succ i => exact h3 i o ho
      · have : rounds ((x, y) :: obs) = .ask :: .tell (.lst x) y true :: rounds obs := rfl
        rw [this]
        simp only [runOps, step, ha, ht, h5]
        rfl

/-- **C93, splitting.** Running `m` iterations and then `n` more is the same as running `m + n`: the same evaluations,
the same final state, the same outcome (an exception in the second part included). -/
theorem C93_run_continues (A : Arith F) (W : World F M R G) (dims : List (Dim F)) (func : List (Point F) → Point F → Except PyErr (YArg F))
    (m n : Nat) (s : Opt F M R) (xs : List (Point F)) (s' : Opt F M R) (res : Result F M)
    (h : Opt.run A W dims func m s = (xs, s', .ok res)) :
    Opt.run A W dims func (m + n) s =
      (xs ++ (Opt.run A W dims (fun done => func (xs ++ done)) n s').1,
        (Opt.run A W dims (fun done => func (xs ++ done)) n s').2) := by
  induction m generalizing func s xs with
  | zero =>
    simp only [Opt.run, Prod.mk.injEq] at h
    obtain ⟨rfl, rfl, -⟩ := h
    simp
  | succ m ih =>
    rw [show m + 1 + n = (m + n) + 1 by omega]
    generalize hq : Opt.run A W dims (fun done => func (xs ++ done)) n s' = q
    unfold Opt.run at h ⊢
    rcases ha : askOne A W dims s with ⟨s1, e | x⟩
    · simp [ha] at h
    simp only [ha] at h ⊢
    cases hf : func [] x with
    | error e => simp [hf] at h
    | ok y =>
      simp only [hf] at h ⊢
      rcases ht : tell A W dims s1 (.lst x) y true with ⟨s2, e | r⟩
      · simp [ht] at h
      simp only [ht] at h ⊢
      rcases hr : Opt.run A W dims (fun done => func (x :: done)) m s2 with ⟨xs', s3, r'⟩
      simp only [hr, Prod.mk.injEq] at h
      obtain ⟨rfl, rfl, rfl⟩ := h
      rw [ih _ s2 xs' hr]
      simp only [List.cons_append] at hq
      rw [hq]
      rfl

/-- **C93, failing objective.** If the objective raises in a round after `m` complete ones (`m` may be 0), the exception reaches the
caller of `run`; nothing of that round is recorded – the optimizer is as after the `m` rounds, up to its random state –
and in the model phase (or while there are designed initial points) the next `ask` suggests the very point at which the
objective failed. -/
theorem C93_objective_raises (A : Arith F) (W : World F M R G) (sh : Shared F G) (func : List (Point F) → Point F → Except PyErr (YArg F))
    (m n : Nat) (s : Opt F M R) (xs : List (Point F)) (s' : Opt F M R)
    (h : m = 0 ∧ xs = [] ∧ s' = s ∨ ∃ res, Opt.run A W sh.dims func m s = (xs, s', .ok res)) (x : Point F) (hx : (askOne A W sh.dims s').2 = .ok x)
    (e : PyErr) (he : func xs x = .error e) :
    ∃ t rng, Opt.run A W sh.dims func (m + (n + 1)) s = (xs ++ [x], t, .error e) ∧ t = { s' with rng := rng } ∧
      ((s'.initialSamples ≠ none ∨ (s'.nInit ≤ 0 ∧ s'.cfg.hasEst = true)) → (askOne A W sh.dims t).2 = .ok x) := by
  obtain ⟨rng, hrng⟩ := askOne_frame A W sh.dims s'
  refine ⟨_, rng, ?_, hrng, ?_⟩
  · have hrun : Opt.run A W sh.dims func (m + (n + 1)) s = (xs ++ (Opt.run A W sh.dims (fun done => func (xs ++ done)) (n + 1) s').1,
        (Opt.run A W sh.dims (fun done => func (xs ++ done)) (n + 1) s').2) := by
      rcases h with ⟨rfl, rfl, rfl⟩ | ⟨res, h⟩
      · simp
      · exact C93_run_continues A W sh.dims func m (n + 1) s xs s' res h
    rw [hrun]
    rcases ha : askOne A W sh.dims s' with ⟨s1, r⟩
    rw [ha] at hx
    simp only at hx
    subst hx
    simp only [Opt.run, ha, List.append_nil, he]
  · intro hph
    have h2 := C32_ask_repeatable A W sh s' hph 1
    simp only [List.replicate_one, runOps, step, Prod.mk.injEq, true_and] at h2
    rw [h2.1]
    exact hx

/-- **C93, history.** After a `run` that returns, the points evaluated are on record after the earlier ones, in order and each with
the value the objective gave for it, and the points of the returned result are the whole record.

Missing: points made of lists only, which `tell` takes for batches (C29). -/
theorem C93_run_history_partial (A : Arith F) (W : World F M R G) (sh : Shared F G)
    (func : List (Point F) → Point F → Except PyErr (YArg F)) (n : Nat) (s : Opt F M R) (xs : List (Point F)) (s' : Opt F M R)
    (res : Result F M) (h : Opt.run A W sh.dims func n s = (xs, s', .ok res)) (hflat : ∀ x ∈ xs, Flat x) :
    xs.length = n ∧ s'.Xi = s.Xi ++ xs.map Val.seq ∧ res.xIters = s'.Xi ∧
      ∃ ys zs, (ys.length = n ∧ ∀ i x y, xs[i]? = some x → ys[i]? = some y → func (xs.take i) x = .ok y) ∧
        List.Forall₂ (OnRecord W s.cfg.acq) ys zs ∧
        s'.yi = s.yi ++ zs := by
  obtain ⟨obs, h1, rfl, h3, ⟨rs, h4, h5⟩, h6⟩ := C93_run_is_ask_tell A W sh func n s xs s' res h
  have hcalls : rounds obs = (obs.flatMap fun o => [Call.ask, Call.one o.1 o.2 true]).map Call.toOp := by
    rw [rounds, List.map_flatMap]
    rfl
  have hobs : (obs.flatMap fun o => [Call.ask, Call.one o.1 o.2 true]).flatMap Call.obs = obs := by
    rw [List.flatMap_assoc]
    simp only [List.flatMap_cons, Call.obs, List.nil_append, List.flatMap_nil, List.append_nil]
    simp
  have hret : ∀ r ∈ roundOutcomes obs rs, Returns r := by
    intro r hr
    obtain ⟨q, _, hr⟩ := List.mem_flatMap.1 hr
    simp only [List.mem_cons, List.not_mem_nil, or_false] at hr
    rcases hr with rfl | rfl <;> exact ⟨_, rfl⟩
  have hC := C29_tell_records_history_partial A W sh s (obs.flatMap fun o => [Call.ask, Call.one o.1 o.2 true])
    (by
      intro p y f hm
      obtain ⟨o, ho, hm⟩ := List.mem_flatMap.1 hm
      simp only [List.mem_cons, reduceCtorEq, Call.one.injEq, List.not_mem_nil, or_false, false_or] at hm
      rw [hm.1]
      exact hflat _ (List.mem_map_of_mem ho))
    (by
      rw [← hcalls, h5]
      intro q hq _
      exact hret _ (List.of_mem_zip hq).2)
  rw [← hcalls, h5, hobs] at hC
  obtain ⟨c1, ⟨zs, c2, c3⟩, -⟩ := hC
  refine ⟨by simp [h1], ?_, ?_, obs.map Prod.snd, zs, ?_, c3, c2⟩
  · rw [List.map_map]; exact c1
  · unfold getResult createResult at h6
    simp only [bind_eq_ok] at h6
    obtain ⟨c, _, h6⟩ := h6
    obtain ⟨b, _, h6⟩ := h6
    obtain ⟨x, _, h6⟩ := h6
    obtain ⟨f, _, h6⟩ := h6
    injection h6 with h6
    rw [← h6]
  · refine ⟨by simp [h1], fun i x y hx hy => ?_⟩
    rw [List.getElem?_map, Option.map_eq_some_iff] at hx hy
    obtain ⟨o, ho, rfl⟩ := hx
    obtain ⟨o', ho', rfl⟩ := hy
    rw [ho] at ho'
    cases ho'
    exact h3 i o ho

end

variable {W : World ℝ M R G} {dims : List (Dim ℝ)}

theorem run_going (hd : Workable dims) (hW : Reliable W dims) (ps : Bool) (func : List (Point ℝ) → Point ℝ → Except PyErr (YArg ℝ))
    (hf : ∀ done p, InSpace exact dims p → ∃ y, func done p = .ok y ∧ Told ps y) (n : Nat) {s : Opt ℝ M R}
    (hs : Going W dims s) (hps : s.cfg.acq.isPs = ps) (hn : n ≠ 0 ∨ s.Xi ≠ []) :
    ∃ xs t res, Opt.run exact W dims func n s = (xs, t, .ok res) ∧ xs.length = n ∧ ∀ x ∈ xs, InSpace exact dims x := by
  induction n generalizing func s with
  | zero =>
    obtain ⟨r, hr⟩ := createResult_live hs.running.live (by simpa using hn)
    exact ⟨[], s, r, by simp only [Opt.run, getResult, hr], rfl, by simp⟩
  | succ n ih =>
    have hg0 : GenFits W dims s.cfg (none : Option G) := Or.inl rfl
    obtain ⟨p, hp⟩ := askOne_live hd hW hs.running.live hs.running.ready
    have hmem := askOne_member hd hW hs.running.design hs.running.ready hp
    obtain ⟨g1, t1, a1, a2, -, a4, a5, a6, -⟩ := step_going hd hW hs hg0 (told := false) (by simp)
      (c := .ask) trivial
    obtain ⟨y, hy, hty⟩ := hf [] p hmem
    obtain ⟨g2, t2, b1, b2, b3, b4, b5, b6, b7⟩ := step_going hd hW a4 (a6 ▸ hg0 : GenFits W dims t1.cfg none)
      (told := false) (by simp) (c := .one p y true) ⟨hmem, by rw [a6, hps]; exact hty, rfl⟩
    have hask : askOne exact W dims s = (t1, .ok p) := by
      rcases h : askOne exact W dims s with ⟨u, r⟩
      rw [h] at hp
      simp only [Call.toOp, step, h] at a2
      simp only at hp
      rw [hp, a2]
    obtain ⟨r, hr⟩ : ∃ r, tell exact W dims t1 (.lst p) y true = (t2, .ok r) := by
      rcases h : tell exact W dims t1 (.lst p) y true with ⟨u, r⟩
      simp only [Call.toOp, step, h] at b2 b3
      obtain ⟨o, ho⟩ := b3
      cases r with
      | error e => cases ho
      | ok r => exact ⟨r, by rw [b2]⟩
    obtain ⟨xs, t, res, c1, c2, c3⟩ := ih _ (fun done => hf (p :: done)) b4 (by rw [b6, a6, hps]) (Or.inr (b7 (Or.inl rfl)))
    refine ⟨p :: xs, t, res, ?_, by simp [c2], ?_⟩
    · simp only [Opt.run, hask, hy, hr, c1]
    · intro x hx
      rcases List.mem_cons.1 hx with rfl | hx
      · exact hmem
      · exact c3 x hx

/-- **C93, completion.** On a freshly constructed optimizer with sane settings, a space that encodes and decodes
properly and third-party calls that do what they promise, `run(func, n)` with `n ≥ 1` and an objective that returns a
number (in the per-second modes a number and a positive time) at the points of the space returns, after exactly `n`
evaluations, all of them inside the space.

Missing: `n = 0` (refuted below), and what C68 leaves out. -/
theorem C93_run_returns_partial (sh : Shared ℝ G) (cfg : Config) (hc : Sane cfg) (hn : 0 < cfg.nInitial)
    (hd : Workable (searched cfg.isGP sh.dims)) (hW : Reliable W (searched cfg.isGP sh.dims))
    (hgen : sh.gen = none ∨ cfg.hasEst = true ∧ Generates W (searched cfg.isGP sh.dims)) (rng : R)
    (func : List (Point ℝ) → Point ℝ → Except PyErr (YArg ℝ))
    (hf : ∀ done p, InSpace exact sh.dims p → ∃ y, func done p = .ok y ∧ Told cfg.acq.isPs y) (n : Nat) (hpos : 0 < n) :
    ∃ sh' s, Opt.init exact W sh cfg rng = (sh', .ok s) ∧
      ∃ xs t res, Opt.run exact W sh'.dims func n (s : Opt ℝ M R) = (xs, t, .ok res) ∧ xs.length = n ∧
        ∀ x ∈ xs, InSpace exact sh.dims x := by
  obtain ⟨gen', s, h1, h2, h3, h4⟩ := init_going (M := M) (W := W) hd hc hn hgen rng
  obtain ⟨xs, t, res, g1, g2, g3⟩ := run_going hd hW cfg.acq.isPs func
    (fun done p hp => hf done p (inSpace_searched.1 hp)) n h2 (by rw [h3]) (Or.inl hpos.ne')
  exact ⟨_, s, h1, xs, t, res, g1, g2, fun x hx => inSpace_searched.1 (g3 x hx)⟩

/-- The hypotheses are met: ten iterations of `gp_hedge` with L-BFGS on a mixed space. -/
example : ∃ sh' s, Opt.init exact realWorld ⟨liveDims, none⟩ liveCfg () = (sh', .ok s) ∧
      ∃ xs t res, Opt.run exact realWorld sh'.dims (fun _ _ => .ok (.num (.fin 1))) 10 s = (xs, t, .ok res) ∧
        xs.length = 10 ∧ ∀ x ∈ xs, InSpace exact liveDims x :=
  C93_run_returns_partial (W := realWorld) ⟨liveDims, none⟩ liveCfg
    ⟨(by decide), fun _ => (by decide), fun k hk => (by cases hk; decide)⟩ (by decide)
    liveDims_workable liveWorld_reliable (Or.inl rfl) () _ (fun _ _ _ => ⟨_, rfl, 1, rfl⟩) 10 (by norm_num)

/-- The distance of the coordinate to 4; the objective fails beyond 4. -/
def runObjective (p : Point ℚ) : Except PyErr (YArg ℚ) :=
  match p with
  | [.num x] => if 4 < x then .error .valueError else .ok (.num (.fin (4 - x)))
  | _ => .error .typeError

/-- Two rounds return; the objective fails in the third, at 5; nothing of that round is recorded and 5 is suggested
again.
Meets the hypotheses of `C93_run_is_ask_tell`, `C93_run_continues`, `C93_objective_raises`,
`C93_run_history_partial`. -/
example :
    (let u := Opt.run ratArith okWorld toyDims (fun _ => runObjective) 2 toyDesigned
     u.1 = [[.num 1], [.num 2]] ∧ u.2.1.Xi = [.seq [.num 1], .seq [.num 2]] ∧ u.2.2.toOption.isSome = true ∧
       (askOne ratArith okWorld toyDims u.2.1).2 = .ok [.num 5]) ∧
    (let t := Opt.run ratArith okWorld toyDims (fun _ => runObjective) 7 toyDesigned
     t.1 = [[.num 1], [.num 2], [.num 5]] ∧ t.2.1.Xi = [.seq [.num 1], .seq [.num 2]] ∧ t.2.2.toOption.isSome = false ∧
       (askOne ratArith okWorld toyDims t.2.1).2 = .ok [.num 5]) := by
  decide +kernel

/-- **C93 is false for `n = 0` on a fresh optimizer**: `run(func, 0)` raises `ValueError` (the smallest of no values)
instead of returning an empty result. -/
theorem C93_refuted_zero [LinearOrder F] (A : Arith F) (W : World F M R G) (dims : List (Dim F))
    (func : List (Point F) → Point F → Except PyErr (YArg F)) (cfg : Config) (rng : R) (pts : Option (List (Point F))) :
    (Opt.run A W dims func 0 (Opt.fresh A cfg rng pts : Opt F M R)).2.2 = .error .valueError := by
  rfl

end Skopt

import Verif.Lemmas.LiveCopy

/-!
# C68: valid observations are never refused

If the third-party calls do what they promise, any sequence of `tell` calls with members of the space and
numbers (in the per-second modes: numbers and times) returns, and so does any interleaving with `ask()`,
`ask(n)`, `update_next` and `get_result`.
-/

namespace Skopt

variable {M R G : Type} {W : World ℝ M R G} {dims : List (Dim ℝ)}

/-- **C68 (tell).** On a fresh optimizer whose space encodes and decodes properly and whose third-party calls do
what they promise, no sequence of `tell` calls with members of the space and finite numbers (in the per-second
modes: numbers with positive times) ever raises, whether or not the calls fit the surrogate. -/
theorem C68_tell_returns_partial (hd : Workable dims) (hW : Reliable W dims) (gen : Option G) (cfg : Config)
    (hc : Sane cfg) (rng : R) (pts : Option (List (Point ℝ))) (calls : List (Call ℝ))
    (hcalls : ∀ c ∈ calls, GoodCall cfg.acq.isPs dims c ∧ c ≠ .ask) :
    ∀ r ∈ (runOps exact W ⟨dims, gen⟩ (Opt.fresh exact cfg rng pts) (calls.map Call.toOp)).2.2, Returns r := by
  have key : ∀ s : Opt ℝ M R, Live dims s → s.cfg = cfg →
      ∀ r ∈ (runOps exact W ⟨dims, gen⟩ s (calls.map Call.toOp)).2.2, Returns r := by
    induction calls with
    | nil => intro s _ _ r hr; simp [runOps] at hr
    | cons c cs ih =>
      intro s hs he r hr
      obtain ⟨hg, hna⟩ := hcalls c List.mem_cons_self
      obtain ⟨h1, h2, h3, h4, -⟩ := step_live hd hW gen hs (by rw [he]; exact hc) (by rw [he]; exact hg) fun h =>
        absurd h hna
      simp only [List.map_cons, runOps, h1] at hr
      rcases List.mem_cons.1 hr with rfl | hr
      · exact h2
      · exact ih (fun c hc => hcalls c (List.mem_cons_of_mem _ hc)) _ h3 (by rw [h4]; exact he) r hr
  exact key _ (live_fresh dims cfg rng pts) rfl

/-- **C68 (ask and tell).** With at least one initial point (and, if these are generated in advance, as many of
them as needed and a surrogate), the same holds for every interleaving of `ask()` with tells that fit. -/
theorem C68_ask_tell_returns_partial (hd : Workable dims) (hW : Reliable W dims) (gen : Option G) (cfg : Config)
    (hc : Sane cfg) (hn : 0 < cfg.nInitial) (rng : R) (pts : Option (List (Point ℝ)))
    (hpts : ∀ P, pts = some P → cfg.hasEst = true ∧ cfg.nInitial ≤ P.length) (calls : List (Call ℝ))
    (hcalls : ∀ c ∈ calls, GoodCall cfg.acq.isPs dims c ∧ c.fits) :
    ∀ r ∈ (runOps exact W ⟨dims, gen⟩ (Opt.fresh exact cfg rng pts) (calls.map Call.toOp)).2.2, Returns r := by
  have key : ∀ s : Opt ℝ M R, Live dims s → Ready dims s → s.cfg = cfg →
      ∀ r ∈ (runOps exact W ⟨dims, gen⟩ s (calls.map Call.toOp)).2.2, Returns r := by
    induction calls with
    | nil => intro s _ _ _ r hr; simp [runOps] at hr
    | cons c cs ih =>
      intro s hs hrd he r hr
      obtain ⟨hg, hf⟩ := hcalls c List.mem_cons_self
      obtain ⟨h1, h2, h3, h4, h5⟩ := step_live hd hW gen hs (by rw [he]; exact hc) (by rw [he]; exact hg) fun _ => hrd
      simp only [List.map_cons, runOps, h1] at hr
      rcases List.mem_cons.1 hr with rfl | hr
      · exact h2
      · exact ih (fun c hc => hcalls c (List.mem_cons_of_mem _ hc)) _ h3 (h5 hf hrd) (by rw [h4]; exact he) r hr
  refine key _ (live_fresh dims cfg rng pts) ⟨hpts, ?_⟩ rfl
  intro h
  exact absurd hn (not_lt.2 h)

/-- A sequence of calls of which each should succeed. -/
def ProperRun (ps : Bool) (dims : List (Dim ℝ)) : Bool → List (Call ℝ) → Prop
  | _, [] => True
  | told, c :: cs => Proper ps told dims c ∧ ProperRun ps dims (told || c.isTell) cs

/-- **C68 (every call).** With sane settings, at least one initial point, a space that encodes and decodes properly
(after the normalization a Gaussian process brings about) and third-party calls that do what they promise, the
constructor returns, and so does every call of every sequence of `tell` (single observations and batches),
`ask()`, `ask(n_points, strategy)`, `update_next()` and - after the first `tell` - `get_result()`.  In the
per-second modes the observations are pairs of a value and a positive time.

Missing: calls `tell(…, fit=False)` (see `C68_ask_answers_iff` for what `ask` does then), surrogate-free
search with generated initial points, and spaces with dimensions that do not encode (see the refutations, C02, C04). -/
theorem C68_every_call_returns_partial (sh : Shared ℝ G) (cfg : Config) (hc : Sane cfg) (hn : 0 < cfg.nInitial)
    (hd : Workable (searched cfg.isGP sh.dims)) (hW : Reliable W (searched cfg.isGP sh.dims))
    (hgen : sh.gen = none ∨ cfg.hasEst = true ∧ Generates W (searched cfg.isGP sh.dims)) (rng : R) :
    ∃ sh' s, Opt.init exact W sh cfg rng = (sh', .ok s) ∧
      ∀ calls : List (Call ℝ), ProperRun cfg.acq.isPs sh.dims false calls →
        ∀ r ∈ (runOps exact W sh' s (calls.map Call.toOp)).2.2, Returns r := by
  obtain ⟨gen', s, h1, h2, h3, h4⟩ := init_going (M := M) (W := W) hd hc hn hgen rng
  refine ⟨_, s, h1, ?_⟩
  have hproper : ∀ told c, Proper cfg.acq.isPs told sh.dims c →
      Proper cfg.acq.isPs told (searched cfg.isGP sh.dims) c := by
    intro told c h
    cases c with
    | one p y fit => exact ⟨inSpace_searched.2 h.1, h.2⟩
    | batch obs fit => exact ⟨h.1, fun o ho => ⟨inSpace_searched.2 (h.2.1 o ho).1, (h.2.1 o ho).2⟩, h.2.2⟩
    | _ => exact h
  have key : ∀ (calls : List (Call ℝ)) (gen : Option G) (s : Opt ℝ M R) (told : Bool),
      Going W (searched cfg.isGP sh.dims) s → s.cfg = cfg → GenFits W (searched cfg.isGP sh.dims) cfg gen →
      (told = true → s.Xi ≠ []) → ProperRun cfg.acq.isPs sh.dims told calls →
      ∀ r ∈ (runOps exact W ⟨searched cfg.isGP sh.dims, gen⟩ s (calls.map Call.toOp)).2.2, Returns r := by
    intro calls
    induction calls with
    | nil => intro gen s told _ _ _ _ _ r hr; simp [runOps] at hr
    | cons c cs ih =>
      intro gen s told hs he hg ht hrun r hr
      obtain ⟨gen₁, t, g1, g2, g3, g4, g5, g6, g7⟩ := step_going hd hW hs (by rw [he]; exact hg) ht
        (by rw [he]; exact hproper _ _ hrun.1)
      simp only [List.map_cons, runOps, g1, g2] at hr
      rcases List.mem_cons.1 hr with rfl | hr
      · exact g3
      · refine ih gen₁ t (told || c.isTell) g4 (g6.trans he) (by have := g5; rw [g6, he] at this; exact this) ?_ hrun.2 r hr
        intro h
        rcases Bool.or_eq_true _ _ ▸ h with h | h
        · exact g7 (Or.inr h)
        · exact g7 (Or.inl h)
  intro calls hrun
  exact key calls gen' s false h2 h3 h4 (by simp) hrun

/-- A space with a real, an integer and a categorical dimension. -/
noncomputable def liveDims : List (Dim ℝ) :=
  [.real ⟨0, 10, .uniform, 10, .identity, none, id⟩, .int ⟨(1 : ℤ), (8 : ℤ), .uniform, 10, .identity, none, id⟩,
   .cat ⟨[.str "a", .str "b", .str "c"], none, .onehot, none, fun _ => "", fun s => .ok (.str s)⟩]

theorem liveDims_workable : Workable liveDims := by
  have mem : ∀ P : Dim ℝ → Prop, (∀ d ∈ liveDims, P d) ↔ P (.real ⟨0, 10, .uniform, 10, .identity, none, id⟩) ∧
      P (.int ⟨(1 : ℤ), (8 : ℤ), .uniform, 10, .identity, none, id⟩) ∧
      P (.cat ⟨[.str "a", .str "b", .str "c"], none, .onehot, none, fun _ => "", fun s => .ok (.str s)⟩) := by
    intro P
    simp [liveDims]
  refine ⟨by simp [liveDims], ?_, ?_, ?_, ?_⟩
  · rw [mem]
    refine ⟨⟨by norm_num, Or.inl rfl, fun x h1 h2 => ⟨h1, h2⟩⟩, ⟨1, 8, by norm_num, rfl, rfl,
      roundHalfEven_intCast (K := ℝ) 1, roundHalfEven_intCast (K := ℝ) 8, Or.inl rfl, fun _ _ _ => rfl⟩, ?_⟩
    refine ⟨by simp, by simp, ⟨?_, Or.inr ?_⟩⟩ <;>
    · intro v hv
      simp only [List.mem_cons, List.not_mem_nil, or_false] at hv
      rcases hv with rfl | rfl | rfl <;> rfl
  · rw [mem]
    exact ⟨fun h => (by cases h), fun h => (by cases h), fun h => (by cases h)⟩
  · rw [mem]
    exact ⟨Or.inr (Or.inl rfl), Or.inr rfl, Or.inl rfl⟩
  · rw [mem]
    refine ⟨?_, fun _ _ => trivial, fun _ _ => trivial⟩
    rintro v ⟨x, rfl, _, _⟩
    rfl

theorem liveWorld_reliable : Reliable realWorld liveDims where
  fit _ _ _ _ _ _ _ _ := ⟨(), rfl⟩
  predict _ X _ _ := ⟨_, rfl, by simp⟩
  draws r n := by
    constructor
    · refine .cons ⟨fun h => (by cases h), trivial⟩ (.cons ⟨fun h => (by cases h), trivial⟩
        (.cons ⟨fun h => (by cases h), ?_⟩ .nil))
      intro i hi
      rw [List.eq_of_mem_replicate hi]
      decide
    · intro d hm
      simp only [realWorld, List.mem_map] at hm
      obtain ⟨_, _, rfl⟩ := hm
      simp
  acquisition _ X _ _ _ _ := ⟨_, rfl, by simp⟩
  argsort v hv := by
    constructor
    · simpa [realWorld] using hv
    · intro i hi
      simpa [realWorld] using hi
  lbfgs _ _ _ _ x hx := ⟨x, .fin 0, rfl, hx⟩
  multinomial _ p := by simp [realWorld]
  log t _ := ⟨_, rfl⟩

/-- `gp_hedge` with L-BFGS and one initial point. -/
def liveCfg : Config where
  acq := .gpHedge
  hasEst := true
  isGP := false
  lbfgs := true
  nPoints := 5
  nRestarts := 2
  nInitial := 1
  queueSize := some 2

/-- The hypotheses are met: `gp_hedge` with L-BFGS, one initial point, a run of asks, single and batch tells on a
mixed space.
Meets the hypotheses of `C68_tell_returns_partial`. -/
example : ∀ r ∈ (runOps exact realWorld ⟨liveDims, none⟩
      (Opt.fresh exact liveCfg () none)
      ([.ask, .one [.num 3, .num (2 : ℤ), .str "b"] (.num (.fin 1)) true, .ask,
        .batch [([.num 4, .num (8 : ℤ), .str "c"], .num (.fin 7)), ([.num 0, .num (1 : ℤ), .str "a"], .num (.fin 2))]
          true, .ask].map Call.toOp)).2.2, Returns r := by
  have h1 : InSpace exact liveDims [.num 3, .num (2 : ℤ), .str "b"] :=
    .cons ⟨3, rfl, by norm_num, by norm_num⟩ (.cons ⟨2, rfl, by norm_num [exact], by norm_num [exact]⟩
      (.cons (by simp [Legal]) .nil))
  have h2 : InSpace exact liveDims [.num 4, .num (8 : ℤ), .str "c"] :=
    .cons ⟨4, rfl, by norm_num, by norm_num⟩ (.cons ⟨8, rfl, by norm_num [exact], by norm_num [exact]⟩
      (.cons (by simp [Legal]) .nil))
  have h3 : InSpace exact liveDims [.num 0, .num (1 : ℤ), .str "a"] :=
    .cons ⟨0, rfl, by norm_num, by norm_num⟩ (.cons ⟨1, rfl, by norm_num [exact], by norm_num [exact]⟩
      (.cons (by simp [Legal]) .nil))
  refine C68_ask_tell_returns_partial liveDims_workable liveWorld_reliable none _
    ⟨(by decide), fun _ => (by decide), fun k hk => (by cases hk; decide)⟩ (by decide) () none (by simp) _ ?_
  intro c hc
  simp only [List.mem_cons, List.not_mem_nil, or_false] at hc
  rcases hc with rfl | rfl | rfl | rfl | rfl
  · exact ⟨trivial, trivial⟩
  · exact ⟨⟨h1, ⟨.num 3, by simp, rfl⟩, 1, rfl⟩, rfl⟩
  · exact ⟨trivial, trivial⟩
  · refine ⟨⟨by simp, ?_⟩, rfl⟩
    intro o ho
    simp only [List.mem_cons, List.not_mem_nil, or_false] at ho
    rcases ho with rfl | rfl
    · exact ⟨h2, 7, rfl⟩
    · exact ⟨h3, 2, rfl⟩
  · exact ⟨trivial, trivial⟩

/-- The hypotheses are met in a per-second mode: asking for one and for three points, telling values with times,
updating the suggestion, reading the result. -/
example : ∃ sh' s, Opt.init exact realWorld ⟨liveDims, none⟩ { liveCfg with acq := .EIps } () = (sh', .ok s) ∧
    ∀ r ∈ (runOps exact realWorld sh' s
      ([.ask, .askMany 3 .clMean, .one [.num 3, .num (2 : ℤ), .str "b"] (.seq [.num (.fin 1), .num (.fin 5)]) true,
        .getResult, .askMany 2 .clMax, .updateNext,
        .batch [([.num 4, .num (8 : ℤ), .str "c"], .seq [.num (.fin 7), .num (.fin 2)])] true,
        .ask].map Call.toOp)).2.2, Returns r := by
  obtain ⟨sh', s, h, hall⟩ := C68_every_call_returns_partial (W := realWorld) ⟨liveDims, none⟩
    { liveCfg with acq := .EIps } ⟨(by decide), fun _ => (by decide), fun k hk => (by cases hk; decide)⟩ (by decide)
    liveDims_workable liveWorld_reliable (Or.inl rfl) ()
  refine ⟨sh', s, h, hall _ ?_⟩
  have h1 : InSpace exact liveDims [.num 3, .num (2 : ℤ), .str "b"] :=
    .cons ⟨3, rfl, by norm_num, by norm_num⟩ (.cons ⟨2, rfl, by norm_num [exact], by norm_num [exact]⟩
      (.cons (by simp [Legal]) .nil))
  have h2 : InSpace exact liveDims [.num 4, .num (8 : ℤ), .str "c"] :=
    .cons ⟨4, rfl, by norm_num, by norm_num⟩ (.cons ⟨8, rfl, by norm_num [exact], by norm_num [exact]⟩
      (.cons (by simp [Legal]) .nil))
  refine ⟨trivial, ⟨by norm_num, by decide⟩, ⟨h1, ⟨1, 5, by norm_num, rfl⟩, rfl⟩, rfl, ⟨by norm_num, by decide⟩, trivial,
    ⟨by simp, ?_, rfl⟩, trivial, trivial⟩
  intro o ho
  rw [List.mem_singleton] at ho
  subst ho
  exact ⟨h2, 7, 2, by norm_num, rfl⟩

/-- Without a surrogate ("dummy") but with generated initial points, `ask()` raises `IndexError` as soon as the
initial points are used up, instead of going on sampling at random. -/
theorem C68_refuted_dummy_with_generator :
    ((runOps ratArith okWorld ⟨toyDims, some ()⟩
      (Opt.fresh ratArith { toyCfg .EI with hasEst := false, nInitial := 1 } 0 (some [[.num 1]]) : Opt ℚ Nat Nat)
      [.ask, .tell (.lst [.num 1]) (.num (.fin 3)) true, .ask]).2.2.map fun r => match r with
        | .ok _ => none
        | .error e => some e) = [none, none, some .indexError] := by
  decide +kernel

/-- A world whose L-BFGS stops half way between the bounds 0 and 1. -/
def halfWorld : World ℚ Nat Nat Unit :=
  { okWorld with lbfgs := fun r _ _ _ x => (r, .ok (x.map fun _ => .num (1/2), .fin 0)) }

/-- A categorical dimension of numbers with the `identity` transform and a surrogate (not a Gaussian process) that
provides gradients: L-BFGS searches between the categories (0 and 1), the suggestion 0.5 is no category, and `ask`
raises `RuntimeError`. -/
theorem C68_refuted_identity_categorical :
    ((runOps ratArith halfWorld
      ⟨[.cat ⟨[.num 0, .num 1], none, .identity, none, fun _ => "", fun s => .ok (.str s)⟩], none⟩
      (Opt.fresh ratArith { toyCfg .EI with isGP := false, lbfgs := true, nInitial := 1 } 0 none : Opt ℚ Nat Nat)
      [.tell (.lst [.num 1]) (.num (.fin 3)) true, .ask]).2.2.map fun r => match r with
        | .ok _ => none
        | .error e => some e) = [none, some .runtimeError] ∧
    (mkConfig { est := { hasGradients := true }, acq := some .EI, acqOptimizer := .lbfgs }).isOk = true := by
  refine ⟨by decide +kernel, rfl⟩

/-- A model queue of size 0 is accepted by the constructor, and the first `tell` that fits raises `IndexError`. -/
theorem C68_refuted_queue_size_zero :
    ((runOps ratArith okWorld ⟨toyDims, none⟩
      (Opt.fresh ratArith { toyCfg .EI with nInitial := 1, queueSize := some 0 } 0 none : Opt ℚ Nat Nat)
      [.tell (.lst [.num 1]) (.num (.fin 3)) true]).2.2.map fun r => match r with
        | .ok _ => none
        | .error e => some e) = [some .indexError] ∧
    (mkConfig { est := {}, acq := some .EI, acqOptimizer := .sampling, queueSize := some 0 }).isOk = true := by
  refine ⟨by decide +kernel, rfl⟩

end Skopt

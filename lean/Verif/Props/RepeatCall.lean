import Verif.Props.MinimizeArgs
import Verif.Props.Sobol

/-!
# C120: a minimisation does not depend on what was minimised before on the same objects
-/

namespace Skopt

variable {F M R G : Type} [LinearOrder F]

/-! ## Specification -/

/-- One call of a minimize function: the objective, the arguments and the random state. -/
structure MinCall (F M R : Type) where
  func : Objective F
  args : MinArgs F M
  rng : R

/-- The shared objects – the dimensions of the caller's `Space` and the initial point generator – after a
sequence of calls. -/
def afterCalls (A : Arith F) (W : World F M R G) : Shared F G → List (MinCall F M R) → Shared F G
  | sh, [] => sh
  | sh, c :: cs => afterCalls A W (baseMinimize A W sh c.func c.args c.rng).shared cs

/-- Every call returned, or at least came to the point of evaluating the objective (which may have
raised). -/
def AllStarted (A : Arith F) (W : World F M R G) : Shared F G → List (MinCall F M R) → Prop
  | _, [] => True
  | sh, c :: cs =>
    ((baseMinimize A W sh c.func c.args c.rng).trace ≠ [] ∨
      ∃ r, (baseMinimize A W sh c.func c.args c.rng).result = .ok r) ∧
    AllStarted A W (baseMinimize A W sh c.func c.args c.rng).shared cs

/-- The generator after a history of calls of `generate`. -/
def genAfter (W : World F M R G) (g : G) (history : List (List (Dim F) × ℤ × R)) : G :=
  history.foldl (fun g c => (W.generate g c.1 c.2.1 c.2.2).1) g

/-- What `generate` is known to do with the transforms of the dimensions (property C08): set back when it
returns; if it raises, they may be left normalized. -/
structure PutsBack (W : World F M R G) : Prop where
  returns : ∀ g dims n r pts, (∀ d ∈ dims, HasLegalTransform d) →
    (W.generate g dims n r).2.2 = .ok pts → (W.generate g dims n r).2.1 = dims
  raises : ∀ g dims n r e, (∀ d ∈ dims, HasLegalTransform d) →
    (W.generate g dims n r).2.2 = .error e →
    (W.generate g dims n r).2.1 = dims ∨ (W.generate g dims n r).2.1 = dims.map Dim.normalized

/-! ## Lemmas -/

omit [LinearOrder F] in
theorem mkConfig_gp {m : MinArgs F M} {n : ℤ} {cfg : Config} (h : mkConfig (m.optArgs n) = .ok cfg) :
    cfg.isGP = m.opt.est.isGP ∧ cfg.nInitial = n := by
  simp only [mkConfig] at h
  split at h
  · cases h
  · split at h
    · cases h
    · split at h
      · cases h
      · split at h
        · cases h
        · split at h
          · cases h
          · injection h with h
            rw [← h]
            exact ⟨rfl, rfl⟩

omit [LinearOrder F] in
theorem normalized_twice (dims : List (Dim F)) :
    (dims.map Dim.normalized).map Dim.normalized = dims.map Dim.normalized := by
  rw [List.map_map]
  refine List.map_congr_left fun d _ => ?_
  cases d <;> rfl

omit [LinearOrder F] in
theorem normalized_legal {dims : List (Dim F)} (h : ∀ d ∈ dims, HasLegalTransform d) :
    ∀ d ∈ dims.map Dim.normalized, HasLegalTransform d := by
  intro d hd
  obtain ⟨d', hd', rfl⟩ := List.mem_map.1 hd
  have := h d' hd'
  cases d' <;> simp [HasLegalTransform, Dim.normalized] at *

/-- The generator objects of two states of the shared objects: `h'` is `h` after some calls. -/
def GenLater (W : World F M R G) (gen gen' : Option G) : Prop :=
  (gen = none ∧ gen' = none) ∨ ∃ g history, gen = some g ∧ gen' = some (genAfter W g history)

omit [LinearOrder F] in
theorem GenLater.refl (W : World F M R G) (gen : Option G) : GenLater W gen gen := by
  cases gen with
  | none => exact .inl ⟨rfl, rfl⟩
  | some g => exact .inr ⟨g, [], rfl, rfl⟩

omit [LinearOrder F] in
theorem GenLater.trans {W : World F M R G} {a b c : Option G} (h : GenLater W a b) (h' : GenLater W b c) :
    GenLater W a c := by
  rcases h with ⟨rfl, rfl⟩ | ⟨g, l, rfl, rfl⟩
  · rcases h' with ⟨-, rfl⟩ | ⟨g, l, h, -⟩
    · exact .inl ⟨rfl, rfl⟩
    · cases h
  · rcases h' with ⟨h, -⟩ | ⟨g', l', h, rfl⟩
    · cases h
    · cases h
      exact .inr ⟨g, l ++ l', rfl, by simp [genAfter]⟩

omit [LinearOrder F] in
/-- What the constructor does to the shared objects. -/
theorem init_shared {A : Arith F} {W : World F M R G} (hW : PutsBack W) (sh : Shared F G)
    (hl : ∀ d ∈ sh.dims, HasLegalTransform d) (cfg : Config) (rng : R) :
    GenLater W sh.gen (Opt.init (M := M) A W sh cfg rng).1.gen ∧
    ((Opt.init (M := M) A W sh cfg rng).1.dims = sh.dims ∨
      (Opt.init (M := M) A W sh cfg rng).1.dims = sh.dims.map Dim.normalized) ∧
    (cfg.isGP = false → (sh.gen = none ∨ ∃ s, (Opt.init (M := M) A W sh cfg rng).2 = .ok s) →
      (Opt.init (M := M) A W sh cfg rng).1.dims = sh.dims) := by
  have hdims : (if cfg.isGP then Space.setTransformer sh.dims .normalize else .ok sh.dims) =
      .ok (if cfg.isGP then sh.dims.map Dim.normalized else sh.dims) := by
    split
    · exact setTransformer_normalize _
    · rfl
  obtain ⟨dims, hd⟩ : ∃ dims, (if cfg.isGP then sh.dims.map Dim.normalized else sh.dims) = dims := ⟨_, rfl⟩
  have hleg : ∀ d ∈ dims, HasLegalTransform d := by
    rw [← hd]; split
    · exact normalized_legal hl
    · exact hl
  have hor : dims = sh.dims ∨ dims = sh.dims.map Dim.normalized := by
    rw [← hd]; split
    · exact .inr rfl
    · exact .inl rfl
  have hor' : dims.map Dim.normalized = sh.dims ∨ dims.map Dim.normalized = sh.dims.map Dim.normalized := by
    rcases hor with h | h
    · rw [h]; exact .inr rfl
    · rw [h, normalized_twice]; exact .inr rfl
  have hno : cfg.isGP = false → dims = sh.dims := by
    intro h; rw [← hd, h]; rfl
  rw [hd] at hdims
  unfold Opt.init
  simp only [hdims]
  cases hg : sh.gen with
  | none => exact ⟨GenLater.refl _ _, hor, fun h _ => hno h⟩
  | some g =>
    dsimp only
    obtain ⟨q, hq⟩ : ∃ q, W.generate g dims cfg.nInitial (W.seed rng).2 = q := ⟨_, rfl⟩
    have hgl : GenLater W (some g) (some q.1) :=
      .inr ⟨g, [(dims, cfg.nInitial, (W.seed rng).2)], rfl, by simp [genAfter, hq]⟩
    have hok := fun pts => hW.returns g dims cfg.nInitial (W.seed rng).2 pts hleg
    have herr := fun e => hW.raises g dims cfg.nInitial (W.seed rng).2 e hleg
    rw [hq] at hok herr ⊢
    obtain ⟨g', dims', o⟩ := q
    cases o with
    | error e =>
      refine ⟨hgl, ?_, ?_⟩
      · rcases herr e rfl with h | h
        · dsimp only at h ⊢; rw [h]; exact hor
        · dsimp only at h ⊢; rw [h]; exact hor'
      · rintro _ (h | ⟨s, h⟩) <;> cases h
    | ok pts =>
      have h := hok pts rfl
      dsimp only at h ⊢
      rw [h, set_own_transformers hleg]
      exact ⟨hgl, hor, fun h _ => hno h⟩

/-- What a whole call does to the shared objects. -/
theorem call_shared {A : Arith F} {W : World F M R G} (hW : PutsBack W) (sh : Shared F G)
    (hl : ∀ d ∈ sh.dims, HasLegalTransform d) (func : Objective F) (m : MinArgs F M) (rng : R) :
    GenLater W sh.gen (baseMinimize A W sh func m rng).shared.gen ∧
    ((baseMinimize A W sh func m rng).shared.dims = sh.dims ∨
      (baseMinimize A W sh func m rng).shared.dims = sh.dims.map Dim.normalized) ∧
    (m.opt.est.isGP = false → (sh.gen = none ∨ (baseMinimize A W sh func m rng).trace ≠ [] ∨
      ∃ r, (baseMinimize A W sh func m rng).result = .ok r) →
      (baseMinimize A W sh func m rng).shared.dims = sh.dims) := by
  unfold baseMinimize
  split
  · exact ⟨.refl _ _, .inl rfl, fun _ _ => rfl⟩
  · split
    · exact ⟨.refl _ _, .inl rfl, fun _ _ => rfl⟩
    · next x0 n hp cfg hc =>
      have hi := init_shared (A := A) (M := M) hW sh hl cfg rng
      have hgp := (mkConfig_gp hc).1
      split
      · next sh₁ e h =>
        rw [h] at hi
        refine ⟨hi.1, hi.2.1, ?_⟩
        rintro hg (hn | h | ⟨r, h⟩)
        · exact hi.2.2 (by rw [hgp, hg]) (.inl hn)
        · exact absurd rfl h
        · cases h
      · next sh₁ s h =>
        rw [h] at hi
        have h3 : m.opt.est.isGP = false → sh₁.dims = sh.dims := fun h => hi.2.2 (by rw [hgp, h]) (.inr ⟨s, rfl⟩)
        split
        · exact ⟨hi.1, hi.2.1, fun h _ => h3 h⟩
        · split
          · exact ⟨hi.1, hi.2.1, fun h _ => h3 h⟩
          · exact ⟨hi.1, hi.2.1, fun h _ => h3 h⟩

theorem calls_shared {A : Arith F} {W : World F M R G} (hW : PutsBack W) (calls : List (MinCall F M R)) :
    ∀ (sh : Shared F G), (∀ d ∈ sh.dims, HasLegalTransform d) →
    GenLater W sh.gen (afterCalls A W sh calls).gen ∧
    ((afterCalls A W sh calls).dims = sh.dims ∨
      (afterCalls A W sh calls).dims = sh.dims.map Dim.normalized) ∧
    ((∀ c ∈ calls, c.args.opt.est.isGP = false) → (sh.gen = none ∨ AllStarted A W sh calls) →
      (afterCalls A W sh calls).dims = sh.dims) := by
  induction calls with
  | nil => exact fun sh _ => ⟨.refl _ _, .inl rfl, fun _ _ => rfl⟩
  | cons c cs ih =>
    intro sh hl
    obtain ⟨h1, h2, h3⟩ := call_shared (A := A) hW sh hl c.func c.args c.rng
    have hl' : ∀ d ∈ (baseMinimize A W sh c.func c.args c.rng).shared.dims, HasLegalTransform d := by
      rcases h2 with h | h
      · rw [h]; exact hl
      · rw [h]; exact normalized_legal hl
    obtain ⟨i1, i2, i3⟩ := ih _ hl'
    refine ⟨h1.trans i1, ?_, ?_⟩
    · simp only [afterCalls]
      rcases i2 with i | i
      · rw [i]; exact h2
      · rw [i]
        rcases h2 with h | h
        · rw [h]; exact .inr rfl
        · rw [h, normalized_twice]; exact .inr rfl
    · intro hg hs
      simp only [afterCalls]
      have hn : sh.gen = none → (baseMinimize A W sh c.func c.args c.rng).shared.gen = none := by
        intro h
        rcases h1 with ⟨-, h'⟩ | ⟨g, _, h', -⟩
        · exact h'
        · rw [h] at h'; cases h'
      rw [i3 (fun c' hc' => hg c' (List.mem_cons_of_mem _ hc')) (hs.imp hn And.right)]
      exact h3 (hg c List.mem_cons_self) (hs.imp id And.left)

omit [LinearOrder F] in
/-- The constructor gives the same optimizer on later states of the shared objects. -/
theorem init_later {A : Arith F} {W : World F M R G} {sh sh' : Shared F G} {cfg : Config} (rng : R)
    (hd : (if cfg.isGP then sh'.dims.map Dim.normalized else sh'.dims) =
      if cfg.isGP then sh.dims.map Dim.normalized else sh.dims)
    (hg : GenLater W sh.gen sh'.gen)
    (hgen : ∀ g, sh.gen = some g → ∀ history r,
      (W.generate (genAfter W g history) (if cfg.isGP then sh.dims.map Dim.normalized else sh.dims)
        cfg.nInitial r).2 =
      (W.generate g (if cfg.isGP then sh.dims.map Dim.normalized else sh.dims) cfg.nInitial r).2) :
    (Opt.init (M := M) A W sh' cfg rng).2 = (Opt.init (M := M) A W sh cfg rng).2 ∧
    ((∃ s, (Opt.init (M := M) A W sh cfg rng).2 = .ok s) →
      (Opt.init (M := M) A W sh' cfg rng).1.dims = (Opt.init (M := M) A W sh cfg rng).1.dims) := by
  have hdims : ∀ ds : List (Dim F), (if cfg.isGP then Space.setTransformer ds .normalize else .ok ds) =
      .ok (if cfg.isGP then ds.map Dim.normalized else ds) := by
    intro ds
    split
    · exact setTransformer_normalize _
    · rfl
  unfold Opt.init
  simp only [hdims, hd]
  rcases hg with ⟨h1, h2⟩ | ⟨g, history, h1, h2⟩
  · rw [h1, h2]; exact ⟨rfl, fun _ => rfl⟩
  · rw [h1, h2]
    have e := hgen g h1 history (W.seed rng).2
    dsimp only
    generalize (if cfg.isGP then sh.dims.map Dim.normalized else sh.dims) = dims at e ⊢
    generalize W.generate g dims cfg.nInitial (W.seed rng).2 = q at e ⊢
    generalize W.generate (genAfter W g history) dims cfg.nInitial (W.seed rng).2 = q' at e ⊢
    obtain ⟨g₁, ds, o⟩ := q
    obtain ⟨g₂, ds', o'⟩ := q'
    cases e
    cases o with
    | error e => exact ⟨rfl, fun _ => rfl⟩
    | ok pts =>
      dsimp only
      split <;> exact ⟨rfl, fun _ => rfl⟩

/-! ## The property -/

/-- **C120.** After any sequence of earlier calls of the minimize functions on the same `Space` and the same
initial point generator – with other objectives, arguments and random states, whether they returned or not –
a call evaluates the same points, shows its callbacks the same results and returns the same as if it were the
first.

Missing: when this call does not use a Gaussian process, no earlier one may have used one (and every earlier
one must have come as far as evaluating the objective, if there is a generator that raises); and the answers
of the generator must not depend on its history (`hgen`, see C25). -/
theorem C120_history_independent_partial (A : Arith F) (W : World F M R G) (hW : PutsBack W) (sh : Shared F G)
    (hl : ∀ d ∈ sh.dims, HasLegalTransform d) (calls : List (MinCall F M R)) (func : Objective F)
    (m : MinArgs F M) (rng : R)
    (hgen : ∀ g x0 n, sh.gen = some g → m.prepare = .ok (x0, n) → ∀ history r,
      let dims := if m.opt.est.isGP then sh.dims.map Dim.normalized else sh.dims
      (W.generate (genAfter W g history) dims n r).2 = (W.generate g dims n r).2)
    (h : m.opt.est.isGP = true ∨
      (∀ c ∈ calls, c.args.opt.est.isGP = false) ∧ (sh.gen = none ∨ AllStarted A W sh calls)) :
    (baseMinimize A W (afterCalls A W sh calls) func m rng).trace = (baseMinimize A W sh func m rng).trace ∧
    (baseMinimize A W (afterCalls A W sh calls) func m rng).result =
      (baseMinimize A W sh func m rng).result ∧
    (baseMinimize A W (afterCalls A W sh calls) func m rng).callback =
      (baseMinimize A W sh func m rng).callback := by
  obtain ⟨h1, h2, h3⟩ := calls_shared (A := A) hW calls sh hl
  generalize afterCalls A W sh calls = sh' at h1 h2 h3 ⊢
  unfold baseMinimize
  cases hp : m.prepare with
  | error e => exact ⟨rfl, rfl, rfl⟩
  | ok p =>
    obtain ⟨x0, n⟩ := p
    dsimp only
    cases hc : mkConfig (m.optArgs n) with
    | error e => exact ⟨rfl, rfl, rfl⟩
    | ok cfg =>
      dsimp only
      obtain ⟨hgp, hn⟩ := mkConfig_gp hc
      obtain ⟨i1, i2⟩ := init_later (A := A) (M := M) (sh := sh) (sh' := sh') (cfg := cfg) rng
        (by
          rcases h with h | h
          · rw [hgp, h, if_pos rfl, if_pos rfl]
            rcases h2 with h2 | h2
            · rw [h2]
            · rw [h2, normalized_twice]
          · rw [h3 h.1 h.2]) h1
        (by
          rw [hgp, hn]
          exact fun g hg history r => hgen g x0 n hg hp history r)
      generalize Opt.init (M := M) A W sh' cfg rng = q' at i1 i2 ⊢
      generalize Opt.init (M := M) A W sh cfg rng = q at i1 i2 ⊢
      obtain ⟨sh₁, o⟩ := q
      obtain ⟨sh₁', o'⟩ := q'
      dsimp only at i1 i2
      subst i1
      cases o' with
      | error e => exact ⟨rfl, rfl, rfl⟩
      | ok s =>
        dsimp only
        rw [i2 ⟨s, rfl⟩]
        split
        · exact ⟨rfl, rfl, rfl⟩
        · split <;> exact ⟨rfl, rfl, rfl⟩

/-- A world whose initial point generator is `Sobol`. -/
def UsesSobol (A : Arith F) (mod1 : F → F) (shift : R → List F) (W : World F M R Sobol) : Prop :=
  ∀ s dims n r, W.generate s dims n r = s.generate A mod1 dims n.toNat (shift r)

theorem Sobol.generate_frame (A : Arith F) (mod1 : F → F) (s : Sobol) (dims : List (Dim F)) (n : Nat)
    (shift : List F) :
    (s.generate A mod1 dims n shift).2 = (dims, .error .valueError) ∨
    ∃ body, (s.generate A mod1 dims n shift).2 = withNormalized dims body := by
  unfold Sobol.generate
  split
  · exact .inl rfl
  · right
    dsimp only
    split <;> exact ⟨_, rfl⟩

theorem UsesSobol.putsBack {A : Arith F} {mod1 : F → F} {shift : R → List F} {W : World F M R Sobol}
    (h : UsesSobol A mod1 shift W) : PutsBack W := by
  refine ⟨?_, ?_⟩
  · intro s dims n r pts hl hok
    rw [h] at hok ⊢
    rcases Sobol.generate_frame A mod1 s dims n.toNat (shift r) with e | ⟨body, e⟩
    · rw [e] at hok; cases hok
    · rw [e] at hok ⊢; exact withNormalized_restores _ hl _ hok
  · intro s dims n r e hl herr
    rw [h] at herr ⊢
    rcases Sobol.generate_frame A mod1 s dims n.toNat (shift r) with e' | ⟨body, e'⟩
    · rw [e']; exact .inl rfl
    · rw [e', withNormalized_eq hl] at herr ⊢
      split at herr
      · cases herr
      · exact .inr rfl

/-- **C120 (Sobol).** For the Sobol generator without `skip` the answers never depend on the history, so for up
to forty dimensions nothing but the transforms is left to consider. -/
theorem C120_sobol_partial (A : Arith F) (mod1 : F → F) (shift : R → List F) (W : World F M R Sobol)
    (hW : UsesSobol A mod1 shift W) (dims : List (Dim F)) (hl : ∀ d ∈ dims, HasLegalTransform d)
    (h1 : 1 ≤ dims.length) (h40 : dims.length ≤ 40) (randomize : Bool) (s₀ : Sobol)
    (hs : Sobol.new 0 randomize = .ok s₀) (calls : List (MinCall F M R)) (func : Objective F)
    (m : MinArgs F M) (rng : R)
    (hn : ∀ x0 n, m.prepare = .ok (x0, n) → 1 ≤ n ∧ n ≤ 2 ^ 30 - 1)
    (h : m.opt.est.isGP = true ∨
      (∀ c ∈ calls, c.args.opt.est.isGP = false) ∧ AllStarted A W ⟨dims, some s₀⟩ calls) :
    (baseMinimize A W (afterCalls A W ⟨dims, some s₀⟩ calls) func m rng).trace =
      (baseMinimize A W ⟨dims, some s₀⟩ func m rng).trace ∧
    (baseMinimize A W (afterCalls A W ⟨dims, some s₀⟩ calls) func m rng).result =
      (baseMinimize A W ⟨dims, some s₀⟩ func m rng).result := by
  have key := C120_history_independent_partial A W hW.putsBack ⟨dims, some s₀⟩ hl calls func m rng ?_
    (h.imp id fun h => ⟨h.1, .inr h.2⟩)
  · exact ⟨key.1, key.2.1⟩
  intro g x0 n hg hp history r
  cases hg
  obtain ⟨hn1, hn2⟩ := hn x0 n hp
  have e : genAfter W s₀ history =
      s₀.run A mod1 (history.map fun c => (c.1, c.2.1.toNat, shift c.2.2)) := by
    rw [genAfter, Sobol.run, List.foldl_map]
    congr 1
    funext s c
    rw [hW]
  intro ds
  have hlen : ds.length = dims.length := by
    show (if _ then _ else _ : List (Dim F)).length = _
    split <;> simp
  rw [e, hW, hW]
  exact C25_history_independent_partial A mod1 0 randomize s₀ hs _ ds n.toNat (shift r) (by omega) (by omega)
    (by omega) (by omega) (by simp)

/-- `Integer(0, 10)` with its default transform. -/
def tenDims : List (Dim ℚ) := [.int ⟨0, 10, .uniform, 10, .identity, none, id⟩]

/-- A random search with three evaluations. -/
def threeCalls : MinArgs ℚ Nat :=
  { toyMin .none with
    x0 := .none, nCalls := 3
    opt := { (toyMin .none).opt with est := { isGP := false, hasGradients := true } } }

/-- The same with a Gaussian process. -/
def threeCallsGP : MinArgs ℚ Nat := { toyMin .none with x0 := .none, nCalls := 3 }

/-- A search without Gaussian process, repeated after two others with different objectives and seeds, of which the
last was stopped by its objective.
Meets the hypotheses of `C120_history_independent_partial` and `C120_sobol_partial`. -/
example :
    let calls : List (MinCall ℚ Nat Nat) := [⟨countingObjective, threeCalls, 5⟩,
      ⟨fun _ _ => .error .valueError, threeCalls, 8⟩]
    UsesSobol ratArith id (fun _ => []) sobolWorld ∧
    (∀ d ∈ tenDims, HasLegalTransform d) ∧ Sobol.new 0 false = .ok { randomize := false } ∧
    threeCalls.prepare = .ok ([], 2) ∧ (∀ c ∈ calls, c.args.opt.est.isGP = false) ∧
    AllStarted ratArith sobolWorld ⟨tenDims, some { randomize := false }⟩ calls := by
  refine ⟨fun _ _ _ _ => rfl, ?_, rfl, rfl, ?_, ?_⟩
  · intro d hd
    simp only [tenDims, List.mem_singleton] at hd
    subst hd
    exact Or.inl rfl
  · intro c hc
    simp only [List.mem_cons, List.not_mem_nil, or_false] at hc
    rcases hc with rfl | rfl <;> rfl
  · refine ⟨.inl ?_, .inl ?_, trivial⟩ <;> decide +kernel

/-- **C120 is false for a search without Gaussian process after one with**: the first search leaves the dimensions of
the caller's `Space` normalized, and the second – same arguments, same seed – samples other points. -/
theorem C120_refuted_gp_before :
    let sh : Shared ℚ Unit := ⟨tenDims, none⟩
    evalsOf (baseMinimize ratArith okWorld sh countingObjective threeCalls 0).trace ≠
      evalsOf (baseMinimize ratArith okWorld
        (afterCalls ratArith okWorld sh [⟨countingObjective, threeCallsGP, 3⟩]) countingObjective
        threeCalls 0).trace := by
  decide +kernel

/-- **C120 is false with `Sobol(skip=2)`**: of two identical calls with the same generator object the first
returns, the second raises `ValueError` before it evaluates anything. -/
theorem C120_refuted_sobol_skip :
    let sh : Shared ℚ Sobol := ⟨tenDims, some { skip := 2, randomize := false }⟩
    let c : MinCall ℚ Nat Nat := ⟨countingObjective, threeCalls, 3⟩
    (evalsOf (baseMinimize ratArith sobolWorld sh c.func c.args c.rng).trace).length = 3 ∧
    (baseMinimize ratArith sobolWorld (afterCalls ratArith sobolWorld sh [c]) c.func c.args c.rng).trace.length
      = 0 := by
  refine ⟨?_, ?_⟩ <;> decide +kernel

end Skopt

import Verif.Model.Reporting
import Verif.Props.Minimize
import Verif.Props.GpPlot
import Verif.Lemmas.LiveRun

/-!
# What callbacks are shown, also in runs that end with an exception
-/

namespace Skopt

variable {F M R G : Type}

/-- `P` holds for every result shown in `t`, together with the points evaluated until then (`pre` were
evaluated before). -/
def Seen (P : List (Val F) → Result F M → Prop) : List (Val F) → List (Event F M) → Prop
  | _, [] => True
  | pre, .eval x :: t => Seen P (pre ++ [x]) t
  | pre, .call _ r _ :: t => P pre r ∧ Seen P pre t

theorem seen_append {P : List (Val F) → Result F M → Prop} {pre : List (Val F)} {a b : List (Event F M)} :
    Seen P pre (a ++ b) ↔ Seen P pre a ∧ Seen P (pre ++ evalsOf a) b := by
  induction a generalizing pre with
  | nil => simp [Seen, evalsOf]
  | cons e a ih =>
    cases e with
    | eval x =>
      rw [List.cons_append, evalsOf_eval_cons]
      simp only [Seen, ih]
      simp
    | call i r d =>
      rw [List.cons_append, evalsOf_call_cons]
      simp only [Seen, ih, and_assoc]

theorem Seen.at {P : List (Val F) → Result F M → Prop} {pre : List (Val F)} {t a b : List (Event F M)} {i : Nat}
    {r : Result F M} {d : Except PyErr (Option Bool)} (h : Seen P pre t) (e : t = a ++ .call i r d :: b) :
    P (pre ++ evalsOf a) r := by
  subst e
  exact (seen_append.1 h).2.1

theorem seen_evals {P : List (Val F) → Result F M → Prop} {pre : List (Val F)} {t : List (Event F M)}
    (h : ∀ e ∈ t, ∃ x, e = .eval x) : Seen P pre t := by
  induction t generalizing pre with
  | nil => trivial
  | cons e t ih =>
    obtain ⟨x, rfl⟩ := h e List.mem_cons_self
    exact ih fun e he => h e (List.mem_cons_of_mem _ he)

theorem seen_calls {P : List (Val F) → Result F M → Prop} {pre : List (Val F)} {hist : List (Result F M)}
    {r : Result F M} (cbs : List (Callback F M)) (i : Nat) (stop : Bool) (h : P pre r) :
    Seen P pre (evalCallbacks hist r cbs i stop).1 := by
  induction cbs generalizing i stop with
  | nil => trivial
  | cons c cs ih =>
    simp only [evalCallbacks]
    cases c hist with
    | error e => exact ⟨h, trivial⟩
    | ok d => exact ⟨h, ih _ _⟩

section
variable [LinearOrder F]

/-- The record of a run in which `pre` were evaluated: preceded by given observations, and with surrogates
from the `n₀`-th evaluation on. -/
def RunRecord (W : World F M R G) (cfg : Config) (func : Objective F) (Xg : List (Val F)) (yg : List (YArg F))
    (n₀ : ℤ) (pre : List (Val F)) (r : Result F M) : Prop :=
  ∃ ys ys' ms, Answers func [] pre ys ∧ List.Forall₂ (OnRecord W cfg.acq) ys ys' ∧
    createResult (Xg ++ pre) (yg ++ ys') ms = .ok r ∧ (∀ x ∈ Xg ++ pre, ∃ p, x = Val.seq p) ∧
    (cfg.hasEst = true → (ms = [] ↔ (pre.length : ℤ) < n₀))

/-- What holds of the optimizer in the loop. -/
structure LoopInv (W : World F M R G) (cfg : Config) (func : Objective F) (Xg : List (Val F)) (yg : List (YArg F))
    (n₀ : ℤ) (done : List (Val F)) (s : Opt F M R) : Prop where
  cfg_eq : s.cfg = cfg
  recorded : ∃ ys ys', Answers func [] done ys ∧ List.Forall₂ (OnRecord W cfg.acq) ys ys' ∧ s.Xi = Xg ++ done ∧
    s.yi = yg ++ ys'
  seqs : ∀ x ∈ Xg ++ done, ∃ p, x = Val.seq p
  left : s.nInit = n₀ - done.length
  models : cfg.hasEst = true → (s.models = [] ↔ 0 < s.nInit)

/-- The models after a `tell`. -/
theorem tell_models_iff {A : Arith F} {W : World F M R G} {dims : List (Dim F)} {s : Opt F M R} {x : XArg F}
    {y : YArg F} {r : Result F M} (h : (tell A W dims s x y true).2 = .ok r)
    (hs : s.cfg.hasEst = true → s.models = [] ∨ s.nInit ≤ 0)
    (hle : (tell A W dims s x y true).1.nInit ≤ s.nInit) :
    s.cfg.hasEst = true → ((tell A W dims s x y true).1.models = [] ↔ 0 < (tell A W dims s x y true).1.nInit) := by
  intro he
  obtain ⟨y', u, _, _, c1, c2, c3, c4, h5⟩ := tell_models h
  rcases h5 with ⟨_, b2, _, m, b4, _⟩ | ⟨b0, b1⟩
  · have := pushModel_ne_nil b4
    constructor
    · intro hc; exact absurd hc this
    · intro hc; rw [c4] at hc; omega
  · have hu : 0 < u.nInit := by
      by_contra hn
      exact b0 ⟨rfl, by omega, he⟩
    rw [c4] at hle ⊢
    rw [b1]
    rcases hs he with h0 | h0
    · exact ⟨fun _ => hu, fun _ => h0⟩
    · omega

theorem LoopInv.step {A : Arith F} {W : World F M R G} {dims : List (Dim F)} {cfg : Config} {func : Objective F}
    {Xg : List (Val F)} {yg : List (YArg F)} {n₀ : ℤ} {done : List (Val F)} {s s₁ s₂ : Opt F M R} {x : Point F}
    {y : YArg F} {r : Result F M} (hs : LoopInv W cfg func Xg yg n₀ done s)
    (hask : askOne A W dims s = (s₁, .ok x)) (hy : func done (.seq x) = .ok y)
    (htell : tell A W dims s₁ (.lst x) y true = (s₂, .ok r)) (hx : Flat x) :
    LoopInv W cfg func Xg yg n₀ (done ++ [.seq x]) s₂ ∧ RunRecord W cfg func Xg yg n₀ (done ++ [.seq x]) r := by
  obtain ⟨rng', hs1⟩ := askOne_frame A W dims s
  rw [hask] at hs1
  simp only at hs1
  have ht2 : (tell A W dims s₁ (.lst x) y true).1 = s₂ := by rw [htell]
  have hr2 : (tell A W dims s₁ (.lst x) y true).2 = .ok r := by rw [htell]
  obtain ⟨ys, ys', k1, k2, k3, k4⟩ := hs.recorded
  have hl := hs.left
  have hn : s₂.nInit = s.nInit - 1 := by
    obtain ⟨y₂, u, _, hu, c1, c2, c3, c4, -⟩ := tell_models hr2
    have hu' : u = record.single s₁ x y₂ := by
      unfold record at hu
      simp only [is2D_false_of_flat hx, Bool.and_false, Bool.false_eq_true, if_false] at hu
      split at hu <;> exact (Except.ok.inj hu).symm
    rw [ht2] at c4
    rw [c4, hu', hs1]; rfl
  have hm := tell_models_iff hr2
    (by
      intro he
      rw [hs1] at he ⊢
      have hi := hs.models (by rw [← hs.cfg_eq]; exact he)
      by_cases h0 : 0 < s.nInit
      · exact Or.inl (hi.2 h0)
      · exact Or.inr (by show s.nInit ≤ 0; omega))
    (by rw [ht2, hn, hs1]; show s.nInit - 1 ≤ s.nInit; omega)
  rcases tell_one A W dims s₁ hx y true with ⟨e, he⟩ | ⟨y', h1, _, h2, h3⟩
  · rw [he] at hr2; cases hr2
  · rw [h2] at hr2 ht2
    have hf := tellCore_frame A W dims s₁ (.lst x) y' true h3
    have hg := (tellCore_ok hr2).1
    rw [ht2] at hf hg
    rw [h2, ht2] at hm
    have hcfg : s₂.cfg = cfg := by rw [hf.1, ← hs.cfg_eq, hs1]; rfl
    have hm' : cfg.hasEst = true → (s₂.models = [] ↔ 0 < s₂.nInit) := by
      intro he; exact hm (by rw [hs1, ← he, ← hs.cfg_eq])
    have hXi : s₂.Xi = Xg ++ (done ++ [.seq x]) := by
      rw [hf.4, hs1]
      show s.Xi ++ [.seq x] = _
      rw [k3, List.append_assoc]
    have hyi : s₂.yi = yg ++ (ys' ++ [y']) := by
      rw [hf.5, hs1]
      show s.yi ++ [y'] = _
      rw [k4, List.append_assoc]
    have h1' : OnRecord W cfg.acq y y' := by
      rw [hs1] at h1
      rw [← hs.cfg_eq]
      exact h1
    have ha : Answers func [] (done ++ [.seq x]) (ys ++ [y]) := answers_append k1 ⟨by simpa using hy, trivial⟩
    have hl2 : s₂.nInit = n₀ - ((done ++ [Val.seq x]).length : ℕ) := by
      rw [hn, hl, List.length_append, List.length_singleton]; push_cast; omega
    have hrel := List.rel_append k2 (List.Forall₂.cons h1' .nil)
    have hseq : ∀ z ∈ Xg ++ (done ++ [Val.seq x]), ∃ p, z = Val.seq p := by
      intro z hz
      rw [← List.append_assoc] at hz
      rcases List.mem_append.1 hz with hz | hz
      · exact hs.seqs z hz
      · exact ⟨x, List.mem_singleton.1 hz⟩
    refine ⟨⟨hcfg, ⟨_, _, ha, hrel, hXi, hyi⟩, hseq, hl2, hm'⟩, ⟨_, _, s₂.models, ha, hrel, ?_, hseq, ?_⟩⟩
    · rw [← hXi, ← hyi]; exact hg
    · intro he
      rw [hm' he, hl2]
      constructor <;> intro _ <;> omega

theorem minimizeLoop_seen {A : Arith F} {W : World F M R G} {dims : List (Dim F)} {cfg : Config}
    {func : Objective F} {Xg : List (Val F)} {yg : List (YArg F)} {n₀ : ℤ} {cbs : List (Callback F M)} (n : Nat)
    {done : List (Val F)} {hist : List (Result F M)} {s : Opt F M R} {last : Option (Result F M)}
    (hs : LoopInv W cfg func Xg yg n₀ done s)
    (hflat : ∀ p, Val.seq p ∈ evalsOf (minimizeLoop A W dims func cbs n done hist s last).1 → Flat p) :
    Seen (RunRecord W cfg func Xg yg n₀) done (minimizeLoop A W dims func cbs n done hist s last).1 := by
  induction n generalizing done hist s last with
  | zero => trivial
  | succ n ih =>
    simp only [minimizeLoop] at hflat ⊢
    generalize hask : askOne A W dims s = q at hflat ⊢
    obtain ⟨s₁, _ | x⟩ := q
    · trivial
    · simp only at hflat ⊢
      cases hy : func done (.seq x) with
      | error e => trivial
      | ok y =>
        simp only [hy] at hflat ⊢
        generalize htell : tell A W dims s₁ (.lst x) y true = q at hflat ⊢
        obtain ⟨s₂, _ | r⟩ := q
        · exact trivial
        · simp only at hflat ⊢
          have hc := seen_calls (P := RunRecord W cfg func Xg yg n₀) (pre := done ++ [.seq x]) (hist := hist ++ [r])
            (r := r) cbs 0 false
          have hn := (evalCallbacks_spec (hist ++ [r]) r cbs 0 false).2.2
          generalize hcb : evalCallbacks (hist ++ [r]) r cbs 0 false = q at hflat hc hn ⊢
          obtain ⟨t₁, _ | _ | _⟩ := q
          · obtain ⟨-, j2⟩ := hs.step hask hy htell (hflat x (by simp [evalsOf_eval_cons]))
            exact hc j2
          · simp only at hflat hn ⊢
            obtain ⟨j1, j2⟩ := hs.step hask hy htell (hflat x (by simp [evalsOf_eval_cons]))
            show Seen _ (done ++ [.seq x]) (t₁ ++ _)
            rw [seen_append]
            refine ⟨hc j2, ?_⟩
            rw [hn, List.append_nil]
            refine ih j1 fun p hp => hflat p ?_
            rw [evalsOf_eval_cons, evalsOf_append]
            simp [hp]
          · obtain ⟨-, j2⟩ := hs.step hask hy htell (hflat x (by simp [evalsOf_eval_cons]))
            exact hc j2

/-- The record right after the starting points. -/
theorem LoopInv.start {A : Arith F} {W : World F M R G} {dims : List (Dim F)} {cfg : Config} {func : Objective F}
    {rg : R} {pts : Option (List (Point F))} {ps : List (Point F)} {ys : List (YArg F)}
    (hl : ys.length = ps.length) {s₂ : Opt F M R} {r : Result F M}
    (htell : tell A W dims (Opt.fresh A cfg rg pts : Opt F M R) (.lst (ps.map Val.seq)) (.seq ys) true = (s₂, .ok r)) :
    (Answers func [] (ps.map Val.seq) ys →
      LoopInv W cfg func [] [] cfg.nInitial (ps.map Val.seq) s₂ ∧
      RunRecord W cfg func [] [] cfg.nInitial (ps.map Val.seq) r) ∧
    ∃ yg, List.Forall₂ (OnRecord W cfg.acq) ys yg ∧
      LoopInv W cfg func (ps.map Val.seq) yg (cfg.nInitial - ps.length) [] s₂ ∧
      RunRecord W cfg func (ps.map Val.seq) yg (cfg.nInitial - ps.length) [] r := by
  have hobs : ps.map Val.seq = (ps.zip ys).map (fun o => Val.seq o.1) ∧ ys = (ps.zip ys).map Prod.snd := by
    constructor
    · have := List.map_fst_zip (l₁ := ps) (l₂ := ys) (by rw [hl])
      conv_lhs => rw [← this]
      rw [List.map_map]; rfl
    · rw [List.map_snd_zip]
      rw [hl]
  have hr2 : (tell A W dims (Opt.fresh A cfg rg pts : Opt F M R) (.lst (ps.map Val.seq)) (.seq ys) true).2 = .ok r := by
    rw [htell]
  have hb := tell_batch A W dims (Opt.fresh A cfg rg pts : Opt F M R) (ps.zip ys) true
  rw [← hobs.1, ← hobs.2] at hb
  rcases hb with ⟨e, he⟩ | ⟨ys', b1, _, b3, b4⟩
  · rw [he] at htell; cases htell
  · have hlen' : ys'.length = ps.length := by rw [← hl]; exact (List.Forall₂.length_eq b1).symm
    have hn : s₂.nInit = cfg.nInitial - ps.length := by
      have hf := tellCore_frame A W dims (Opt.fresh A cfg rg pts : Opt F M R) (.lst (ps.map Val.seq)) (.seq ys') true b4
      rw [← b3, htell] at hf
      rw [hf.2]
      show cfg.nInitial - (ys'.length : ℤ) = _
      rw [hlen']
    have hm := tell_models_iff hr2 (fun _ => Or.inl rfl) (by
      rw [htell, hn]; show cfg.nInitial - (ps.length : ℤ) ≤ cfg.nInitial; omega)
    rw [htell] at hm
    have hm' : cfg.hasEst = true → (s₂.models = [] ↔ 0 < s₂.nInit) := hm
    rw [b3] at htell
    have hf := tellCore_frame A W dims (Opt.fresh A cfg rg pts : Opt F M R) (.lst (ps.map Val.seq)) (.seq ys') true b4
    have hg := (tellCore_ok (congrArg Prod.snd htell)).1
    rw [htell] at hf hg
    have hXi : s₂.Xi = ps.map Val.seq := by rw [hf.4]; rfl
    have hyi : s₂.yi = ys' := by rw [hf.5]; rfl
    have hcr : createResult (ps.map Val.seq) ys' s₂.models = .ok r := by rw [← hXi, ← hyi]; exact hg
    constructor
    · intro ha
      refine ⟨⟨hf.1, ⟨ys, ys', ha, b1, by simpa using hXi, by simpa using hyi⟩, by simp, ?_, hm'⟩,
        ⟨ys, ys', s₂.models, ha, b1, by simpa using hcr, by simp, ?_⟩⟩
      · rw [hn, List.length_map]
      · intro he
        rw [hm' he, hn, List.length_map]
        constructor <;> intro _ <;> omega
    · refine ⟨ys', b1, ⟨hf.1, ⟨[], [], trivial, .nil, by simpa using hXi, by simpa using hyi⟩,
          by simp, ?_, hm'⟩,
        ⟨[], [], s₂.models, trivial, .nil, by simpa using hcr, by simp, ?_⟩⟩
      · rw [hn]; simp
      · intro he
        rw [hm' he, hn]
        simp

theorem minimizeBody_seen {A : Arith F} {W : World F M R G} {dims : List (Dim F)} {cfg : Config} {func : Objective F}
    {cbs : List (Callback F M)} {nCalls : ℤ} {ps : List (Point F)} {y0 : Y0 F} {rg : R}
    {pts : Option (List (Point F))} (hpos : ps = [] → 0 < cfg.nInitial)
    (hflat : ∀ p, Val.seq p ∈ evalsOf (minimizeBody A W dims func cbs nCalls (ps.map Val.seq) y0
      (Opt.fresh A cfg rg pts : Opt F M R)).1 → Flat p) :
    ∃ Xg yg n₀, Seen (RunRecord W cfg func Xg yg n₀) [] (minimizeBody A W dims func cbs nCalls (ps.map Val.seq) y0
        (Opt.fresh A cfg rg pts : Opt F M R)).1 ∧
      (y0 = .none → Xg = [] ∧ yg = [] ∧ n₀ = cfg.nInitial) ∧
      (y0 ≠ .none → Xg = ps.map Val.seq ∧ n₀ = cfg.nInitial - ps.length ∧
        (ps = [] → yg = []) ∧ (ps ≠ [] → (minimizeBody A W dims func cbs nCalls (ps.map Val.seq) y0
        (Opt.fresh A cfg rg pts : Opt F M R)).1 ≠ [] → List.Forall₂ (OnRecord W cfg.acq) y0.given yg)) := by
  unfold minimizeBody at hflat ⊢
  by_cases hx : ps = []
  · subst hx
    simp only [List.map_nil, List.isEmpty_nil, if_true] at hflat ⊢
    refine ⟨[], [], cfg.nInitial, minimizeLoop_seen _ ?_ hflat, fun _ => ⟨rfl, rfl, rfl⟩,
      fun _ => ⟨rfl, by simp, fun _ => rfl, fun h => absurd rfl h⟩⟩
    refine ⟨rfl, ⟨[], [], trivial, .nil, rfl, rfl⟩, by simp, by simp [Opt.fresh], fun _ => ?_⟩
    exact ⟨fun _ => hpos rfl, fun _ => rfl⟩
  · have hxe : (ps.map (Val.seq (F := F))).isEmpty = false := by
      cases ps with
      | nil => exact absurd rfl hx
      | cons _ _ => rfl
    simp only [hxe, Bool.false_eq_true, if_false] at hflat ⊢
    have hsv : ∀ t o, startValues (M := M) func (ps.map Val.seq) y0 = (t, o) →
        (∀ e ∈ t, ∃ x, e = .eval x) ∧
        (∀ ys, o = .ok ys → evalsOf t = evaluatedFirst (ps.map Val.seq) y0 ∧ ys.length = ps.length ∧
          (y0 = .none → Answers func [] (ps.map Val.seq) ys) ∧ (y0 ≠ .none → ys = y0.given ∧ t = [])) ∧
        (y0 ≠ .none → t = []) := by
      intro t o h
      unfold startValues at h
      cases y0 with
      | none =>
        simp only [Y0.values] at h
        obtain ⟨g1, g2⟩ := evalAll_spec (M := M) func [] (ps.map Val.seq)
        rw [h] at g1 g2
        refine ⟨g2, ?_, fun hc => absurd rfl hc⟩
        rintro ys rfl
        obtain ⟨k1, k2⟩ := g1 ys rfl
        simp only at k1
        refine ⟨?_, ?_, fun _ => k2, fun hc => absurd rfl hc⟩
        · rw [k1, evalsOf_evals]; rfl
        · rw [answers_length k2, List.length_map]
      | iter ys =>
        simp only [Y0.values, Prod.mk.injEq] at h
        obtain ⟨rfl, h⟩ := h
        refine ⟨by simp, ?_, fun _ => rfl⟩
        rintro zs rfl
        split at h
        · cases h
        · next hl =>
          cases h
          exact ⟨rfl, by simpa using (not_not.1 hl).symm, fun hc => (by cases hc), fun _ => ⟨rfl, rfl⟩⟩
      | num y =>
        simp only [Y0.values, Prod.mk.injEq] at h
        obtain ⟨rfl, h⟩ := h
        refine ⟨by simp, ?_, fun _ => rfl⟩
        rintro zs rfl
        split at h
        · cases h
        · next hl =>
          cases h
          exact ⟨rfl, by simpa using (not_not.1 hl).symm, fun hc => (by cases hc), fun _ => ⟨rfl, rfl⟩⟩
      | other =>
        simp only [Y0.values, Prod.mk.injEq] at h
        obtain ⟨rfl, rfl⟩ := h
        exact ⟨by simp, fun ys hc => (by cases hc), fun _ => rfl⟩
    generalize startValues (M := M) func (ps.map Val.seq) y0 = q at hflat hsv ⊢
    obtain ⟨t₀, o⟩ := q
    obtain ⟨v1, v2, v3⟩ := hsv t₀ o rfl
    -- a run that shows nothing
    have quiet : ∃ Xg yg n₀, Seen (RunRecord W cfg func Xg yg n₀) [] t₀ ∧
        (y0 = .none → Xg = [] ∧ yg = [] ∧ n₀ = cfg.nInitial) ∧
        (y0 ≠ .none → Xg = ps.map Val.seq ∧ n₀ = cfg.nInitial - ps.length ∧ (ps = [] → yg = []) ∧
          (ps ≠ [] → t₀ ≠ [] → List.Forall₂ (OnRecord W cfg.acq) y0.given yg)) := by
      by_cases hy : y0 = .none
      · exact ⟨[], [], cfg.nInitial, seen_evals v1, fun _ => ⟨rfl, rfl, rfl⟩, fun hc => absurd hy hc⟩
      · refine ⟨ps.map Val.seq, [], cfg.nInitial - ps.length, seen_evals v1, fun hc => absurd hc hy,
          fun _ => ⟨rfl, rfl, fun _ => rfl, fun _ hne => ?_⟩⟩
        exact absurd (v3 hy) hne
    cases o with
    | error e => simp only; exact quiet
    | ok ys =>
      simp only at hflat ⊢
      obtain ⟨k1, k2, k3, k4⟩ := v2 ys rfl
      generalize htell : tell A W dims (Opt.fresh A cfg rg pts : Opt F M R) (.lst (ps.map Val.seq)) (.seq ys) true = q
        at hflat ⊢
      obtain ⟨s₂, _ | r⟩ := q
      · exact quiet
      · simp only at hflat ⊢
        obtain ⟨i1, yg, i2, i3, i4⟩ := LoopInv.start (func := func) k2 htell
        -- the two readings of the starting points
        have key : ∃ Xg yg' n₀, LoopInv W cfg func Xg yg' n₀ (evaluatedFirst (ps.map Val.seq) y0) s₂ ∧
            RunRecord W cfg func Xg yg' n₀ (evaluatedFirst (ps.map Val.seq) y0) r ∧
            (y0 = .none → Xg = [] ∧ yg' = [] ∧ n₀ = cfg.nInitial) ∧
            (y0 ≠ .none → Xg = ps.map Val.seq ∧ n₀ = cfg.nInitial - ps.length ∧
              List.Forall₂ (OnRecord W cfg.acq) y0.given yg') := by
          by_cases hy : y0 = .none
          · obtain ⟨j1, j2⟩ := i1 (k3 hy)
            subst hy
            exact ⟨[], [], cfg.nInitial, j1, j2, fun _ => ⟨rfl, rfl, rfl⟩, fun hc => absurd rfl hc⟩
          · have he : evaluatedFirst (ps.map (Val.seq (F := F))) y0 = [] := by
              rw [← k1, (k4 hy).2]; rfl
            rw [he]
            exact ⟨_, yg, _, i3, i4, fun hc => absurd hc hy, fun _ => ⟨rfl, rfl, (k4 hy).1 ▸ i2⟩⟩
        obtain ⟨Xg, yg', n₀, m1, m2, m3, m4⟩ := key
        have hc := seen_calls (P := RunRecord W cfg func Xg yg' n₀) (pre := evaluatedFirst (ps.map Val.seq) y0)
          (hist := [r]) cbs 0 false m2
        have hn := (evalCallbacks_spec [r] r cbs 0 false).2.2
        have wrap : ∀ t, Seen (RunRecord W cfg func Xg yg' n₀) (evaluatedFirst (ps.map Val.seq) y0) t →
            ∃ Xg yg n₀, Seen (RunRecord W cfg func Xg yg n₀) [] (t₀ ++ t) ∧
              (y0 = .none → Xg = [] ∧ yg = [] ∧ n₀ = cfg.nInitial) ∧
              (y0 ≠ .none → Xg = ps.map Val.seq ∧ n₀ = cfg.nInitial - ps.length ∧ (ps = [] → yg = []) ∧
                (ps ≠ [] → t₀ ++ t ≠ [] →
                  List.Forall₂ (OnRecord W cfg.acq) y0.given yg)) := by
          intro t ht
          refine ⟨Xg, yg', n₀, ?_, m3, fun hy => ⟨(m4 hy).1, (m4 hy).2.1, fun hc => absurd hc hx,
            fun _ _ => (m4 hy).2.2⟩⟩
          rw [seen_append]
          refine ⟨seen_evals v1, ?_⟩
          rw [List.nil_append, k1]
          exact ht
        generalize hcb : evalCallbacks [r] r cbs 0 false = q at hflat hc hn ⊢
        obtain ⟨t₁, _ | _ | _⟩ := q
        · exact wrap _ hc
        · simp only at hflat hn ⊢
          refine wrap _ ?_
          rw [seen_append]
          refine ⟨hc, ?_⟩
          rw [hn, List.append_nil]
          refine minimizeLoop_seen _ m1 fun p hp => hflat p ?_
          rw [evalsOf_append, evalsOf_append]
          exact List.mem_append_right _ (List.mem_append_right _ hp)
        · exact wrap _ hc

end

end Skopt

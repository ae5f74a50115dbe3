import Verif.Lemmas.Units
import Verif.Props.Suggestion
import Verif.Model.ExampleWorld

/-!
# C101 – the search does not depend on names, units and spellings
-/

namespace Skopt

variable {M R G : Type}

theorem UnitChange.flat {d d' : Dim ℝ} {f : Val ℝ → Val ℝ} (h : UnitChange d d' f) {v : Val ℝ}
    (hv : Within d v) : v.isSeq = false := by
  induction h generalizing v with
  | @name d nm hval hd =>
    cases d with
    | real r => obtain ⟨x, rfl, _⟩ := hv; rfl
    | int r => obtain ⟨x, rfl, _⟩ := hv; rfl
    | cat c => exact hval.2.2.1 v hv
  | linear => obtain ⟨x, rfl, _⟩ := hv; rfl
  | power => obtain ⟨x, rfl, _⟩ := hv; rfl
  | shift => obtain ⟨x, rfl, _⟩ := hv; rfl
  | base => obtain ⟨x, rfl, _⟩ := hv; rfl
  | onehot pr nm str str' cs cs' hf hne hnd hh => exact hh.1 v hv
  | normalized pr nm str str' cs cs' hf hle hne hnd hh => exact hh.1 v hv
  | trans _ _ ih _ => exact ih hv

theorem UnitChange.legalTransform {d d' : Dim ℝ} {f : Val ℝ → Val ℝ} (h : UnitChange d d' f) :
    HasLegalTransform d ∧ HasLegalTransform d' := by
  induction h with
  | @name d nm hval hd =>
    have := hval.legalTransform
    cases d with
    | real r => exact ⟨this, this⟩
    | int r => exact ⟨this, this⟩
    | cat c => exact ⟨this, this⟩
  | linear => exact ⟨.inr rfl, .inr rfl⟩
  | power => exact ⟨.inr rfl, .inr rfl⟩
  | shift => exact ⟨.inr rfl, .inr rfl⟩
  | base => exact ⟨.inr rfl, .inr rfl⟩
  | onehot => exact ⟨trivial, trivial⟩
  | normalized => exact ⟨trivial, trivial⟩
  | trans _ _ ih ih' => exact ⟨ih.1, ih'.2⟩

theorem UnitChanges.legal {ds ds' : List (Dim ℝ)} {fs : List (Val ℝ → Val ℝ)} (h : UnitChanges ds ds' fs) :
    (∀ d ∈ ds, HasLegalTransform d) ∧ ∀ d ∈ ds', HasLegalTransform d := by
  induction h with
  | nil => simp
  | cons h _ ih =>
    exact ⟨List.forall_mem_cons.2 ⟨h.legalTransform.1, ih.1⟩,
      List.forall_mem_cons.2 ⟨h.legalTransform.2, ih.2⟩⟩

theorem UnitChanges.flatSpace {ds ds' : List (Dim ℝ)} {fs : List (Val ℝ → Val ℝ)} (h : UnitChanges ds ds' fs)
    (hne : ds ≠ []) : FlatSpace ds := by
  intro p hp
  cases h with
  | nil => exact absurd rfl hne
  | cons h _ =>
    cases hp with
    | cons h1 _ => simp [is2D, h.flat h1]

theorem UnitChanges.samplers {ds ds' : List (Dim ℝ)} {fs : List (Val ℝ → Val ℝ)} (h : UnitChanges ds ds' fs) :
    ds'.map (Dim.sampler exact) = ds.map (Dim.sampler exact) := by
  induction h with
  | nil => rfl
  | cons h _ ih => rw [List.map_cons, List.map_cons, ih, h.rescaled.sampler]

theorem sameDraws_of {W : World ℝ M R G} (hW : UnitFree exact W) {ds ds' : List (Dim ℝ)}
    {fs : List (Val ℝ → Val ℝ)} (h : UnitChanges ds ds' fs) (hg : SameDesigns W ds ds' fs) :
    SameDraws W ds ds' fs :=
  ⟨fun r n => hW.draws r _ _ n h.samplers, fun r n => hW.width r _ n, hg⟩

theorem usedBy_true (d : Dim ℝ) : d.usedBy true = d.normalized := by
  cases d <;> rfl

theorem usedBy_dims (gp : Bool) (D : List (Dim ℝ)) :
    (if gp then Space.setTransformer D .normalize else .ok D) = .ok (D.map (Dim.usedBy gp)) := by
  cases gp with
  | true =>
    simp only [if_true, setTransformer_normalize]
    rw [List.map_congr_left fun d _ => usedBy_true d]
  | false =>
    simp only [Bool.false_eq_true, if_false]
    rw [show (Dim.usedBy false : Dim ℝ → Dim ℝ) = id from rfl, List.map_id]

theorem usedBy_twice (gp : Bool) (D : List (Dim ℝ)) (h : gp = true) :
    Space.setTransformer (D.map (Dim.usedBy gp)) .normalize = .ok (D.map (Dim.usedBy gp)) := by
  subst h
  rw [setTransformer_normalize, List.map_map]
  congr 1
  refine List.map_congr_left fun d _ => ?_
  simp only [Function.comp, usedBy_true]
  cases d <;> rfl

/-- **C101.** Describe the same parameters in other words (`UnitChanges`: other names, units, zeros, bases of
logarithms, spellings), and make the same calls with the points carried over.  Then construction and every call
have the same outcome, with the suggested, returned and recorded points carried over: whatever the surrogate,
acquisition function, generator and random state, and also when calls raise.

Partial: real arithmetic; `Integer` ranges may only be shifted by even numbers
(`C101_refuted_integer_shift`), normalized categories only respelled in the same alphabetical order
(`C101_refuted_category_order`), and units only changed for dimensions that the surrogate sees normalized
(`C101_refuted_log_base`). -/
theorem C101_same_search_partial (W : World ℝ M R G) (hW : UnitFree exact W) (cfg : Config)
    (D D' : List (Dim ℝ)) (fs : List (Val ℝ → Val ℝ)) (hne : D ≠ [])
    (h : UnitChanges (D.map (Dim.usedBy cfg.isGP)) (D'.map (Dim.usedBy cfg.isGP)) fs)
    (hg : SameDesigns W (D.map (Dim.usedBy cfg.isGP)) (D'.map (Dim.usedBy cfg.isGP)) fs)
    (gen : Option G) (rng : R) (calls : List (Call ℝ)) (hc : ∀ p y fit, .one p y fit ∈ calls → Flat p) :
    session exact W D' gen cfg rng (calls.map (Call.relabel fs))
      = (session exact W D gen cfg rng calls).map (List.map (Except.map (Out.relabel fs))) := by
  have hst := set_own_transformers h.legal.1
  have hst' := set_own_transformers h.legal.2
  have hd := sameDraws_of hW h hg
  obtain ⟨gen', o, i1, i2, i3⟩ := init_relabel (A := exact) (M := M) hd hst hst' gen cfg rng
    (usedBy_dims _ D) (usedBy_dims _ D') fun hgp => ⟨usedBy_twice _ D hgp, usedBy_twice _ D' hgp⟩
  unfold session
  rw [i1, i2]
  cases o with
  | error e => rfl
  | ok s =>
    obtain ⟨t, -, -⟩ := i3 s rfl
    simp only [Except.map_ok']
    obtain ⟨g2, s2, os, r1, r2, -⟩ := runOps_relabel h.rescales hd (h.flatSpace (by simpa using hne)) hst hst'
      gen' s t calls (by
        intro c hcs
        cases c with
        | one p y fit => exact hc p y fit hcs
        | _ => trivial)
    rw [r1, r2]

/-- **C101, whole runs.** `base_minimize` on the two descriptions, with the objective, the callbacks and the
starting points carried over: the same trace of evaluations and callback calls and the same result, carried
over.  Partial: as `C101_same_search_partial`; starting points as a list of points. -/
theorem C101_same_minimum_partial (W : World ℝ M R G) (hW : UnitFree exact W) (m : MinArgs ℝ M)
    (D D' : List (Dim ℝ)) (fs : List (Val ℝ → Val ℝ)) (hne : D ≠ [])
    (h : UnitChanges (D.map (Dim.usedBy m.opt.est.isGP)) (D'.map (Dim.usedBy m.opt.est.isGP)) fs)
    (hg : SameDesigns W (D.map (Dim.usedBy m.opt.est.isGP)) (D'.map (Dim.usedBy m.opt.est.isGP)) fs)
    (gen : Option G) (rng : R) (func func' : Objective ℝ)
    (hfun : ∀ done v, func' (done.map (relabelVal fs)) (relabelVal fs v) = func done v)
    (cbs cbs' : List (Callback ℝ M))
    (hcb : List.Forall₂ (fun c c' => ∀ hist, c' (hist.map (Result.relabel fs)) = c hist) cbs cbs')
    (X X' : X0 ℝ) (hX : SameStarts fs X X') :
    (baseMinimize exact W ⟨D', gen⟩ func' { m with x0 := X', callback := .list cbs' } rng).trace
        = (baseMinimize exact W ⟨D, gen⟩ func { m with x0 := X, callback := .list cbs } rng).trace.map
            (Event.relabel fs) ∧
      (baseMinimize exact W ⟨D', gen⟩ func' { m with x0 := X', callback := .list cbs' } rng).result
        = (baseMinimize exact W ⟨D, gen⟩ func { m with x0 := X, callback := .list cbs } rng).result.map
            (Option.map (Result.relabel fs)) :=
  baseMinimize_relabel h.rescales (sameDraws_of hW h hg) (h.flatSpace (by simpa using hne))
    (set_own_transformers h.legal.1) (set_own_transformers h.legal.2) gen m (usedBy_dims _ D) (usedBy_dims _ D')
    (fun hgp => ⟨usedBy_twice _ D hgp, usedBy_twice _ D' hgp⟩) func func' hfun hcb hX rng

/-- **C101, generators.** The bundled generators – a design in the unit cube, decoded by the normalized space
(`withNormalized`) – give the same design on two normalized descriptions of the same space. -/
theorem C101_same_design_partial {ds ds' : List (Dim ℝ)} {fs : List (Val ℝ → Val ℝ)} (h : UnitChanges ds ds' fs)
    (hn : ds.map (Dim.usedBy true) = ds) (hn' : ds'.map (Dim.usedBy true) = ds')
    (rows : Except PyErr (List (List (Val ℝ)))) :
    ∃ ps, withNormalized ds (fun D => do let r ← rows; Space.inverseTransform exact D r) = (ds, ps) ∧
      withNormalized ds' (fun D => do let r ← rows; Space.inverseTransform exact D r)
        = (ds', ps.map (List.map (relabel fs))) ∧
      ∀ qs, ps = .ok qs → ∀ p ∈ qs, List.Forall₂ Within ds p := by
  have e : ∀ D : List (Dim ℝ), D.map (Dim.usedBy true) = D → D.map Dim.normalized = D := by
    intro D hD
    conv_rhs => rw [← hD]
    exact List.map_congr_left fun d _ => (usedBy_true d).symm
  rw [withNormalized_eq h.legal.1, withNormalized_eq h.legal.2, e _ hn, e _ hn']
  cases rows with
  | error e => exact ⟨.error e, rfl, rfl, by simp⟩
  | ok r =>
    simp only [ok_bind]
    rw [h.rescales.inverseTransform r]
    cases hr : Space.inverseTransform exact ds r with
    | error e => exact ⟨.error e, rfl, rfl, by simp⟩
    | ok ps =>
      refine ⟨.ok ps, rfl, rfl, ?_⟩
      rintro qs ⟨⟩
      exact h.rescales.inverseTransform_within hr

/-! ### An example: Celsius and Fahrenheit, fractions and percent, counting from another number, other words -/

/-- `realWorld` with draws in the middle of the unit interval. -/
noncomputable def midWorld : World ℝ Unit Unit Unit :=
  { realWorld with draws := fun _ dims n => ((), dims.map fun _ => ⟨List.replicate n (1 / 2), List.replicate n 0⟩) }

theorem midWorld_unitFree : UnitFree exact midWorld := by
  refine ⟨?_, ?_⟩
  · intro r ds ds' n h
    have hl : ds.length = ds'.length := by simpa using congrArg List.length h
    simp only [midWorld, List.map_const', hl]
  · intro r ds n
    simp [midWorld]

/-- Put a prefix before every string. -/
def prefixed (pre : String) : Val ℝ → Val ℝ
  | .str s => .str (pre ++ s)
  | v => v

theorem prefixed_renaming (pre : String) : Renaming (prefixed pre) := by
  refine ⟨?_, ?_, ?_, ?_, ?_⟩
  · intro v w h
    cases v <;> cases w <;> simp_all [prefixed]
  all_goals intro v; cases v <;> rfl

/-- `Real(0, 100, name="Celsius")`, `Real(0.001, 1, prior="log-uniform")`, `Integer(1, 8)`,
`Categorical(["adam", "sgd"])`. -/
noncomputable def metric : List (Dim ℝ) :=
  [.real ⟨0, 100, .uniform, 10, .identity, some "Celsius", id⟩,
   .real ⟨1 / 1000, 1, .logUniform, 10, .identity, none, id⟩,
   .int ⟨(1 : ℤ), (8 : ℤ), .uniform, 10, .identity, none, id⟩,
   .cat ⟨[.str "adam", .str "sgd"], none, .onehot, none, fun _ => "", fun s => .ok (.str s)⟩]

/-- `Real(32, 212, name="Fahrenheit")`, `Real(0.1, 100, prior="log-uniform", base=2)`, `Integer(-1, 6)`,
`Categorical(["optimizer adam", "optimizer sgd"])`. -/
noncomputable def imperial : List (Dim ℝ) :=
  [.real ⟨9 / 5 * 0 + 32, 9 / 5 * 100 + 32, .uniform, 10, .identity, some "Fahrenheit", id⟩,
   .real ⟨100 * (1 / 1000) ^ (1 : ℝ), 100 * 1 ^ (1 : ℝ), .logUniform, 2, .identity, none, id⟩,
   .int ⟨((1 + 2 * (-1) : ℤ) : ℝ), ((8 + 2 * (-1) : ℤ) : ℝ), .uniform, 10, .identity, none, id⟩,
   .cat ⟨[.str "optimizer adam", .str "optimizer sgd"], none, .onehot, none, fun _ => "", fun s => .ok (.str s)⟩]

/-- The dictionary between them. -/
noncomputable def dictionary : List (Val ℝ → Val ℝ) :=
  [id ∘ onNum fun x => 9 / 5 * x + 32, onNum fun x => if 0 < x then 100 * x ^ (1 : ℝ) else x,
   onNum fun x => x + (2 * (-1) : ℤ), prefixed "optimizer "]

theorem metric_imperial : UnitChanges (metric.map (Dim.usedBy true)) (imperial.map (Dim.usedBy true)) dictionary := by
  refine .cons ?_ (.cons ?_ (.cons ?_ (.cons ?_ .nil)))
  · refine .trans (.linear (9 / 5) 32 10 10 (some "Celsius") (by norm_num) (by norm_num)) ?_
    refine .name (d := .real ⟨9 / 5 * 0 + 32, 9 / 5 * 100 + 32, .uniform, 10, .normalize, some "Celsius", id⟩)
      (some "Fahrenheit") ⟨by norm_num, .inr rfl, fun x h1 h2 => ⟨h1, h2⟩⟩ trivial
  · exact .power 1 100 none (by norm_num) (by norm_num) (by norm_num) (by norm_num) (by norm_num) (by norm_num)
  · exact .shift (-1) 10 10 none (by norm_num)
  · refine .normalized none none _ _ _ _ (prefixed_renaming "optimizer ") ?_ (by simp) (by simp) ?_
    · intro a ha b hb
      simp only [List.mem_cons, List.not_mem_nil, or_false] at ha hb
      rcases ha with rfl | rfl <;> rcases hb with rfl | rfl <;> decide +kernel
    · refine ⟨?_, .inr ?_⟩ <;> intro v hv <;>
        simp only [List.mem_cons, List.not_mem_nil, or_false] at hv <;> rcases hv with rfl | rfl <;> rfl

/-- Asking, telling a point, asking for three points in parallel and reading the result, with a Gaussian process:
the same in both languages. -/
example : session exact midWorld imperial none (toyCfg .gpHedge) () 
        ([.ask, .one [.num 20, .num (1 / 10), .num 3, .str "sgd"] (.num (.fin 1)) true, .askMany 3 .clMin,
          .getResult].map (Call.relabel dictionary))
      = (session exact midWorld metric none (toyCfg .gpHedge) ()
          [.ask, .one [.num 20, .num (1 / 10), .num 3, .str "sgd"] (.num (.fin 1)) true, .askMany 3 .clMin,
            .getResult]).map (List.map (Except.map (Out.relabel dictionary))) :=
  C101_same_search_partial midWorld midWorld_unitFree (toyCfg .gpHedge) metric imperial dictionary (by simp [metric])
    metric_imperial (fun g n r => ⟨g, .ok [], rfl, rfl, by simp⟩) none () _ (by
      intro p y fit hm
      simp only [List.mem_cons, Call.one.injEq, reduceCtorEq, List.not_mem_nil, or_false, false_or] at hm
      obtain ⟨rfl, -, -⟩ := hm
      exact ⟨.num 20, by simp, rfl⟩)

/-- Twelve evaluations guided by a Gaussian process.  (arguments of base_minimize, skopt/optimizer/base.py:22-29) -/
def dozen : MinArgs ℝ Unit :=
  { opt := { est := { isNone := false, isRegressor := true, isGP := true, hasGradients := true },
             acq := some .EI, acqOptimizer := .sampling },
    nCalls := 12, x0 := .none, callback := .list [] }

/-- An objective and its translation: the temperature itself, whatever the language. -/
example : ∃ func func' : Objective ℝ,
    (∀ done v, func' (done.map (relabelVal dictionary)) (relabelVal dictionary v) = func done v) ∧
    func [] (.seq [.num 20, .num (1 / 10), .num 3, .str "sgd"]) = .ok (.num (.fin 20)) ∧
    func' [] (.seq [.num 68, .num 10, .num 1, .str "optimizer sgd"]) = .ok (.num (.fin 20)) ∧
    ∀ rng, (baseMinimize exact midWorld ⟨imperial, none⟩ func' dozen rng).result
      = (baseMinimize exact midWorld ⟨metric, none⟩ func dozen rng).result.map
          (Option.map (Result.relabel dictionary)) := by
  refine ⟨fun _ v => match v with
      | .seq (.num t :: _) => .ok (.num (.fin t))
      | _ => .error .typeError, fun _ v => match v with
      | .seq (.num t :: _) => .ok (.num (.fin ((t - 32) / (9 / 5))))
      | _ => .error .typeError, ?_, rfl, ?_, ?_⟩
  · intro done v
    cases v with
    | seq p =>
      cases p with
      | nil => rfl
      | cons w ws =>
        cases w with
        | num t =>
          simp only [relabelVal, dictionary, relabel, Function.comp, onNum, id]
          congr 3
          field_simp
          ring
        | _ => rfl
    | _ => rfl
  · simp only; norm_num
  · intro rng
    refine (C101_same_minimum_partial midWorld midWorld_unitFree dozen metric imperial dictionary (by simp [metric])
      metric_imperial (fun g n r => ⟨g, .ok [], rfl, rfl, by simp⟩) none rng _ _ ?_ [] [] .nil .none .none .none).2
    intro done v
    cases v with
    | seq p =>
      cases p with
      | nil => rfl
      | cons w ws =>
        cases w with
        | num t =>
          simp only [relabelVal, dictionary, relabel, Function.comp, onNum, id]
          congr 3
          field_simp
          ring
        | _ => rfl
    | _ => rfl

/-- The centre of the unit cube as a design. -/
example : ∃ ps, withNormalized (imperial.map (Dim.usedBy true)) (fun D => do
      let r ← (.ok [List.replicate 4 (.num (1 / 2))] : Except PyErr (List (List (Val ℝ))))
      Space.inverseTransform exact D r) = (imperial.map (Dim.usedBy true), ps) := by
  obtain ⟨ps, -, h, -⟩ := C101_same_design_partial metric_imperial rfl rfl (.ok [List.replicate 4 (.num (1 / 2))])
  exact ⟨_, h⟩

/-! ### What does depend on the description -/

/-- **C101 refuted.** The base of the logarithm matters for surrogates that do not normalize the space (all but
Gaussian processes): encoded values are logarithms to the given base, but suggestions are clipped to decimal
logarithms of the bounds (space.py:366-374).  `Real(1, 1024, prior="log-uniform", base=2)` is never searched above
16 after the initial points, whatever the surrogate and the acquisition function prefer; with `base=10`
suggestions above 16 occur. -/
theorem C101_refuted_log_base :
    (∀ {M R G : Type} (W : World ℝ M R G) (s : Opt ℝ M R), s.cfg.hasEst = true →
      ∀ (x : XArg ℝ) (y : YArg ℝ) (res : Result ℝ M),
      (tell exact W [.real ⟨1, 1024, .logUniform, 2, .identity, none, id⟩] s x y true).2 = .ok res →
      (tell exact W [.real ⟨1, 1024, .logUniform, 2, .identity, none, id⟩] s x y true).1.nInit ≤ 0 →
      ∃ z < 16, (tell exact W [.real ⟨1, 1024, .logUniform, 2, .identity, none, id⟩] s x y true).1.nextX
        = some [.num z]) ∧
    ∃ res z, (tell exact realWorld [.real ⟨1, 1024, .logUniform, 10, .identity, none, id⟩] realOpt
        (.lst [.num 5]) (.num (.fin 1)) true).2 = .ok res ∧
      (tell exact realWorld [.real ⟨1, 1024, .logUniform, 10, .identity, none, id⟩] realOpt
        (.lst [.num 5]) (.num (.fin 1)) true).1.nInit ≤ 0 ∧ 16 < z ∧
      (tell exact realWorld [.real ⟨1, 1024, .logUniform, 10, .identity, none, id⟩] realOpt
        (.lst [.num 5]) (.num (.fin 1)) true).1.nextX = some [.num z] := by
  constructor
  · intro M R G W s hest x y res ht hn
    obtain ⟨est, s', h1, h2, h3, h4⟩ := tell_suggests hest ht hn
    obtain ⟨pts, X, yOpt, cand, r, r', row, ps, z, g1, g2, g3, g4, g5, g6, g7, g8⟩ := suggest_ok h1
    obtain ⟨q, hq⟩ := proposeOne_clipped rfl g5
    have hb : Space.transformedBounds exact [.real ⟨1, 1024, .logUniform, 2, .identity, none, id⟩]
      = [(Real.logb 10 1, Real.logb 10 1024)] := rfl
    rw [hb] at hq
    unfold clipRow at hq
    split at hq
    · cases hq
    · next hlen =>
      obtain ⟨v, rfl⟩ := List.length_eq_one_iff.1 (not_not.1 hlen)
      obtain ⟨us, hus, hq⟩ := bind_eq_ok.1 hq
      obtain ⟨u, _, hu, hu', rfl⟩ := mapE_cons_ok.1 hus
      injection hu' with hu'
      subst hu'
      injection hq with hq
      simp only [List.zipWith_cons_cons, List.zipWith_nil_left] at hq
      subst hq
      have hinv : Space.inverseTransform exact [.real ⟨1, 1024, .logUniform, 2, .identity, none, id⟩]
          [[.num (npClip (Real.logb 10 1) (Real.logb 10 1024) u)]] = .ok [[.num
          (npClip 1 1024 ((2 : ℝ) ^ (npClip (Real.logb 10 1) (Real.logb 10 1024) u)))]] := rfl
      rw [hinv] at g6
      injection g6 with g6
      subst g6
      simp only [pyGet, List.getElem?_cons_zero, Except.ok.injEq] at g7
      subst g7
      refine ⟨_, ?_, g8⟩
      have e1 : npClip (Real.logb 10 1) (Real.logb 10 1024) u < 4 := by
        refine (min_le_right _ _).trans_lt ?_
        rw [Real.logb_lt_iff_lt_rpow (by norm_num) (by norm_num)]
        norm_num
      have e2 : (2 : ℝ) ^ (npClip (Real.logb 10 1) (Real.logb 10 1024) u) < 16 := by
        calc (2 : ℝ) ^ (npClip (Real.logb 10 1) (Real.logb 10 1024) u) < 2 ^ (4 : ℝ) :=
              Real.rpow_lt_rpow_of_exponent_lt (by norm_num) e1
          _ = 16 := by norm_num
      have e3 : npClip (1 : ℝ) 1024 ((2 : ℝ) ^ (npClip (Real.logb 10 1) (Real.logb 10 1024) u)) < 16 := by
        unfold npClip at e2 ⊢
        exact (min_le_left _ _).trans_lt (max_lt e2 (by norm_num))
      exact e3
  · have hc : checkX ([.real ⟨1, 1024, .logUniform, 10, .identity, none, id⟩] : List (Dim ℝ))
        (.lst [.num (5 : ℝ)]) = .ok () := by
      norm_num [checkX, checkXInSpace, is2D, Val.isSeq, Space.contains, Dim.contains, Val.toNum, bind, Except.bind]
    simp only [tell, hc, ok_bind]
    have hneg : ((0 : ℤ) - 1 ≤ 0) := by norm_num
    refine ⟨_, npClip 1 1024 ((10 : ℝ) ^ (npClip (Real.logb 10 1) (Real.logb 10 1024)
      (Real.logb 10 (npClip 1 1024 ((10 : ℝ) ^ (2 : ℝ))) / Real.logb 10 10))), rfl, hneg, ?_, rfl⟩
    have e1 : npClip (1 : ℝ) 1024 ((10 : ℝ) ^ (2 : ℝ)) = 100 := by norm_num [npClip]
    have e2 : Real.logb 10 100 = 2 := by
      rw [show (100 : ℝ) = 10 ^ (2 : ℝ) by norm_num]
      exact Real.logb_rpow (by norm_num) (by norm_num)
    have e3 : (2 : ℝ) ≤ Real.logb 10 1024 := by
      rw [Real.le_logb_iff_rpow_le (by norm_num) (by norm_num)]
      norm_num
    have e4 : npClip (Real.logb 10 1) (Real.logb 10 1024) 2 = 2 := by
      unfold npClip
      rw [Real.logb_one, max_eq_left (by norm_num), min_eq_left e3]
    rw [e1, e2, Real.logb_self_eq_one (by norm_num), div_one, e4, e1]
    norm_num

/-- The hypotheses of the first half are met: `Real(1, 1024, "log-uniform", base=2)`, told one observation. -/
example : ∃ res, (tell exact realWorld [.real ⟨1, 1024, .logUniform, 2, .identity, none, id⟩]
      realOpt (.lst [.num 5]) (.num (.fin 1)) true).2 = .ok res ∧
    (tell exact realWorld [.real ⟨1, 1024, .logUniform, 2, .identity, none, id⟩]
      realOpt (.lst [.num 5]) (.num (.fin 1)) true).1.nInit ≤ 0 := by
  have hc : checkX ([.real ⟨1, 1024, .logUniform, 2, .identity, none, id⟩] : List (Dim ℝ))
      (.lst [.num (5 : ℝ)]) = .ok () := by
    norm_num [checkX, checkXInSpace, is2D, Val.isSeq, Space.contains, Dim.contains, Val.toNum, bind, Except.bind]
  simp only [tell, hc, ok_bind]
  refine ⟨_, rfl, ?_⟩
  show (0 : ℤ) - 1 ≤ 0
  norm_num

/-- Does a session with one call return this number?  (used for the counterexamples on
skopt/optimizer/optimizer.py:340-412) -/
def answersNum {M : Type} (z : ℚ) : Except PyErr (List (Except PyErr (Out ℚ M))) → Bool
  | .ok [.ok (.point [.num x])] => decide (x = z)
  | _ => false

/-- Does a session with one call return this string?  (used for the counterexamples on
skopt/optimizer/optimizer.py:340-412) -/
def answersStr {M : Type} (z : String) : Except PyErr (List (Except PyErr (Out ℚ M))) → Bool
  | .ok [.ok (.point [.str x])] => decide (x = z)
  | _ => false

theorem answersNum_eq {M : Type} {z : ℚ} {o : Except PyErr (List (Except PyErr (Out ℚ M)))}
    (h : answersNum z o = true) : o = .ok [.ok (.point [.num z])] := by
  unfold answersNum at h
  split at h
  · rw [of_decide_eq_true h]
  · cases h

theorem answersStr_eq {M : Type} {z : String} {o : Except PyErr (List (Except PyErr (Out ℚ M)))}
    (h : answersStr z o = true) : o = .ok [.ok (.point [.str z])] := by
  unfold answersStr at h
  split at h
  · rw [of_decide_eq_true h]
  · cases h

/-- **C101 refuted.** Counting an `Integer` from another number matters if the numbers differ by an odd number:
halfway between two values the code rounds to the even one (`np.round`).  From the same draw in the middle,
`Integer(0, 1)` gives the lower value and `Integer(1, 2)` the upper one. -/
theorem C101_refuted_integer_shift :
    session ratArith okWorld [.int ⟨0, 1, .uniform, 10, .normalize, none, id⟩] none (toyCfg .EI) 0 [.ask]
      = .ok [.ok (.point [.num 0])] ∧
    session ratArith okWorld [.int ⟨1, 2, .uniform, 10, .normalize, none, id⟩] none (toyCfg .EI) 0 [.ask]
      = .ok [.ok (.point [.num 2])] :=
  ⟨answersNum_eq (by decide +kernel), answersNum_eq (by decide +kernel)⟩

/-- **C101 refuted.** Respelling categories matters for a Gaussian process if the alphabetical order changes,
because categories are encoded by their alphabetical position (`np.unique`, transformers.py:175).  From the same
draw, `Categorical(["low", "medium"])` gives `"low"`, and `Categorical(["small", "medium"])` gives `"medium"`. -/
theorem C101_refuted_category_order :
    session ratArith okWorld
        [.cat ⟨[.str "low", .str "medium"], none, .normalize, none, fun _ => "", fun s => .ok (.str s)⟩]
        none (toyCfg .EI) 0 [.ask] = .ok [.ok (.point [.str "low"])] ∧
    session ratArith okWorld
        [.cat ⟨[.str "small", .str "medium"], none, .normalize, none, fun _ => "", fun s => .ok (.str s)⟩]
        none (toyCfg .EI) 0 [.ask] = .ok [.ok (.point [.str "medium"])] :=
  ⟨answersStr_eq (by decide +kernel), answersStr_eq (by decide +kernel)⟩

end Skopt

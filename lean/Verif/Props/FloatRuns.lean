import Verif.Lemmas.RoundedMinimize
import Verif.Props.Liveness
import Verif.Props.Rounding

/-!
# C145: runs in floating-point arithmetic

C68 (no call raises) and C76 (a well-posed minimisation runs to the end) are statements about real arithmetic.  Here
they are proved for every floating-point arithmetic, in particular for double precision: the rounding errors made in
encoding, decoding, sampling and comparing points never lead to an exception and never to a point outside the space.
-/

namespace Skopt

variable {F : Type} [LinearOrder F] {A : Arith F} {val : F → ℝ} {u η : ℝ} {N : ℤ} {M R G : Type}

/-! ## Specification -/

/-- A space for floating-point searches: valid dimensions whose transforms have correct bounds, small enough in
comparison with the precision to tell integers and categories apart. -/
structure FloatSpace (A : Arith F) (val : F → ℝ) (u η : ℝ) (N : ℤ) (dims : List (Dim F)) : Prop where
  nonempty : dims ≠ []
  valid : ∀ d ∈ dims, ValidDim A d
  fine : ∀ d ∈ dims, FinePrecision val u η N d
  bounds : ∀ d ∈ dims, GoodBounds A d

/-! ## Lemmas -/

theorem distance_defined (A : Arith F) {dims : List (Dim F)} {a b : Point F} (ha : InSpace A dims a)
    (hb : InSpace A dims b) (acc : F) : ∃ t, Space.distanceFrom A acc dims a b = .ok t := by
  unfold InSpace at ha hb
  induction ha generalizing b acc with
  | nil => cases hb; exact ⟨acc, by simp [Space.distanceFrom]⟩
  | @cons d x ds xs h1 _ ih =>
    cases hb with
    | @cons _ y _ ys g1 g2 =>
    obtain ⟨r, hr⟩ : ∃ r, d.distance A x y = .ok r := by
      have e1 := Dim.contains_true.2 h1.within
      have e2 := Dim.contains_true.2 g1.within
      unfold Dim.distance
      rw [e1, e2]
      cases d with
      | cat c => by_cases hab : x = y <;> simp [hab]
      | real c =>
        obtain ⟨x, rfl, _⟩ := h1
        obtain ⟨y, rfl, _⟩ := g1
        simp [Val.toNum]
      | int c =>
        obtain ⟨x, rfl, _⟩ := h1
        obtain ⟨y, rfl, _⟩ := g1
        simp [Val.toNum]
    obtain ⟨t, ht⟩ := ih g2 (A.add acc r)
    refine ⟨t, ?_⟩
    have e : Space.distanceFrom A acc (d :: ds) (x :: xs) (y :: ys) =
      (d.distance A x y >>= fun z => Space.distanceFrom A (A.add acc z) ds xs ys) := rfl
    rw [e, hr, ok_bind, ht]

/-- Encoding, decoding, sampling and measuring distances work in floating point. -/
theorem FloatSpace.workable (h : FloatLike A val u η N) (hA : OrderlyRounding A) {dims : List (Dim F)}
    (hd : FloatSpace A val u η N dims) : Rounded.Workable A dims := by
  have hunit : ∀ d ∈ dims, Rounded.DecodesUnit A d := fun d hm =>
    Rounded.decodesUnit h hA (hd.valid d hm) (hd.fine d hm)
  have hinv : ∀ d ∈ dims, Invertible (A.ofInt 0) (A.ofInt 1) d := by
    intro d hm
    have hf := hd.fine d hm
    have hg := hd.bounds d hm
    have z : ∀ x, 0 < val x → A.ofInt 0 < x := fun x hx => h.lt_iff.1 (by rwa [h.val_zero])
    have o : ∀ x, 1 < val x → A.ofInt 1 < x := fun x hx => h.lt_iff.1 (by rwa [h.val_one])
    cases d with
    | real d => exact fun hp => ⟨z _ (hf.2 hp).1, o _ (hf.2 hp).2.1⟩
    | int d => exact fun hp => ⟨z _ (hf.2.2 hp).1, o _ (hf.2.2 hp).2.1⟩
    | cat d =>
      intro hs
      rcases hg with hg | hg <;> rw [hg] at hs <;> cases hs
  refine ⟨hd.nonempty, hd.valid, ?_, ?_, ?_, ?_⟩
  · intro X hX hin
    obtain ⟨Xt, -, h1, -⟩ := C94_round_trip_rounded_partial h dims hd.nonempty hd.valid
      (fun d hm => (hd.bounds d hm).yieldsNoStr) hd.fine X hX hin
    exact ⟨Xt, h1, (C03_shape A dims hd.valid X Xt h1).1,
      C04_transformed_bounds_partial A h.mono dims hd.valid hinv hd.bounds X hin Xt h1⟩
  · intro r hr
    obtain ⟨p, hp⟩ := Rounded.inverse_box_ok hd.nonempty hd.valid hunit hd.bounds hr
    refine ⟨p, hp, (C01_inverse_transform_in_space_partial A hA dims hd.valid ?_ _ _ hp).2 p List.mem_cons_self⟩
    intro d hm
    have := hd.bounds d hm
    cases d with
    | real _ => trivial
    | int _ => trivial
    | cat c => rcases this with h | h <;> simp [Decoding, h]
  · intro n raws h1 h2
    obtain ⟨pts, hpts⟩ := Rounded.Space.rvs_ok hd.nonempty hd.valid hunit h2 h1
    obtain ⟨g1, g2⟩ := C05_rvs_in_space A hA dims hd.valid n _ h1.length_eq.symm h2 pts hpts
    exact ⟨pts, hpts, g1, g2⟩
  · intro p q hp hq
    exact distance_defined A hp hq _

omit [LinearOrder F] in
theorem FinePrecision.normalized {d : Dim F} (h : FinePrecision val u η N d) : FinePrecision val u η N d.normalized := by
  cases d <;> exact h

/-- The normalization a Gaussian process brings about. -/
theorem FloatSpace.of_normalized {dims : List (Dim F)} (hne : dims ≠ []) (hv : ∀ d ∈ dims, ValidDim A d)
    (hf : ∀ d ∈ dims, FinePrecision val u η N d) : FloatSpace A val u η N (dims.map Dim.normalized) := by
  refine ⟨by simpa using hne, ?_, ?_, ?_⟩ <;> intro d' hd' <;> obtain ⟨d, hd, rfl⟩ := List.mem_map.1 hd'
  · exact (hv d hd).normalized
  · exact (hf d hd).normalized
  · cases d with
    | real d => exact Or.inl rfl
    | int d => exact Or.inl rfl
    | cat d => exact Or.inr rfl

theorem FloatSpace.searched {dims : List (Dim F)} (h : FloatSpace A val u η N dims) (gp : Bool) :
    FloatSpace A val u η N (Rounded.searched gp dims) := by
  cases gp with
  | false => exact h
  | true => exact FloatSpace.of_normalized h.nonempty h.valid h.fine

/-! ## C145 -/

/-- A sequence of calls of which each should succeed. -/
def Rounded.ProperRun (A : Arith F) (ps : Bool) (dims : List (Dim F)) : Bool → List (Call F) → Prop
  | _, [] => True
  | told, c :: cs => Rounded.Proper A ps told dims c ∧ Rounded.ProperRun A ps dims (told || c.isTell) cs

/-- **C145 (every call).** In any floating-point arithmetic: on a space that is small enough for the precision, with
sane settings, at least one initial point and third-party calls that do what they promise, the constructor returns, and
so does every call of every sequence of `tell` (single observations and batches of floating-point numbers, in the
per-second modes with positive times), `ask()`, `ask(n_points, strategy)`, `update_next()` and - after the first `tell` -
`get_result()`. -/
theorem C145_every_call (h : FloatLike A val u η N) (hA : OrderlyRounding A) (W : World F M R G) (sh : Shared F G)
    (cfg : Config) (hc : Sane cfg) (hn : 0 < cfg.nInitial) (hd : FloatSpace A val u η N sh.dims)
    (hW : Rounded.Reliable A W (Rounded.searched cfg.isGP sh.dims))
    (hgen : sh.gen = none ∨ cfg.hasEst = true ∧ Rounded.Generates A W (Rounded.searched cfg.isGP sh.dims)
      cfg.nInitial) (rng : R) :
    ∃ sh' s, Opt.init A W sh cfg rng = (sh', .ok s) ∧
      ∀ calls : List (Call F), Rounded.ProperRun A cfg.acq.isPs sh.dims false calls →
        ∀ r ∈ (runOps A W sh' s (calls.map Call.toOp)).2.2, Returns r := by
  have hd' := (hd.searched cfg.isGP).workable h hA
  obtain ⟨gen', s, h1, h2, h3, h4⟩ := Rounded.init_going (M := M) (W := W) hd' hc hn hgen rng
  refine ⟨_, s, h1, ?_⟩
  have hproper : ∀ told c, Rounded.Proper A cfg.acq.isPs told sh.dims c →
      Rounded.Proper A cfg.acq.isPs told (Rounded.searched cfg.isGP sh.dims) c := by
    intro told c h
    cases c with
    | one p y fit => exact ⟨Rounded.inSpace_searched.2 h.1, h.2⟩
    | batch obs fit => exact ⟨h.1, fun o ho => ⟨Rounded.inSpace_searched.2 (h.2.1 o ho).1, (h.2.1 o ho).2⟩, h.2.2⟩
    | _ => exact h
  have key : ∀ (calls : List (Call F)) (gen : Option G) (s : Opt F M R) (told : Bool),
      Rounded.Going A W (Rounded.searched cfg.isGP sh.dims) s → s.cfg = cfg →
      Rounded.GenFits A W (Rounded.searched cfg.isGP sh.dims) cfg gen →
      (told = true → s.Xi ≠ []) → Rounded.ProperRun A cfg.acq.isPs sh.dims told calls →
      ∀ r ∈ (runOps A W ⟨Rounded.searched cfg.isGP sh.dims, gen⟩ s (calls.map Call.toOp)).2.2, Returns r := by
    intro calls
    induction calls with
    | nil => intro gen s told _ _ _ _ _ r hr; simp [runOps] at hr
    | cons c cs ih =>
      intro gen s told hs he hg ht hrun r hr
      obtain ⟨gen₁, t, g1, g2, g3, g4, g5, g6, g7⟩ := Rounded.step_going hd' hW hs (by rw [he]; exact hg) ht
        (by rw [he]; exact hproper _ _ hrun.1)
      simp only [List.map_cons, runOps, g1, g2] at hr
      rcases List.mem_cons.1 hr with rfl | hr
      · exact g3
      · refine ih gen₁ t (told || c.isTell) g4 (g6.trans he) (by have := g5; rw [g6, he] at this; exact this) ?_ hrun.2 r hr
        intro h
        rcases Bool.or_eq_true _ _ ▸ h with h | h
        · exact g7 (Or.inr h)
        · exact g7 (Or.inl h)
  intro calls hrun
  exact key calls gen' s false h2 h3 h4 (by simp) hrun

/-- **C145 (`base_minimize`).** In any floating-point arithmetic, a well-posed minimisation returns a result, every
evaluated point is a member of the space, the reported optimum is the first best of the listed observations, and unless
a callback asks to stop the objective is evaluated exactly `n_calls` times. -/
theorem C145_minimize (h : FloatLike A val u η N) (hA : OrderlyRounding A) (W : World F M R G) (sh : Shared F G)
    (func : Objective F) (m : MinArgs F M) (st : Starts F) (rng : R) (hset : SaneArgs m.opt)
    (hd : FloatSpace A val u η N sh.dims) (hW : Rounded.Reliable A W (Rounded.searched m.opt.est.isGP sh.dims))
    (hgen : sh.gen = none ∨ m.opt.est.isNone = false ∧
      Rounded.Generates A W (Rounded.searched m.opt.est.isGP sh.dims)
        (m.nRandomStarts.getD m.nInitialPoints + st.all.length))
    (hfunc : Rounded.TotalOn A m.opt.perSecond sh.dims func) (hm : Rounded.WellPosed A sh.dims m st) :
    Rounded.Completes A sh.dims m.callback m.nCalls (baseMinimize A W sh func m rng) :=
  Rounded.minimize_returns W sh func m st rng hset ((hd.searched _).workable h hA) hW hgen hfunc hm

/-- **C145 (`gp_minimize`).** With the default surrogate, which normalizes the dimensions: nothing is needed of the
transforms. -/
theorem C145_gp_minimize (h : FloatLike A val u η N) (hA : OrderlyRounding A) (W : World F M R G) (sh : Shared F G)
    (func : Objective F) (c : WrapArgs F M) (st : Starts F) (rng : R) (hne : sh.dims ≠ [])
    (hv : ∀ d ∈ sh.dims, ValidDim A d) (hf : ∀ d ∈ sh.dims, FinePrecision val u η N d) (hset : Rounded.SaneCall c)
    (hopt : c.acqOptimizer = "sampling" ∨ c.acqOptimizer = "auto" ∨
      c.acqOptimizer = "lbfgs" ∧ ∃ d ∈ sh.dims, d.isCat = false)
    (hW : Rounded.Reliable A W (sh.dims.map Dim.normalized))
    (hgen : sh.gen = none ∨ Rounded.Generates A W (sh.dims.map Dim.normalized)
      (c.nRandomStarts.getD c.nInitialPoints + st.all.length))
    (hfunc : Rounded.TotalOn A (Rounded.perSecondCall c) sh.dims func) (hm : Rounded.WellPosedCall A sh.dims c st) :
    Rounded.Completes A sh.dims c.callback c.nCalls (gpMinimize A W sh func none c rng) :=
  Rounded.gp_minimize_runs W sh func c st rng ((FloatSpace.of_normalized hne hv hf).workable h hA) hset hopt hW hgen
    hfunc hm

/-- **C145 (`forest_minimize` and `gbrt_minimize`).** -/
theorem C145_forest_minimize (h : FloatLike A val u η N) (hA : OrderlyRounding A) (W : World F M R G) (sh : Shared F G)
    (func : Objective F) (c : WrapArgs F M) (st : Starts F) (rng : R) (hd : FloatSpace A val u η N sh.dims)
    (hset : Rounded.SaneCall c) (hW : Rounded.Reliable A W sh.dims)
    (hgen : sh.gen = none ∨ Rounded.Generates A W sh.dims
      (c.nRandomStarts.getD c.nInitialPoints + st.all.length))
    (hfunc : Rounded.TotalOn A (Rounded.perSecondCall c) sh.dims func) (hm : Rounded.WellPosedCall A sh.dims c st) :
    (∀ name : String, name.toUpper ∈ ["ET", "RF", "GBRT"] →
      Rounded.Completes A sh.dims c.callback c.nCalls (forestMinimize A W sh func (.name name) c rng)) ∧
    Rounded.Completes A sh.dims c.callback c.nCalls (gbrtMinimize A W sh func none c rng) :=
  ⟨fun name hname => Rounded.forest_minimize_runs W sh func name c st rng hname (hd.workable h hA) hset hW hgen hfunc hm,
    Rounded.gbrt_minimize_runs W sh func c st rng (hd.workable h hA) hset hW hgen hfunc hm⟩

/-- **C145 (`dummy_minimize`).** Random search: without starting points, with at most `n_calls` starting points in a
list, or with starting points and their values. -/
theorem C145_dummy_minimize (h : FloatLike A val u η N) (hA : OrderlyRounding A) (W : World F M R G) (sh : Shared F G)
    (func : Objective F) (nCalls : ℤ) (st : Starts F) (y0 : Y0 F) (verbose : Bool) (cb : CbArg F M)
    (queueSize : Option ℤ) (rng : R) (hd : FloatSpace A val u η N sh.dims) (hW : Rounded.Reliable A W sh.dims)
    (hgen : sh.gen = none) (hfunc : Rounded.TotalOn A false sh.dims func)
    (hq : ∀ k, queueSize = some k → 0 < k) (hst : st.Proper) (hmem : ∀ p ∈ st.all, InSpace A sh.dims p)
    (hn : 0 < nCalls)
    (hform : st = .absent ∧ y0 = .none ∨ (∃ ps, st = .points ps ∧ (ps.length : ℤ) ≤ nCalls ∧ y0 = .none) ∨
      st.all ≠ [] ∧ y0.given.length = st.all.length ∧ ∀ y ∈ y0.given, Rounded.FiniteNum y)
    (hcb : cb ≠ .invalid) (hcalm : ∀ c ∈ cb.callables, ∀ hist, ∃ d, c hist = .ok d) :
    Rounded.Completes A sh.dims cb nCalls (dummyMinimize A W sh func nCalls st.toX0 y0 verbose cb queueSize rng) :=
  Rounded.dummy_minimize_runs W sh func nCalls st y0 verbose cb queueSize rng (hd.workable h hA) hW hgen hfunc hq hst
    hmem hn hform hcb hcalm

/-! ### Double precision -/

/-- Dimensions that pose no problem in double precision: `Real` (with a logarithmic prior: positive bounds and a base
within `2^-1000` and `2^1000`), `Integer` with bounds up to `2^48` (up to `2^32`, and a base up to ten, with a
logarithmic prior), and `Categorical` with up to `2^48` categories. -/
def Ordinary : Dim (Bin 53) → Prop
  | .real d => (∀ x, d.cast x = x) ∧ (d.prior = .logUniform →
      1 / 2 ^ 1000 ≤ d.low.1 ∧ d.high.1 ≤ 2 ^ 1000 ∧ 1 < d.base.1 ∧ d.base.1 ≤ 2 ^ 1000)
  | .int d => Moderate (.int d)
  | .cat d => Moderate (.cat d)

theorem log_le_thousand {x : ℝ} (h1 : 1 / 2 ^ 1000 ≤ x) (h2 : x ≤ 2 ^ 1000) : |Real.log x| ≤ 1000 := by
  have l2 : Real.log 2 ≤ 1 := by
    have := Real.log_le_sub_one_of_pos (x := 2) (by norm_num)
    linarith
  have hp : (0 : ℝ) < 2 ^ 1000 := pow_pos two_pos _
  have hx : 0 < x := lt_of_lt_of_le (one_div_pos.2 hp) h1
  have hl : Real.log (2 ^ 1000 : ℝ) ≤ 1000 := by
    rw [Real.log_pow]
    push_cast
    linarith
  rw [abs_le]
  constructor
  · have := Real.log_le_log (one_div_pos.2 hp) h1
    rw [one_div, Real.log_inv] at this
    linarith
  · exact (Real.log_le_log hx h2).trans hl

theorem Ordinary.fine {d : Dim (Bin 53)} (hv : ValidDim (binArith 53) d) (h : Ordinary d) :
    FinePrecision Subtype.val (1 / 2 ^ 53) 0 (2 ^ 53) d := by
  cases d with
  | int d => exact Moderate.fine hv h
  | cat d => exact Moderate.fine hv h
  | real d =>
    refine ⟨h.1, fun hp => ?_⟩
    obtain ⟨h1, h2, h3, h4⟩ := h.2 hp
    have hp : (0 : ℝ) < 2 ^ 1000 := pow_pos two_pos _
    have hlt : d.low.1 ≤ d.high.1 := hv.1.le
    refine ⟨lt_of_lt_of_le (one_div_pos.2 hp) h1, h3, ?_⟩
    have hs : logSize Subtype.val d.low d.high d.base ≤ 72001 := by
      have e1 := max_le (log_le_thousand h1 (hlt.trans h2)) (log_le_thousand (h1.trans hlt) h2)
      have hle : (1 : ℝ) / 2 ^ 1000 ≤ 1 := by
        rw [div_le_one hp]
        exact one_le_pow₀ one_le_two
      have e2 := (abs_le.1 (log_le_thousand (hle.trans h3.le) h4)).2
      unfold logSize
      linarith
    calc (1 : ℝ) / 2 ^ 53 * logSize Subtype.val d.low d.high d.base ≤ 1 / 2 ^ 53 * 72001 := by gcongr
      _ ≤ 1 := by norm_num

theorem binArith_orderly {p : ℕ} (hp : 10 ≤ p) : OrderlyRounding (binArith p) where
  round_mono _ _ h := roundHalfEven_mono h
  ofInt_mono := (binArith_mono hp).ofInt_mono

/-- **C145, double precision.** With `np.float64` rounding: on a space of ordinary dimensions a well-posed call of
`gp_minimize` with the default surrogate runs to the end. -/
theorem C145_double_gp_minimize (W : World (Bin 53) M R G) (sh : Shared (Bin 53) G)
    (func : Objective (Bin 53)) (c : WrapArgs (Bin 53) M) (st : Starts (Bin 53)) (rng : R) (hne : sh.dims ≠ [])
    (hv : ∀ d ∈ sh.dims, ValidDim (binArith 53) d) (ho : ∀ d ∈ sh.dims, Ordinary d) (hset : Rounded.SaneCall c)
    (hopt : c.acqOptimizer = "sampling" ∨ c.acqOptimizer = "auto" ∨
      c.acqOptimizer = "lbfgs" ∧ ∃ d ∈ sh.dims, d.isCat = false)
    (hW : Rounded.Reliable (binArith 53) W (sh.dims.map Dim.normalized))
    (hgen : sh.gen = none ∨ Rounded.Generates (binArith 53) W (sh.dims.map Dim.normalized)
      (c.nRandomStarts.getD c.nInitialPoints + st.all.length))
    (hfunc : Rounded.TotalOn (binArith 53) (Rounded.perSecondCall c) sh.dims func)
    (hm : Rounded.WellPosedCall (binArith 53) sh.dims c st) :
    Rounded.Completes (binArith 53) sh.dims c.callback c.nCalls (gpMinimize (binArith 53) W sh func none c rng) :=
  C145_gp_minimize (binArith_floatLike (by norm_num)) (binArith_orderly (by norm_num)) W sh func c st rng hne hv
    (fun d hd => (ho d hd).fine (hv d hd)) hset hopt hW hgen hfunc hm

/-! ## Example -/

/-- A world of third-party calls in any arithmetic in which everything succeeds and every draw is zero. -/
def zeroWorld (A : Arith F) : World F Unit Unit Unit where
  fit _ _ _ := ((), .ok ())
  predict _ X := .ok (X.map fun _ => A.ofInt 0)
  draws _ dims n := ((), dims.map fun _ => ⟨List.replicate n (A.ofInt 0), List.replicate n 0⟩)
  acquisition _ X _ _ := .ok (X.map fun _ => .fin (A.ofInt 0))
  argsort v := List.range v.length
  lbfgs _ _ _ _ x := ((), .ok (x, .fin (A.ofInt 0)))
  multinomial _ p := ((), (List.range p.length).map fun i => if i = 1 then 1 else 0)
  exp x := x
  log t := .ok t
  logMax := A.ofInt 700
  eta := A.ofInt 1
  seed _ := ((), ())
  generate g dims _ _ := (g, (dims, .ok []))

theorem zeroWorld_reliable (hA : OrderlyRounding A) {dims : List (Dim F)} (hv : ∀ d ∈ dims, ValidDim A d) :
    Rounded.Reliable A (zeroWorld A) dims where
  fit _ _ _ _ _ _ _ _ := ⟨(), rfl⟩
  predict _ X _ _ := ⟨_, rfl, by simp⟩
  draws r n := by
    constructor
    · show List.Forall₂ _ dims (dims.map _)
      rw [List.forall₂_map_right_iff, List.forall₂_same]
      intro d hd
      refine ⟨fun _ x hx => ?_, ?_⟩
      · rw [List.eq_of_mem_replicate hx]
        exact ⟨le_rfl, hA.ofInt_mono (by norm_num)⟩
      · cases d with
        | cat c =>
          intro i hi
          rw [List.eq_of_mem_replicate hi]
          exact List.length_pos_iff.2 (hv _ hd).1
        | _ => trivial
    · intro d hm
      simp only [zeroWorld, List.mem_map] at hm
      obtain ⟨_, _, rfl⟩ := hm
      simp
  acquisition _ X _ _ _ _ := ⟨_, rfl, by simp⟩
  argsort v hv := by
    constructor
    · simpa [zeroWorld] using hv
    · intro i hi
      simpa [zeroWorld] using hi
  lbfgs _ _ _ _ x hx := ⟨x, .fin (A.ofInt 0), rfl, hx⟩
  multinomial _ g hg := by simp [zeroWorld, hedgeProbs, hg]
  log t _ := ⟨_, rfl⟩

/-- The categories `a`, `b`, `c`. -/
def dblCat : CatDim (Bin 53) := ⟨[.str "a", .str "b", .str "c"], none, .onehot, none, fun _ => "", fun s => .ok (.str s)⟩

/-- `Real(0.001, 1000, prior="log-uniform")`, `Integer(-1000, 1000000)` and `Categorical("abc")` in double precision. -/
noncomputable def dblDims : List (Dim (Bin 53)) := [.real dblReal, .int dblInt, .cat dblCat]

theorem dblReal_bounds : 1 / 1024 ≤ dblReal.low.1 ∧ dblReal.low.1 ≤ 1 ∧ dblReal.high.1 = 1000 ∧ dblReal.base.1 = 10 := by
  have e1 : |dblReal.low.1 - 1 / 1000| ≤ 1 / 2 ^ 53 * |(1 / 1000 : ℝ)| := rnd_err 53 (1 / 1000)
  rw [abs_of_pos (a := (1 / 1000 : ℝ)) (by norm_num), abs_le] at e1
  refine ⟨by linarith [e1.1], by linarith [e1.2], ?_, ?_⟩
  · rw [dblReal, dbl_val (by decide)]; norm_num
  · rw [dblReal, dbl_val (by decide)]; norm_num

theorem dblDims_valid : ∀ d ∈ dblDims, ValidDim (binArith 53) d := by
  obtain ⟨h1, h2, h3, h4⟩ := dblReal_bounds
  intro d hd
  simp only [dblDims, List.mem_cons, List.not_mem_nil, or_false] at hd
  rcases hd with rfl | rfl | rfl
  · refine ⟨?_, Or.inr rfl, fun x a b => ⟨a, b⟩⟩
    show dblReal.low.1 < dblReal.high.1
    rw [h3]; linarith
  · exact dblInt_valid
  · refine ⟨by simp [dblCat], by simp [dblCat], ⟨?_, Or.inr ?_⟩⟩ <;>
    · intro v hv
      simp only [dblCat, List.mem_cons, List.not_mem_nil, or_false] at hv
      rcases hv with rfl | rfl | rfl <;> rfl

theorem dblDims_ordinary : ∀ d ∈ dblDims, Ordinary d := by
  obtain ⟨h1, h2, h3, h4⟩ := dblReal_bounds
  intro d hd
  simp only [dblDims, List.mem_cons, List.not_mem_nil, or_false] at hd
  rcases hd with rfl | rfl | rfl
  · refine ⟨fun x => rfl, fun _ => ⟨le_trans ?_ h1, ?_, ?_, ?_⟩⟩
    · rw [show (1024 : ℝ) = 2 ^ 10 by norm_num]
      exact one_div_le_one_div_of_le (by norm_num) (pow_le_pow_right₀ one_le_two (by norm_num))
    · rw [h3]
      exact le_trans (by norm_num) (pow_le_pow_right₀ (one_le_two (α := ℝ)) (show 10 ≤ 1000 by norm_num))
    · rw [h4]; norm_num
    · rw [h4]
      exact le_trans (by norm_num) (pow_le_pow_right₀ (one_le_two (α := ℝ)) (show 10 ≤ 1000 by norm_num))
  · exact dblInt_moderate
  · show (3 : ℕ) ≤ 2 ^ 48
    norm_num

theorem dblDims_float : FloatSpace (binArith 53) Subtype.val (1 / 2 ^ 53) 0 (2 ^ 53) dblDims := by
  refine ⟨by simp [dblDims], dblDims_valid, fun d hd => (dblDims_ordinary d hd).fine (dblDims_valid d hd), ?_⟩
  intro d hd
  simp only [dblDims, List.mem_cons, List.not_mem_nil, or_false] at hd
  rcases hd with rfl | rfl | rfl
  · exact Or.inl rfl
  · exact Or.inl rfl
  · exact Or.inl rfl

/-- The first coordinate. -/
def firstObjective : Objective F := fun _ x => match x with
  | .seq (.num a :: _) => .ok (.num (.fin a))
  | _ => .error .typeError

theorem firstObjective_total : Rounded.TotalOn (binArith 53) false dblDims firstObjective := by
  intro done p hp
  cases hp with
  | cons h1 h =>
    obtain ⟨a, rfl, _⟩ := h1
    exact ⟨_, rfl, a, rfl⟩

/-- A point of the space. -/
noncomputable def dblPoint : Point (Bin 53) := [.num ((binArith 53).ofInt 3), .num ((binArith 53).ofInt 2), .str "b"]

theorem dblPoint_mem : InSpace (binArith 53) dblDims dblPoint := by
  obtain ⟨h1, h2, h3, h4⟩ := dblReal_bounds
  have e : (((binArith 53).ofInt 3).1 : ℝ) = 3 := by rw [dbl_val (by decide)]; norm_num
  refine .cons ⟨_, rfl, ?_, ?_⟩ (.cons (dbl_legal rfl rfl (by norm_num) (by norm_num)) (.cons (by simp [Legal, dblCat]) .nil))
  · show dblReal.low.1 ≤ ((binArith 53).ofInt 3).1
    rw [e]; linarith
  · show ((binArith 53).ofInt 3).1 ≤ dblReal.high.1
    rw [e, h3]; norm_num

/-- A starting point, eight evaluations of which five are random. -/
noncomputable def dblCall : WrapArgs (Bin 53) Unit :=
  { nCalls := 8, nInitialPoints := 5, x0 := .list dblPoint, acqFunc := "gp_hedge", acqOptimizer := "lbfgs" }

theorem dblCall_wellPosed : Rounded.WellPosedCall (binArith 53) dblDims dblCall (.point dblPoint) := by
  refine ⟨rfl, ⟨_, _, rfl, rfl⟩, ?_, Or.inl rfl, ?_, Or.inr (by simp [Starts.all]), ?_, ?_, ?_, ?_⟩
  · intro p hp
    simp only [Starts.all, List.mem_singleton] at hp
    subst hp
    exact dblPoint_mem
  · decide
  · decide
  · intro _; decide
  · rintro ⟨⟩
  · intro c hc
    cases hc

theorem dblCall_sane : Rounded.SaneCall dblCall :=
  ⟨by simp [dblCall], by decide, by decide, by rintro k ⟨⟩⟩

/-- A whole run of `gp_minimize` with `gp_hedge` and L-BFGS in double precision.
Meets the hypotheses of `C145_gp_minimize`. -/
example : Rounded.Completes (binArith 53) dblDims .none 8 (gpMinimize (binArith 53) (zeroWorld (binArith 53)) ⟨dblDims, none⟩
    firstObjective none dblCall ()) :=
  C145_double_gp_minimize (zeroWorld (binArith 53)) ⟨dblDims, none⟩ firstObjective dblCall (.point dblPoint) ()
    dblDims_float.nonempty dblDims_valid dblDims_ordinary dblCall_sane
    (Or.inr (Or.inr ⟨rfl, .real dblReal, by simp [dblDims], rfl⟩))
    (zeroWorld_reliable (binArith_orderly (by norm_num)) (by
      intro d hd
      obtain ⟨e, he, rfl⟩ := List.mem_map.1 hd
      exact (dblDims_valid e he).normalized))
    (Or.inl rfl) firstObjective_total dblCall_wellPosed

/-- Whole runs of `forest_minimize`, `gbrt_minimize` and `dummy_minimize` in double precision.
Meets the hypotheses of `C145_minimize`. -/
example : Rounded.Completes (binArith 53) dblDims .none 8 (forestMinimize (binArith 53) (zeroWorld (binArith 53)) ⟨dblDims, none⟩
      firstObjective (.name "et") dblCall ()) ∧
    Rounded.Completes (binArith 53) dblDims .none 8 (gbrtMinimize (binArith 53) (zeroWorld (binArith 53)) ⟨dblDims, none⟩
      firstObjective none dblCall ()) ∧
    Rounded.Completes (binArith 53) dblDims .none 8 (dummyMinimize (binArith 53) (zeroWorld (binArith 53)) ⟨dblDims, none⟩
      firstObjective 8 (Starts.absent : Starts (Bin 53)).toX0 .none false (.none : CbArg (Bin 53) Unit) none ()) := by
  have ho := binArith_orderly (p := 53) (by norm_num)
  have hf := binArith_floatLike (p := 53) (by norm_num)
  have hW := zeroWorld_reliable ho dblDims_valid
  have h := C145_forest_minimize hf ho (zeroWorld (binArith 53)) ⟨dblDims, none⟩ firstObjective dblCall (.point dblPoint) ()
    dblDims_float dblCall_sane hW (Or.inl rfl) firstObjective_total dblCall_wellPosed
  exact ⟨h.1 "et" (by decide +kernel), h.2,
    C145_dummy_minimize hf ho (zeroWorld (binArith 53)) ⟨dblDims, none⟩ firstObjective 8 .absent .none false .none none ()
      dblDims_float hW rfl firstObjective_total (by rintro k ⟨⟩) trivial
      (by intro p hp; cases hp) (by norm_num) (Or.inl ⟨rfl, rfl⟩) (by rintro ⟨⟩) (by intro c hc; cases hc)⟩

/-- An ask-tell session in double precision: asking for one and for three points, telling, updating the suggestion,
reading the result. -/
example : ∃ sh' s, Opt.init (binArith 53) (zeroWorld (binArith 53)) ⟨dblDims, none⟩ liveCfg () = (sh', .ok s) ∧
    ∀ r ∈ (runOps (binArith 53) (zeroWorld (binArith 53)) sh' s
      ([.ask, .askMany 3 .clMean, .one dblPoint (.num (.fin ((binArith 53).ofInt 7))) true,
        .getResult, .updateNext, .ask].map Call.toOp)).2.2, Returns r := by
  obtain ⟨sh', s, h, hall⟩ := C145_every_call (binArith_floatLike (p := 53) (by norm_num))
    (binArith_orderly (by norm_num)) (zeroWorld (binArith 53)) ⟨dblDims, none⟩
    liveCfg ⟨(by decide), fun _ => (by decide), fun k hk => (by cases hk; decide)⟩ (by decide)
    dblDims_float (zeroWorld_reliable (binArith_orderly (by norm_num)) dblDims_valid) (Or.inl rfl) ()
  exact ⟨sh', s, h, hall _ ⟨trivial, ⟨by norm_num, by decide⟩, ⟨dblPoint_mem, ⟨_, rfl⟩, rfl⟩, rfl, trivial, trivial,
    trivial⟩⟩

end Skopt

import Verif.Lemmas.RandomSearch
import Verif.Lemmas.Reach
import Mathlib.Analysis.SpecificLimits.Basic

/-!
# C108: random search comes arbitrarily close to the optimum with probability tending to one
-/

namespace Skopt

open MeasureTheory Filter Topology

variable {M R G : Type}

/-! ## Specification -/

/-- The distribution of the numbers behind one sample of the space: independent, each from the distribution of its
dimension. -/
noncomputable def drawLaw (dims : List (Dim ℝ)) : Measure (Fin dims.length → ℝ) :=
  Measure.pi fun i : Fin dims.length => (dims[i]).rawLaw

/-- The numbers behind `n` independent samples. -/
noncomputable def drawsLaw (dims : List (Dim ℝ)) (n : Nat) : Measure (Fin n → Fin dims.length → ℝ) :=
  Measure.pi fun _ : Fin n => drawLaw dims

/-- The probability that one sample of the space is not one of the given points. -/
noncomputable def missChance (dims : List (Dim ℝ)) (T : Set (Point ℝ)) : ENNReal :=
  drawLaw dims {u | ¬ ∃ p, Space.rvs exact dims (List.ofFn fun i => rawOf (u i)) = .ok [p] ∧ p ∈ T}

/-- The points at which the objective never exceeds `c`, whatever was evaluated before. -/
def sublevel (func : Objective ℝ) (c : ℝ) : Set (Point ℝ) := {p | ∀ done y, func done (.seq p) = .ok y → AtMost c y}

/-- The run returns a result with an optimum of at most `c`. -/
def Reports (c : ℝ) (out : Outcome ℝ M G) : Prop := ∃ r f, out.result = .ok (some r) ∧ r.fun_ = .fin f ∧ f ≤ c

/-! ## Lemmas -/

instance drawLaw_finite (dims : List (Dim ℝ)) : IsFiniteMeasure (drawLaw dims) := by
  unfold drawLaw; infer_instance

instance drawsLaw_finite (dims : List (Dim ℝ)) (n : Nat) : IsFiniteMeasure (drawsLaw dims n) := by
  unfold drawsLaw; infer_instance

theorem drawLaw_prob {dims : List (Dim ℝ)} (hd : Workable dims) (hp : ∀ d ∈ dims, ProperPrior d) :
    IsProbabilityMeasure (drawLaw dims) := by
  have : ∀ i : Fin dims.length, IsProbabilityMeasure (dims[i]).rawLaw := fun i =>
    Dim.rawLaw_prob (hd.valid _ (List.getElem_mem _)) (hd.invertible _ (List.getElem_mem _)) (hp _ (List.getElem_mem _))
  unfold drawLaw
  infer_instance

theorem drawsLaw_prob {dims : List (Dim ℝ)} (hd : Workable dims) (hp : ∀ d ∈ dims, ProperPrior d) (n : Nat) :
    IsProbabilityMeasure (drawsLaw dims n) := by
  have := drawLaw_prob hd hp
  unfold drawsLaw
  infer_instance

theorem drawsLaw_pi (dims : List (Dim ℝ)) (n : Nat) (A : Set (Fin dims.length → ℝ)) :
    drawsLaw dims n (Set.univ.pi fun _ => A) = drawLaw dims A ^ n := by
  unfold drawsLaw
  rw [Measure.pi_pi]
  simp

/-! ## C108 -/

/-- **C108 (initial phase).** However the search goes on afterwards, a run with `n` random initial points – any
surrogate or none – fails to report a value of at most `c` at most with the probability that `n` independent samples
of the space all miss the points where the objective is at most `c`. -/
theorem C108_initial_phase (W : World ℝ M R G) (sh : Shared ℝ G) (func : Objective ℝ) (m : MinArgs ℝ M) (c : ℝ)
    (hset : SaneArgs m.opt) (hd : Workable (searched m.opt.est.isGP sh.dims))
    (hW : Reliable W (searched m.opt.est.isGP sh.dims)) (hgen : sh.gen = none)
    (hfunc : TotalOn m.opt.perSecond sh.dims func) (hx : m.x0 = .none) (hy : m.y0 = .none)
    (n : Nat) (hn : m.nRandomStarts.getD m.nInitialPoints = n) (hpos : 0 < n) (hcalls : (n : ℤ) ≤ m.nCalls)
    (hcb : m.callback ≠ .invalid) (hpat : Patient m.callback.callables)
    (rng : (Fin n → Fin (searched m.opt.est.isGP sh.dims).length → ℝ) → R)
    (hrng : ∀ᵐ ω ∂drawsLaw (searched m.opt.est.isGP sh.dims) n,
      Delivers W (searched m.opt.est.isGP sh.dims) (rng ω) (List.ofFn ω)) :
    drawsLaw (searched m.opt.est.isGP sh.dims) n {ω | ¬ Reports c (baseMinimize exact W sh func m (rng ω))} ≤
      missChance (searched m.opt.est.isGP sh.dims) (sublevel func c) ^ n := by
  unfold missChance
  rw [← drawsLaw_pi]
  refine le_trans (measure_mono_ae ?_) le_rfl
  filter_upwards [hrng] with ω hdel hbad
  refine Set.mem_univ_pi.2 ?_
  rintro j ⟨p, hp, hT⟩
  apply hbad
  obtain ⟨r, h1, f, h2, h3⟩ := baseMinimize_random W sh func m (rng ω) hset hd hW hgen hfunc hx hy (List.ofFn ω)
    (by simpa using hn) (by simpa using hpos.ne') (by simpa using hcalls) hcb hpat hdel
    ⟨ω j, (List.mem_ofFn' _ _).2 ⟨j, rfl⟩, p, hp, hT⟩
  exact ⟨r, f, h1, h2, h3⟩

/-- **C108 (random search).** `dummy_minimize` with `n` calls fails to report a value of at most `c` at most with the
probability that `n` independent samples of the space all miss the points where the objective is at most `c`. -/
theorem C108_random_search (W : World ℝ M R G) (sh : Shared ℝ G) (func : Objective ℝ) (c : ℝ)
    (hd : Workable sh.dims) (hW : Reliable W sh.dims) (hgen : sh.gen = none) (hfunc : TotalOn false sh.dims func)
    (n : Nat) (hpos : 0 < n) (verbose : Bool) (cb : CbArg ℝ M) (hcb : cb ≠ .invalid) (hpat : Patient cb.callables)
    (q : Option ℤ) (hq : ∀ k, q = some k → 0 < k) (rng : (Fin n → Fin sh.dims.length → ℝ) → R)
    (hrng : ∀ᵐ ω ∂drawsLaw sh.dims n, Delivers W sh.dims (rng ω) (List.ofFn ω)) :
    drawsLaw sh.dims n
        {ω | ¬ Reports c (dummyMinimize exact W sh func n .none .none verbose cb q (rng ω))} ≤
      missChance sh.dims (sublevel func c) ^ n := by
  exact C108_initial_phase W sh func
    { opt := { est := { isNone := true, isRegressor := false }, acq := some .EI
               acqOptimizer := .sampling, queueSize := q }
      nCalls := n, nInitialPoints := n, x0 := .none, y0 := .none, verbose := verbose, callback := cb } c
    ⟨⟨_, rfl⟩, .inr rfl, .inl rfl, by norm_num, by norm_num, hq⟩ hd hW hgen hfunc rfl rfl n rfl hpos le_rfl hcb hpat rng hrng

/-- **C108 (samples near any point).** A sample of the space has a positive probability to be close to any given point
of the space that the priors do not rule out: equal in the Integer and Categorical coordinates and less than `δ`
away in the Real ones. -/
theorem C108_samples_near (dims : List (Dim ℝ)) (hd : Workable dims) (hp : ∀ d ∈ dims, ProperPrior d) (p : Point ℝ)
    (hin : InSpace exact dims p) (hdr : List.Forall₂ Drawable dims p) (δ : ℝ) (hδ : 0 < δ) :
    missChance dims {q | InSpace exact dims q ∧ Near δ dims p q} < 1 := by
  have := drawLaw_prob hd hp
  have hlen : dims.length = p.length := hin.length_eq
  have hreach : ∀ i : Fin dims.length, ∃ H, MeasurableSet H ∧ 0 < (dims[i]).rawLaw H ∧
      ∀ u ∈ H, ∃ w, (dims[i]).rvs exact (rawOf u) = .ok [w] ∧ Close δ dims[i] (p[i.val]'(hlen ▸ i.isLt)) w := by
    intro i
    have hmem : dims[i] ∈ dims := List.getElem_mem _
    exact Dim.reach (hd.valid _ hmem) (hd.invertible _ hmem) (hd.dtype _ hmem)
      (List.forall₂_iff_get.1 hin |>.2 i.val i.isLt (hlen ▸ i.isLt))
      (List.forall₂_iff_get.1 hdr |>.2 i.val i.isLt (hlen ▸ i.isLt)) hδ
  choose H hm hpos hH using hreach
  have hbox : drawLaw dims (Set.univ.pi H) ≠ 0 := by
    unfold drawLaw
    rw [Measure.pi_pi]
    exact Finset.prod_ne_zero_iff.2 fun i _ => (hpos i).ne'
  refine lt_of_le_of_lt (measure_mono (t := (Set.univ.pi H)ᶜ) ?_) ?_
  · intro u hu hmem
    apply hu
    rw [Set.mem_univ_pi] at hmem
    choose w hw hc using fun i => hH i (u i) (hmem i)
    have hz : dims.zip (List.ofFn fun i => rawOf (u i)) ≠ [] := by
      intro h
      have := congrArg List.length h
      simp at this
      exact hd.nonempty this
    have hraw : ∀ r ∈ List.ofFn (fun i => rawOf (u i)), r.nums.length = 1 ∧ r.idxs.length = 1 := by
      intro r hr
      obtain ⟨i, rfl⟩ := (List.mem_ofFn' _ _).1 hr
      exact ⟨rfl, rfl⟩
    have hrvs : Space.rvs exact dims (List.ofFn fun i => rawOf (u i)) = .ok [List.ofFn w] := by
      rw [space_rvs_single hz hd.valid hraw, List.forall₂_iff_get]
      simp only [List.length_zip, List.length_ofFn, min_self, List.get_eq_getElem, List.getElem_zip, List.getElem_ofFn]
      exact ⟨trivial, fun i h1 _ => hw ⟨i, h1⟩⟩
    refine ⟨_, hrvs, ?_, ?_⟩
    · exact (C05_rvs_in_space exact exact_orderly dims hd.valid 1 _ (by simp) hraw _ hrvs).2 _ (by simp)
    · refine ⟨by simp [hlen], fun i d v v' e1 e2 e3 => ?_⟩
      obtain ⟨i1, rfl⟩ := List.getElem?_eq_some_iff.1 e1
      obtain ⟨i2, rfl⟩ := List.getElem?_eq_some_iff.1 e2
      obtain ⟨i3, rfl⟩ := List.getElem?_eq_some_iff.1 e3
      rw [List.getElem_ofFn]
      exact hc ⟨i, i1⟩
  · rw [prob_compl_eq_one_sub (MeasurableSet.univ_pi hm)]
    exact ENNReal.sub_lt_self ENNReal.one_ne_top one_ne_zero hbox

theorem converges_of_near (W : World ℝ M R G) (sh : Shared ℝ G) (func : Objective ℝ)
    (hd : Workable sh.dims) (hp : ∀ d ∈ sh.dims, ProperPrior d) (hW : Reliable W sh.dims) (hgen : sh.gen = none)
    (hfunc : TotalOn false sh.dims func) (verbose : Bool) (cb : CbArg ℝ M) (hcb : cb ≠ .invalid)
    (hpat : Patient cb.callables) (q : Option ℤ) (hq : ∀ k, q = some k → 0 < k)
    (rng : ∀ n : Nat, (Fin n → Fin sh.dims.length → ℝ) → R)
    (hrng : ∀ n, ∀ᵐ ω ∂drawsLaw sh.dims n, Delivers W sh.dims (rng n ω) (List.ofFn ω))
    (p : Point ℝ) (hin : InSpace exact sh.dims p) (hdr : List.Forall₂ Drawable sh.dims p) (c : ℝ)
    (hnear : ∃ δ > 0, ∀ q, InSpace exact sh.dims q → Near δ sh.dims p q → q ∈ sublevel func c) :
    Tendsto (fun n : Nat => drawsLaw sh.dims n
      {ω | Reports c (dummyMinimize exact W sh func n .none .none verbose cb q (rng n ω))}) atTop (𝓝 1) := by
  obtain ⟨δ, hδ, hnear⟩ := hnear
  have hmiss : missChance sh.dims (sublevel func c) < 1 := by
    refine lt_of_le_of_lt (measure_mono ?_) (C108_samples_near sh.dims hd hp p hin hdr δ hδ)
    rintro u hu ⟨q, h1, h2, h3⟩
    exact hu ⟨q, h1, hnear q h2 h3⟩
  have hpow : Tendsto (fun n : Nat => missChance sh.dims (sublevel func c) ^ n) atTop (𝓝 0) :=
    ENNReal.tendsto_pow_atTop_nhds_zero_of_lt_one hmiss
  have hlow : Tendsto (fun n : Nat => 1 - missChance sh.dims (sublevel func c) ^ n) atTop (𝓝 1) := by
    have := ENNReal.Tendsto.sub (tendsto_const_nhds (x := (1 : ENNReal))) hpow (.inl ENNReal.one_ne_top)
    simpa using this
  refine tendsto_of_tendsto_of_tendsto_of_le_of_le' hlow tendsto_const_nhds ?_ ?_
  · filter_upwards [eventually_gt_atTop 0] with n hn
    have hprob := drawsLaw_prob hd hp n
    have hbad := C108_random_search W sh func c hd hW hgen hfunc n hn verbose cb hcb hpat q hq (rng n) (hrng n)
    rw [tsub_le_iff_right]
    refine le_trans ?_ (add_le_add_right hbad _)
    rw [← measure_univ (μ := drawsLaw sh.dims n)]
    refine le_trans (measure_mono ?_) (measure_union_le _ _)
    intro ω _
    exact Classical.em _
  · filter_upwards with n
    have := drawsLaw_prob hd hp n
    exact prob_le_one

/-- **C108 (convergence).** For every point of the space that the priors do not rule out and near which the objective
exceeds `f` only by little, and for every `ε > 0`: the probability that `dummy_minimize` with `n` calls reports at most
`f + ε` tends to one as `n` grows. -/
theorem C108_converges (W : World ℝ M R G) (sh : Shared ℝ G) (func : Objective ℝ)
    (hd : Workable sh.dims) (hp : ∀ d ∈ sh.dims, ProperPrior d) (hW : Reliable W sh.dims) (hgen : sh.gen = none)
    (hfunc : TotalOn false sh.dims func) (verbose : Bool) (cb : CbArg ℝ M) (hcb : cb ≠ .invalid)
    (hpat : Patient cb.callables) (q : Option ℤ) (hq : ∀ k, q = some k → 0 < k)
    (rng : ∀ n : Nat, (Fin n → Fin sh.dims.length → ℝ) → R)
    (hrng : ∀ n, ∀ᵐ ω ∂drawsLaw sh.dims n, Delivers W sh.dims (rng n ω) (List.ofFn ω))
    (p : Point ℝ) (hin : InSpace exact sh.dims p) (hdr : List.Forall₂ Drawable sh.dims p) (f : ℝ)
    (hcont : ∀ ε > 0, ∃ δ > 0, ∀ q, InSpace exact sh.dims q → Near δ sh.dims p q → q ∈ sublevel func (f + ε))
    (ε : ℝ) (hε : 0 < ε) :
    Tendsto (fun n : Nat => drawsLaw sh.dims n
      {ω | Reports (f + ε) (dummyMinimize exact W sh func n .none .none verbose cb q (rng n ω))}) atTop (𝓝 1) :=
  converges_of_near W sh func hd hp hW hgen hfunc verbose cb hcb hpat q hq rng hrng p hin hdr (f + ε) (hcont ε hε)

/-- **C108 (finite spaces).** Without Real dimensions the optimum itself is found: for every point of the space that
the priors do not rule out and at which the objective is at most `f`, the probability that `dummy_minimize` with `n`
calls reports at most `f` tends to one as `n` grows. -/
theorem C108_finite_spaces (W : World ℝ M R G) (sh : Shared ℝ G) (func : Objective ℝ)
    (hd : Workable sh.dims) (hp : ∀ d ∈ sh.dims, ProperPrior d) (hW : Reliable W sh.dims) (hgen : sh.gen = none)
    (hfunc : TotalOn false sh.dims func) (verbose : Bool) (cb : CbArg ℝ M) (hcb : cb ≠ .invalid)
    (hpat : Patient cb.callables) (q : Option ℤ) (hq : ∀ k, q = some k → 0 < k)
    (rng : ∀ n : Nat, (Fin n → Fin sh.dims.length → ℝ) → R)
    (hrng : ∀ n, ∀ᵐ ω ∂drawsLaw sh.dims n, Delivers W sh.dims (rng n ω) (List.ofFn ω))
    (hfin : ∀ r, Dim.real r ∉ sh.dims)
    (p : Point ℝ) (hin : InSpace exact sh.dims p) (hdr : List.Forall₂ Drawable sh.dims p) (f : ℝ)
    (hf : p ∈ sublevel func f) :
    Tendsto (fun n : Nat => drawsLaw sh.dims n
      {ω | Reports f (dummyMinimize exact W sh func n .none .none verbose cb q (rng n ω))}) atTop (𝓝 1) := by
  refine converges_of_near W sh func hd hp hW hgen hfunc verbose cb hcb hpat q hq rng hrng p hin hdr f
    ⟨1, one_pos, fun q hq hclose => ?_⟩
  suffices h : p = q from h ▸ hf
  refine List.ext_getElem hclose.1.symm fun i h1 h2 => ?_
  have h0 : i < sh.dims.length := by rw [hin.length_eq]; exact h1
  have := hclose.2 i _ _ _ (List.getElem?_eq_getElem h0) (List.getElem?_eq_getElem h1) (List.getElem?_eq_getElem h2)
  have hmem : sh.dims[i] ∈ sh.dims := List.getElem_mem _
  cases hdi : sh.dims[i] with
  | real r => exact absurd (hdi ▸ hmem) (hfin r)
  | int r => rw [hdi] at this; exact this
  | cat c => rw [hdi] at this; exact this

/-! ## An example -/

/-- A world whose generator state is the list of the numbers it is going to draw. -/
noncomputable def tapeWorld : World ℝ Unit (List (List ℝ)) Unit where
  fit r _ _ := (r, .ok ())
  predict _ X := .ok (X.map fun _ => 0)
  draws r dims n := match r with
    | u :: us => if n = 1 ∧ u.length = dims.length then (us, u.map rawOf)
      else (us, dims.map fun _ => ⟨List.replicate n 2, List.replicate n 0⟩)
    | [] => ([], dims.map fun _ => ⟨List.replicate n 2, List.replicate n 0⟩)
  acquisition _ X _ _ := .ok (X.map fun _ => .fin 0)
  argsort v := List.range v.length
  lbfgs r _ _ _ x := (r, .ok (x, .fin 0))
  multinomial r p := (r, (List.range p.length).map fun i => if i = 1 then 1 else 0)
  exp x := x
  log t := .ok t
  logMax := 700
  eta := 1
  seed r := (r, r)
  generate g dims _ _ := (g, (dims, .ok []))

/-- `[Real(0, 10), Integer(1, 8)]`. -/
noncomputable def tapeDims : List (Dim ℝ) :=
  [.real ⟨0, 10, .uniform, 10, .identity, none, id⟩, .int ⟨(1 : ℤ), (8 : ℤ), .uniform, 10, .identity, none, id⟩]

/-- `(x - 3)² + (k - 2)²`. -/
noncomputable def bowl : Objective ℝ := fun _ v => match v with
  | .seq [.num x, .num k] => .ok (.num (.fin ((x - 3) ^ 2 + (k - 2) ^ 2)))
  | _ => .error .typeError

theorem tapeDims_workable : Workable tapeDims := by
  have mem : ∀ P : Dim ℝ → Prop, (∀ d ∈ tapeDims, P d) ↔ P (.real ⟨0, 10, .uniform, 10, .identity, none, id⟩) ∧
      P (.int ⟨(1 : ℤ), (8 : ℤ), .uniform, 10, .identity, none, id⟩) := by
    intro P
    simp [tapeDims]
  refine ⟨by simp [tapeDims], ?_, ?_, ?_, ?_⟩
  · rw [mem]
    exact ⟨⟨by norm_num, Or.inl rfl, fun x h1 h2 => ⟨h1, h2⟩⟩, ⟨1, 8, by norm_num, rfl, rfl,
      roundHalfEven_intCast (K := ℝ) 1, roundHalfEven_intCast (K := ℝ) 8, Or.inl rfl, fun _ _ _ => rfl⟩⟩
  · rw [mem]
    exact ⟨fun h => (by cases h), fun h => (by cases h)⟩
  · rw [mem]
    exact ⟨Or.inr (Or.inl rfl), Or.inr rfl⟩
  · rw [mem]
    refine ⟨?_, fun _ _ => trivial⟩
    rintro v ⟨x, rfl, _, _⟩
    rfl

theorem tapeWorld_reliable_of (dims : List (Dim ℝ)) (hd : ∀ d ∈ dims, ∀ raw, UsableDraw d raw) :
    Reliable tapeWorld dims where
  fit _ _ _ _ _ _ _ _ := ⟨(), rfl⟩
  predict _ X _ _ := ⟨_, rfl, by simp⟩
  draws r n := by
    have hany : ∀ raws : List (RawDraw ℝ), raws.length = dims.length → List.Forall₂ UsableDraw dims raws := by
      intro raws h
      exact List.forall₂_iff_zip.2 ⟨h.symm, fun hz => hd _ (List.of_mem_zip hz).1 _⟩
    have hdef : List.Forall₂ UsableDraw dims (dims.map fun _ => ⟨List.replicate n 2, List.replicate n 0⟩) ∧
        ∀ d ∈ dims.map fun _ => (⟨List.replicate n 2, List.replicate n 0⟩ : RawDraw ℝ),
          d.nums.length = n ∧ d.idxs.length = n := by
      refine ⟨hany _ (by simp), ?_⟩
      intro d hd
      obtain ⟨_, _, rfl⟩ := List.mem_map.1 hd
      simp
    cases r with
    | nil => exact hdef
    | cons u us =>
      by_cases h : n = 1 ∧ u.length = dims.length
      · have e : (tapeWorld.draws (u :: us) dims n).2 = u.map rawOf := by
          simp only [tapeWorld, if_pos h]
        rw [e]
        refine ⟨hany _ (by rw [List.length_map]; exact h.2), ?_⟩
        intro d hd
        obtain ⟨_, _, rfl⟩ := List.mem_map.1 hd
        rw [h.1]
        exact ⟨rfl, rfl⟩
      · have e : (tapeWorld.draws (u :: us) dims n).2 =
            dims.map fun _ => ⟨List.replicate n 2, List.replicate n 0⟩ := by
          simp only [tapeWorld, if_neg h]
        rw [e]
        exact hdef
  acquisition _ X _ _ _ _ := ⟨_, rfl, by simp⟩
  argsort v hv := by
    constructor
    · simpa [tapeWorld] using hv
    · intro i hi
      simpa [tapeWorld] using hi
  lbfgs _ _ _ _ x hx := ⟨x, .fin 0, rfl, hx⟩
  multinomial _ p := by simp [tapeWorld]
  log t _ := ⟨_, rfl⟩

theorem tapeWorld_reliable : Reliable tapeWorld tapeDims := tapeWorld_reliable_of tapeDims (by
  intro d hd raw
  simp only [tapeDims, List.mem_cons, List.not_mem_nil, or_false] at hd
  rcases hd with rfl | rfl <;> exact ⟨fun h => (by cases h), trivial⟩)

theorem tapeWorld_delivers {dims : List (Dim ℝ)} (rest : List (List ℝ)) (us : List (Fin dims.length → ℝ)) :
    Delivers tapeWorld dims (us.map (fun u => List.ofFn u) ++ rest) us := by
  induction us with
  | nil => trivial
  | cons u us ih =>
    refine ⟨us.map (fun u => List.ofFn u) ++ rest, ?_, ih⟩
    simp [tapeWorld, List.map_ofFn, Function.comp_def]

theorem bowl_total : TotalOn false tapeDims bowl := by
  intro done p hp
  unfold tapeDims at hp
  obtain ⟨x, vs, ⟨a, rfl, -, -⟩, h, rfl⟩ := List.forall₂_cons_left_iff.1 hp
  obtain ⟨y, ws, ⟨k, rfl, -, -⟩, h', rfl⟩ := List.forall₂_cons_left_iff.1 h
  cases h'
  exact ⟨_, rfl, _, rfl⟩

/-- Random search for the minimum of `(x - 3)² + (k - 2)²` over `Real(0, 10)` and `Integer(1, 8)`: however small `ε`,
with enough calls the reported value is almost surely at most `ε`. -/
example (ε : ℝ) (hε : 0 < ε) : Tendsto (fun n : Nat => drawsLaw tapeDims n {ω | Reports ε
    (dummyMinimize exact tapeWorld ⟨tapeDims, none⟩ bowl n .none .none false .none none
      ((List.ofFn ω).map fun u => List.ofFn u))}) atTop (𝓝 1) := by
  have hin : InSpace exact tapeDims [.num 3, .num (2 : ℤ)] :=
    .cons ⟨3, rfl, by norm_num, by norm_num⟩ (.cons ⟨2, rfl, by norm_num [exact], by norm_num [exact]⟩ .nil)
  have := C108_converges tapeWorld ⟨tapeDims, none⟩ bowl tapeDims_workable (by simp [tapeDims, ProperPrior])
    tapeWorld_reliable rfl bowl_total false .none (by simp) (by simp [Patient, CbArg.callables]) none (by simp)
    (fun n ω => (List.ofFn ω).map fun u => List.ofFn u) (fun n => .of_forall fun ω => by
      simpa using tapeWorld_delivers [] (List.ofFn ω))
    [.num 3, .num (2 : ℤ)] hin (.cons trivial (.cons trivial .nil)) 0 (fun ε hε => ?_) ε hε
  · simpa using this
  · refine ⟨min ε 1, by positivity, ?_⟩
    rintro q - ⟨hl, hn⟩ done y hy
    obtain ⟨v, w, rfl⟩ := List.length_eq_two.1 hl
    obtain ⟨x, a, e1, rfl, hxa⟩ := hn 0 _ _ _ rfl rfl rfl
    have e2 : (Val.num ((2 : ℤ) : ℝ)) = w := hn 1 _ _ _ rfl rfl rfl
    subst e2
    simp only [Val.num.injEq] at e1
    subst e1
    simp only [bowl, Except.ok.injEq] at hy
    refine ⟨_, ?_, .inl hy.symm⟩
    rw [abs_lt, lt_min_iff, neg_lt] at hxa
    have g1 := min_le_left ε 1
    have g2 := min_le_right ε 1
    push_cast
    have : |a - 3| ≤ 1 := by rw [abs_le]; constructor <;> linarith [hxa.1, hxa.2]
    have h3 : |a - 3| ≤ ε := by rw [abs_le]; constructor <;> linarith [hxa.1, hxa.2]
    rw [← sq_abs]
    nlinarith [abs_nonneg (a - 3)]

/-- A sample has a positive chance to be within a millionth of `[3, 2]`. -/
example : missChance tapeDims {q | InSpace exact tapeDims q ∧ Near (1 / 10 ^ 6) tapeDims [.num 3, .num (2 : ℤ)] q} < 1 :=
  C108_samples_near tapeDims tapeDims_workable (by simp [tapeDims, ProperPrior]) _
    (.cons ⟨3, rfl, by norm_num, by norm_num⟩ (.cons ⟨2, rfl, by norm_num [exact], by norm_num [exact]⟩ .nil))
    (.cons trivial (.cons trivial .nil)) _ (by norm_num)

/-- A model-based search with twenty evaluations of which the first five are random: the chance to end above 1 is at
most the chance to end above 1 after five samples. -/
example (ω₀ : List (List ℝ)) : drawsLaw tapeDims 5 {ω | ¬ Reports 1 (baseMinimize exact tapeWorld ⟨tapeDims, none⟩ bowl
      { opt := { est := { isNone := false, isRegressor := true }, acq := some .EI, acqOptimizer := .sampling }
        nCalls := 20, nInitialPoints := 5 } ((List.ofFn ω).map (fun u => List.ofFn u) ++ ω₀))} ≤
    missChance tapeDims (sublevel bowl 1) ^ 5 :=
  C108_initial_phase tapeWorld ⟨tapeDims, none⟩ bowl
    { opt := { est := { isNone := false, isRegressor := true }, acq := some .EI, acqOptimizer := .sampling }
      nCalls := 20, nInitialPoints := 5 } 1
    ⟨⟨_, rfl⟩, .inl rfl, .inl rfl, by norm_num, by norm_num, by rintro k ⟨⟩⟩ tapeDims_workable tapeWorld_reliable rfl
    bowl_total rfl rfl 5 rfl (by norm_num) (by norm_num) (by simp) (by simp [Patient, CbArg.callables])
    (fun ω => (List.ofFn ω).map (fun u => List.ofFn u) ++ ω₀) (.of_forall fun ω => tapeWorld_delivers ω₀ (List.ofFn ω))

/-- Ten random samples: the chance to end above 1 is at most the tenth power of the chance of one sample to be above 1
(`C108_random_search`). -/
example : drawsLaw tapeDims 10 {ω | ¬ Reports 1 (dummyMinimize exact tapeWorld ⟨tapeDims, none⟩ bowl ((10 : Nat) : ℤ) .none .none
      false .none none ((List.ofFn ω).map fun u => List.ofFn u))} ≤ missChance tapeDims (sublevel bowl 1) ^ 10 :=
  C108_random_search tapeWorld ⟨tapeDims, none⟩ bowl 1 tapeDims_workable tapeWorld_reliable rfl bowl_total 10 (by norm_num)
    false .none (by simp) (by simp [Patient, CbArg.callables]) none (by simp)
    (fun ω => (List.ofFn ω).map fun u => List.ofFn u) (.of_forall fun ω => by
      simpa using tapeWorld_delivers [] (List.ofFn ω))

/-- `[Integer(1, 8), Integer(0, 3)]`. -/
noncomputable def finiteDims : List (Dim ℝ) :=
  [.int ⟨(1 : ℤ), (8 : ℤ), .uniform, 10, .identity, none, id⟩, .int ⟨(0 : ℤ), (3 : ℤ), .uniform, 10, .identity, none, id⟩]

theorem finiteDims_all (P : Dim ℝ → Prop) : (∀ d ∈ finiteDims, P d) ↔
    P (.int ⟨(1 : ℤ), (8 : ℤ), .uniform, 10, .identity, none, id⟩) ∧
      P (.int ⟨(0 : ℤ), (3 : ℤ), .uniform, 10, .identity, none, id⟩) := by
  simp [finiteDims]

/-- On a space of integers the smallest value 0 itself is reported in the limit (`C108_finite_spaces`). -/
example : Tendsto (fun n : Nat => drawsLaw finiteDims n {ω | Reports 0
    (dummyMinimize exact tapeWorld ⟨finiteDims, none⟩ bowl n .none .none false .none none
      ((List.ofFn ω).map fun u => List.ofFn u))}) atTop (𝓝 1) := by
  have hwork : Workable finiteDims := by
    refine ⟨by simp [finiteDims], (finiteDims_all _).2 ⟨?_, ?_⟩, (finiteDims_all _).2 ⟨?_, ?_⟩,
      (finiteDims_all _).2 ⟨Or.inr rfl, Or.inr rfl⟩, (finiteDims_all _).2 ⟨fun _ _ => trivial, fun _ _ => trivial⟩⟩
    · exact ⟨1, 8, by norm_num, rfl, rfl, roundHalfEven_intCast (K := ℝ) 1, roundHalfEven_intCast (K := ℝ) 8,
        Or.inl rfl, fun _ _ _ => rfl⟩
    · exact ⟨0, 3, by norm_num, rfl, rfl, roundHalfEven_intCast (K := ℝ) 0, roundHalfEven_intCast (K := ℝ) 3,
        Or.inl rfl, fun _ _ _ => rfl⟩
    · exact fun h => (by cases h)
    · exact fun h => (by cases h)
  have htotal : TotalOn false finiteDims bowl := by
    intro done p hp
    unfold finiteDims at hp
    obtain ⟨x, vs, ⟨a, rfl, -, -⟩, h, rfl⟩ := List.forall₂_cons_left_iff.1 hp
    obtain ⟨y, ws, ⟨k, rfl, -, -⟩, h', rfl⟩ := List.forall₂_cons_left_iff.1 h
    cases h'
    exact ⟨_, rfl, _, rfl⟩
  refine C108_finite_spaces tapeWorld ⟨finiteDims, none⟩ bowl hwork (by simp [finiteDims, ProperPrior])
    (tapeWorld_reliable_of finiteDims ((finiteDims_all _).2
      ⟨fun _ => ⟨fun h => (by cases h), trivial⟩, fun _ => ⟨fun h => (by cases h), trivial⟩⟩)) rfl htotal false .none
    (by simp) (by simp [Patient, CbArg.callables]) none (by simp)
    (fun n ω => (List.ofFn ω).map fun u => List.ofFn u) (fun n => .of_forall fun ω => by
      simpa using tapeWorld_delivers [] (List.ofFn ω))
    (by simp [finiteDims]) [.num (3 : ℤ), .num (2 : ℤ)]
    (.cons ⟨3, rfl, by norm_num [exact], by norm_num [exact]⟩ (.cons ⟨2, rfl, by norm_num [exact], by norm_num [exact]⟩ .nil))
    (.cons trivial (.cons trivial .nil)) 0 ?_
  intro done y hy
  simp only [bowl, Except.ok.injEq] at hy
  refine ⟨_, ?_, .inl hy.symm⟩
  norm_num

end Skopt

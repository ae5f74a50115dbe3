import Verif.Props.Suggestion

/-!
# C88: with `acq_optimizer="lbfgs"` the suggestion is at least as good as every sampled candidate
-/

namespace Skopt

variable {F M R G : Type}

/-! ## Specification -/

/-- `np.argsort` of values without NaN: positions, each once, in ascending order of the values. -/
def Argsorts [LinearOrder F] (argsort : List (Flt F) → List Nat) : Prop :=
  ∀ v : List (Flt F), .nan ∉ v →
    (argsort v).Perm (List.range v.length) ∧ (argsort v).Pairwise fun i j => ∀ a b, v[i]? = some a → v[j]? = some b → a ≤ b

/-- The minimiser never returns more than the acquisition value of the point it was started from. -/
def Descends [LinearOrder F] (W : World F M R G) : Prop :=
  ∀ rng est yOpt cand X values (i : Nat) x v z w, W.acquisition est X yOpt cand = .ok values → X[i]? = some x →
    values[i]? = some v → (W.lbfgs rng est yOpt cand x).2 = .ok (z, w) → w ≤ v

/-! ## Helpers -/

section
variable [LinearOrder F]

omit [LinearOrder F] in
theorem minimizeAll_runs {W : World F M R G} {est : M} {yOpt : Flt F} {cand : AcqFunc} {rng rng' : R}
    {x0 : List (List (Val F))} {rs : List (List (Val F) × Flt F)}
    (h : proposeOne.minimizeAll W est yOpt cand rng x0 = (rng', .ok rs)) :
    List.Forall₂ (fun x r => ∃ g, (W.lbfgs g est yOpt cand x).2 = .ok r) x0 rs := by
  induction x0 generalizing rng rng' rs with
  | nil => simp only [proposeOne.minimizeAll, Prod.mk.injEq, Except.ok.injEq] at h; rw [← h.2]; exact .nil
  | cons x xs ih =>
    simp only [proposeOne.minimizeAll] at h
    generalize hq : W.lbfgs rng est yOpt cand x = q at h
    obtain ⟨r1, o⟩ := q
    cases o with
    | error e => simp at h
    | ok r =>
      simp only at h
      generalize hq' : proposeOne.minimizeAll W est yOpt cand r1 xs = q' at h
      obtain ⟨r2, o'⟩ := q'
      cases o' with
      | error e => simp at h
      | ok rs' =>
        simp only [Prod.mk.injEq, Except.ok.injEq] at h
        rw [← h.2]
        exact .cons ⟨rng, by rw [hq]⟩ (ih hq')

omit [LinearOrder F] in
theorem runs_from {W : World F M R G} {est : M} {yOpt : Flt F} {cand : AcqFunc} {X x0 : List (List (Val F))}
    {is : List Nat} {runs : List (List (Val F) × Flt F)}
    (hx : List.Forall₂ (fun i x => pyGet X i = .ok x) is x0)
    (h1 : List.Forall₂ (fun x r => ∃ g, (W.lbfgs g est yOpt cand x).2 = .ok r) x0 runs) :
    List.Forall₂ (fun (i : Nat) run => ∃ x g, X[i]? = some x ∧ (W.lbfgs g est yOpt cand x).2 = .ok run) is runs := by
  induction hx generalizing runs with
  | nil => cases h1; exact .nil
  | cons g1 _ ih =>
    cases h1 with
    | cons g2 g3 =>
      obtain ⟨g, hg⟩ := g2
      exact .cons ⟨_, g, pyGet_eq_ok.1 g1, hg⟩ (ih g3)

theorem proposeOne_lbfgs {A : Arith F} {W : World F M R G} {cfg : Config} {dims : List (Dim F)} {est : M}
    {yOpt : Flt F} {X : List (List (Val F))} {rng rng' : R} {cand : AcqFunc} {row : List (Val F)}
    (hl : cfg.lbfgs = true) (h : proposeOne A W cfg dims est yOpt X rng cand = (rng', .ok row)) :
    ∃ values runs, ∃ k : Nat, ∃ r w, W.acquisition est X yOpt cand = .ok values ∧
      List.Forall₂ (fun (i : Nat) run => ∃ x g, X[i]? = some x ∧ (W.lbfgs g est yOpt cand x).2 = .ok run)
        ((W.argsort values).take cfg.nRestarts) runs ∧
      runs[k]? = some (r, w) ∧ (∀ q ∈ runs, w ≤ q.2) ∧
      (row = r ∨ clipRow (Space.transformedBounds A dims) r = .ok row) := by
  unfold proposeOne at h
  cases ha : W.acquisition est X yOpt cand with
  | error e => simp [ha] at h
  | ok values =>
    simp only [ha, hl, if_true] at h
    cases hx : mapE (pyGet X) ((W.argsort values).take cfg.nRestarts) with
    | error e => rw [hx] at h; simp at h
    | ok x0 =>
      rw [hx] at h
      simp only [proposeOne.runAll] at h
      generalize hq : proposeOne.minimizeAll W est yOpt cand rng x0 = q at h
      obtain ⟨r1, o⟩ := q
      cases o with
      | error e => simp at h
      | ok runs =>
        simp only at h
        cases hr : (do let i ← npArgmin (runs.map Prod.snd); let r ← pyGet runs i; (.ok r.1 : Except PyErr _)) with
        | error e => rw [hr] at h; simp at h
        | ok r =>
          rw [hr] at h
          obtain ⟨i, hi, hr'⟩ := bind_eq_ok.1 hr
          obtain ⟨z, hz, hr''⟩ := bind_eq_ok.1 hr'
          have hz' := pyGet_eq_ok.1 hz
          obtain ⟨hlt, hmin, _⟩ := npArgmin_spec hi
          have hw : (runs.map Prod.snd)[i] = z.2 := by
            rw [List.getElem_map]
            rw [List.getElem?_eq_getElem (by simpa using hlt)] at hz'
            rw [Option.some.inj hz']
          refine ⟨values, runs, i, r, z.2, rfl, ?_, ?_, ?_, ?_⟩
          · have h1 := minimizeAll_runs hq
            rw [mapE_eq_ok] at hx
            exact runs_from hx h1
          · rw [hz', ← Except.ok.inj hr'']
          · intro q hq'
            have := hmin q.2 (List.mem_map_of_mem hq')
            rw [hw] at this
            exact this
          · by_cases hc : Space.isCategorical dims = true
            · simp only [hc, if_true, Prod.mk.injEq, Except.ok.injEq] at h
              exact Or.inl h.2.symm
            · simp only [hc] at h
              exact Or.inr (Prod.mk.inj h).2

end

/-! ## C88 -/

/-- **C88.** With `acq_optimizer="lbfgs"` and at least one restart, after a `tell` that fitted a surrogate: candidates were
sampled from the space; L-BFGS was run from (at most) `n_restarts_optimizer` of them, taken in the order of their acquisition
values; the suggestion decodes the result `z` of the run that reached the smallest value `w` (clipped to the bounds of the
transformed space, which does nothing if `z` lies inside); and no sampled candidate has an acquisition value below `w`, provided
the minimiser does not go up and no sampled value is NaN.  In any arithmetic with orderly rounding. -/
theorem C88_lbfgs_no_worse_than_sampling [LinearOrder F] (A : Arith F) (hA : OrderlyRounding A) (W : World F M R G)
    (hW : WellBehaved A W) (dims : List (Dim F)) (hv : ∀ d ∈ dims, ValidDim A d)
    (s : Opt F M R) (hl : s.cfg.lbfgs = true) (hres : s.cfg.nRestarts ≠ 0)
    (hest : s.cfg.hasEst = true) (x : XArg F) (y : YArg F) (res : Result F M)
    (h : (tell A W dims s x y true).2 = .ok res) (hn : (tell A W dims s x y true).1.nInit ≤ 0) :
    let t := (tell A W dims s x y true).1
    ∃ (est : M) (pts : List (Point F)) (X : List (List (Val F))) (yOpt : Flt F) (cand : AcqFunc)
      (values : List (Flt F)) (runs : List (List (Val F) × Flt F)) (k : Nat) (z : List (Val F)) (w : Flt F),
      t.models.getLast? = some est ∧ (do let ys ← flatNums t.yi; fltMin ys) = .ok yOpt ∧
      pts.length = s.cfg.nPoints ∧ (∀ q ∈ pts, InSpace A dims q) ∧
      Space.transform A dims pts = .ok X ∧ cand ∈ s.cfg.acq.candidates ∧
      W.acquisition est X yOpt cand = .ok values ∧
      List.Forall₂ (fun (i : Nat) run => ∃ x g, X[i]? = some x ∧ (W.lbfgs g est yOpt cand x).2 = .ok run)
        ((W.argsort values).take s.cfg.nRestarts) runs ∧
      runs[k]? = some (z, w) ∧ (∀ r ∈ runs, w ≤ r.2) ∧
      (Argsorts W.argsort → Descends W → .nan ∉ values → ∀ v ∈ values, w ≤ v) ∧
      ∃ row ps, (row = z ∨ clipRow (Space.transformedBounds A dims) z = .ok row) ∧
        (List.Forall₂ (fun (b : F × F) v => ∃ x, v = .num x ∧ b.1 ≤ x ∧ x ≤ b.2) (Space.transformedBounds A dims) z →
          row = z) ∧
        Space.inverseTransform A dims [row] = .ok ps ∧ ps[0]? = t.nextX := by
  intro t
  obtain ⟨est, s', h1, h2, h3, h4⟩ := tell_suggests hest h hn
  obtain ⟨pts, X, yOpt, cand, r, r', row, ps, p, g1, g2, g3, g4, g5, g6, g7, g8⟩ := suggest_ok h1
  rw [h2] at g1 g4 g5
  rw [h3] at g3
  obtain ⟨values, runs, k, z, w, k1, k2, k3, k4, k5⟩ := proposeOne_lbfgs hl g5
  obtain ⟨c1, c2⟩ := C05_rvs_in_space A hA dims hv s.cfg.nPoints _
    (hW.draws s'.rng dims s.cfg.nPoints).1 (hW.draws s'.rng dims s.cfg.nPoints).2 pts g1
  refine ⟨est, pts, X, yOpt, cand, values, runs, k, z, w, h4, g3, c1, c2, g2, g4, k1, k2, k3, k4, ?_, row, ps, k5, ?_, g6,
    by rw [g8]; exact pyGet_eq_ok.1 g7⟩
  · intro hsort hdesc hnan v hvm
    obtain ⟨hperm, hpw⟩ := hsort values hnan
    cases hs : W.argsort values with
    | nil =>
      rw [hs] at hperm
      have := hperm.length_eq
      simp only [List.length_nil, List.length_range] at this
      rw [List.length_eq_zero_iff.1 this.symm] at hvm
      cases hvm
    | cons i rest =>
      rw [hs] at hperm hpw k2
      obtain ⟨n, hnr⟩ := Nat.exists_eq_succ_of_ne_zero hres
      rw [hnr, List.take_succ_cons] at k2
      cases k2 with
      | @cons _ run0 _ runs' q1 q2 =>
        obtain ⟨x0, g, e1, e2⟩ := q1
        have hi : i < values.length := by
          have : i ∈ List.range values.length := hperm.subset List.mem_cons_self
          exact List.mem_range.1 this
        have hstart := hdesc g est yOpt cand X values i x0 values[i] run0.1 run0.2 k1 e1
          (List.getElem?_eq_getElem hi) e2
        have hle : values[i] ≤ v := by
          obtain ⟨j, hj, rfl⟩ := List.getElem_of_mem hvm
          have hjm : j ∈ i :: rest := hperm.symm.subset (List.mem_range.2 hj)
          rcases List.mem_cons.1 hjm with rfl | hjm
          · exact le_refl _
          · exact (List.pairwise_cons.1 hpw).1 j hjm _ _ (List.getElem?_eq_getElem hi) (List.getElem?_eq_getElem hj)
        exact ((k4 run0 List.mem_cons_self).trans hstart).trans hle
  · intro hbox
    rcases k5 with k5 | k5
    · exact k5
    · rw [clipRow_noop hbox] at k5
      exact (Except.ok.inj k5).symm

/-- A world in which candidates spread over the space, the acquisition value of a candidate is its distance from 3, the
candidates are sorted properly, and the minimiser goes half of the way to 3. -/
def halvingWorld : World ℚ Nat Nat Unit :=
  { okWorld with
    draws := fun r dims n => (r + 1, dims.map fun _ => ⟨(List.range n).map fun i => (i : ℚ) * 10 / 8, List.replicate n 0⟩)
    acquisition := fun _ X _ _ => .ok (X.map fun row => match row with
      | .num x :: _ => .fin |x - 3|
      | _ => .fin 0)
    argsort := fun v => (List.range v.length).insertionSort fun i j => v.getD i .nan ≤ v.getD j .nan
    lbfgs := fun r _ _ _ x => (r + 1, match x with
      | .num x :: xs => .ok (.num ((x + 3) / 2) :: xs, .fin (|x - 3| / 2))
      | xs => .ok (xs, .fin 0))
    generate := fun g dims _ _ => (g, (dims, .ok [])) }

theorem halvingWorld_wellBehaved : WellBehaved ratArith halvingWorld where
  draws r dims n := by
    constructor
    · simp [halvingWorld]
    · intro d hd
      simp only [halvingWorld, List.mem_map] at hd
      obtain ⟨_, _, rfl⟩ := hd
      simp
  restores := by
    intro g dims n r
    rfl
  generated := by
    intro g dims n r pts _ h p hp
    simp only [halvingWorld, Except.ok.injEq] at h
    subst h
    cases hp

theorem halvingWorld_argsorts : Argsorts halvingWorld.argsort := by
  intro v _
  refine ⟨List.perm_insertionSort _ _, ?_⟩
  have : ∀ w : List (Flt ℚ), (halvingWorld.argsort w) = (List.range w.length).insertionSort
      (fun i j => w.getD i .nan ≤ w.getD j .nan) := fun _ => rfl
  rw [this]
  have : Std.Total fun i j : Nat => v.getD i (.nan : Flt ℚ) ≤ v.getD j .nan := ⟨fun i j => le_total _ _⟩
  have : IsTrans Nat fun i j : Nat => v.getD i (.nan : Flt ℚ) ≤ v.getD j .nan := ⟨fun _ _ _ => le_trans⟩
  refine (List.pairwise_insertionSort (fun i j : Nat => v.getD i (.nan : Flt ℚ) ≤ v.getD j .nan) _).imp ?_
  intro i j hij a b ha hb
  rw [List.getD_eq_getElem?_getD, List.getD_eq_getElem?_getD, ha, hb] at hij
  exact hij

theorem halvingWorld_descends : Descends halvingWorld := by
  intro rng est yOpt cand X values i x v z w h hx hv hz
  simp only [halvingWorld, Except.ok.injEq] at h hz
  subst h
  rw [List.getElem?_map, hx, Option.map_some, Option.some.injEq] at hv
  subst hv
  match x, hz with
  | .num q :: xs, hz =>
    simp only [Except.ok.injEq, Prod.mk.injEq] at hz
    rw [← hz.2]
    show (((|q - 3| / 2 : ℚ) : WithBot ℚ)) ≤ ((|q - 3| : ℚ) : WithBot ℚ)
    rw [WithBot.coe_le_coe]
    have := abs_nonneg (q - 3)
    linarith
  | [], hz | .str _ :: _, hz | .obj _ :: _, hz | .seq _ :: _, hz =>
    simp only [Except.ok.injEq, Prod.mk.injEq] at hz
    rw [← hz.2]

/-- `Real(0, 10)`, not transformed. -/
def halvingDims : List (Dim ℚ) := [.real ⟨0, 10, .uniform, 10, .identity, none, id⟩]

/-- A fresh optimizer using L-BFGS from two of eight candidates. -/
def halvingOpt : Opt ℚ Nat Nat := Opt.fresh ratArith
  { acq := .EI, hasEst := true, isGP := false, lbfgs := true, nPoints := 8, nRestarts := 2,
    nInitial := 1, queueSize := none } 0 none

/-- The hypotheses are met: the best candidates are 5/2 and 15/4, and the suggestion is 11/4.
Meets the hypotheses of `C88_lbfgs_no_worse_than_sampling`. -/
example : OrderlyRounding ratArith ∧ WellBehaved ratArith halvingWorld ∧ (∀ d ∈ halvingDims, ValidDim ratArith d) ∧
    Argsorts halvingWorld.argsort ∧ Descends halvingWorld ∧
    (match (tell ratArith halvingWorld halvingDims halvingOpt (.lst [.num 5]) (.num (.fin 1)) true).2 with
      | .ok _ => true
      | .error _ => false) = true ∧
    (tell ratArith halvingWorld halvingDims halvingOpt (.lst [.num 5]) (.num (.fin 1)) true).1.nInit ≤ 0 ∧
    (tell ratArith halvingWorld halvingDims halvingOpt (.lst [.num 5]) (.num (.fin 1)) true).1.nextX = some [.num (11 / 4)] := by
  refine ⟨ratArith_orderly, halvingWorld_wellBehaved, ?_, halvingWorld_argsorts, halvingWorld_descends, by decide +kernel,
    by decide +kernel, by decide +kernel⟩
  intro d hd
  rw [halvingDims, List.mem_singleton] at hd
  subst hd
  exact ⟨by norm_num, Or.inl rfl, fun x h1 h2 => ⟨h1, h2⟩⟩

end Skopt

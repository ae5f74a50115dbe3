import Verif.Model.ExpectedMinimum
import Verif.Lemmas.Live
import Verif.Props.SpaceMembership
import Verif.Props.Pointwise

/-!
# C74: what `expected_minimum` returns
-/

namespace Skopt

variable {F M : Type}

/-! ## Specification -/

/-- The surrogate `m` predicts `v` at the point `x` of the space. -/
def PredictedAt [LinearOrder F] (A : Arith F) (dims : List (Dim F)) (predict : Predictor F M) (m : M)
    (x : Point F) (v : Flt F) : Prop :=
  ∃ rows ys, Space.transform A dims [x] = .ok rows ∧ predict m rows = .ok (v :: ys)

/-- Predictions of a batch are the predictions of its rows (promise of the surrogate). -/
def RowwisePredictor (predict : Predictor F M) : Prop :=
  ∀ m X ys, predict m X = .ok ys → List.Forall₂ (fun r y => predict m [r] = .ok [y]) X ys

/-- What scipy's bounded minimiser promises: the value is that of the function at the point returned, the point is
within the bounds, and it is not worse than the starting point. -/
def SoundMinimiser [LinearOrder F] (mini : Minimiser F) : Prop :=
  ∀ f x0 bounds x v, mini f x0 bounds = .ok (x, v) →
    f (x.map .num) = .ok v ∧ List.Forall₂ (fun b t => b.1 ≤ t ∧ t ≤ b.2) bounds x ∧
    ∀ u, f x0 = .ok (.fin u) → ∃ w, v = .fin w ∧ w ≤ u

/-! ## Helpers -/

theorem pyGetI_last {α : Type} {xs : List α} {a : α} : pyGetI xs (-1) = .ok a ↔ xs.getLast? = some a := by
  unfold pyGetI
  rw [if_neg (by omega)]
  cases xs with
  | nil => simp
  | cons x xs =>
    rw [if_pos (by simp), pyGet_eq_ok, List.getLast?_eq_getElem?]
    have : ((((x :: xs).length : ℤ) + -1).toNat) = (x :: xs).length - 1 := by simp
    rw [this]

theorem surrogateAt_ok [LinearOrder F] {A : Arith F} {dims : List (Dim F)} {models : List M}
    {predict : Predictor F M} {m : M} (hm : models.getLast? = some m) {x : Point F} {v : Flt F} :
    surrogateAt A dims models predict x = .ok v ↔ PredictedAt A dims predict m x v := by
  unfold surrogateAt PredictedAt
  rw [pyGetI_last.2 hm]
  simp only [bind_eq_ok, pyGet_eq_ok]
  constructor
  · rintro ⟨m', hm', rows, h1, ys, h2, h3⟩
    cases hm'
    cases ys with
    | nil => simp at h3
    | cons y ys => simp only [List.getElem?_cons_zero, Option.some.injEq] at h3; subst h3; exact ⟨rows, ys, h1, h2⟩
  · rintro ⟨rows, ys, h1, h2⟩
    exact ⟨m, rfl, rows, h1, v :: ys, h2, by simp⟩

/-- Invariant of the loop over the starting points. -/
theorem descend_spec [LinearOrder F] {mini : Minimiser F} (hmini : SoundMinimiser mini)
    {f : Point F → Except PyErr (Flt F)} {bounds : List (F × F)} {xs : List (Point F)}
    {best out : Option (List F × F)} (h : descend mini f bounds xs best = .ok out)
    (hb : ∀ b ∈ best, f (b.1.map .num) = .ok (.fin b.2) ∧
      List.Forall₂ (fun b t => b.1 ≤ t ∧ t ≤ b.2) bounds b.1) :
    (∀ b ∈ out, f (b.1.map .num) = .ok (.fin b.2) ∧
      List.Forall₂ (fun b t => b.1 ≤ t ∧ t ≤ b.2) bounds b.1) ∧
    (∀ b ∈ best, ∃ c ∈ out, c.2 ≤ b.2) ∧
    ∀ p ∈ xs, ∀ u, f p = .ok (.fin u) → ∃ c ∈ out, c.2 ≤ u := by
  induction xs generalizing best with
  | nil =>
    simp only [descend, Except.ok.injEq] at h
    subst h
    exact ⟨hb, fun b hb' => ⟨b, hb', le_refl _⟩, by simp⟩
  | cons x xs ih =>
    simp only [descend, bind_eq_ok] at h
    obtain ⟨⟨z, v⟩, hr, h⟩ := h
    obtain ⟨s1, s2, s3⟩ := hmini _ _ _ _ _ hr
    have hb' : ∀ b ∈ keepBetter best (z, v), f (b.1.map .num) = .ok (.fin b.2) ∧
        List.Forall₂ (fun b t => b.1 ≤ t ∧ t ≤ b.2) bounds b.1 := by
      intro b hbm
      unfold keepBetter at hbm
      cases v with
      | nan => exact hb b hbm
      | fin v =>
        cases best with
        | none => simp only [Option.mem_some_iff] at hbm; subst hbm; exact ⟨s1, s2⟩
        | some b0 =>
          simp only at hbm
          split at hbm
          · simp only [Option.mem_some_iff] at hbm; subst hbm; exact ⟨s1, s2⟩
          · exact hb b hbm
    obtain ⟨i1, i2, i3⟩ := ih h hb'
    have better : ∀ b ∈ best, ∃ c ∈ keepBetter best (z, v), c.2 ≤ b.2 := by
      intro b hbm
      cases v with
      | nan => exact ⟨b, hbm, le_refl _⟩
      | fin v =>
        cases best with
        | none => simp at hbm
        | some b0 =>
          simp only [Option.mem_some_iff] at hbm; subst hbm
          unfold keepBetter
          simp only
          split
          · next hlt => exact ⟨(z, v), rfl, hlt.le⟩
          · exact ⟨b0, rfl, le_refl _⟩
    have here : ∀ w, v = .fin w → ∃ c ∈ keepBetter best (z, v), c.2 ≤ w := by
      rintro w rfl
      cases best with
      | none => exact ⟨(z, w), rfl, le_refl _⟩
      | some b0 =>
        unfold keepBetter
        simp only
        split
        · exact ⟨(z, w), rfl, le_refl _⟩
        · next hlt => exact ⟨b0, rfl, not_lt.1 hlt⟩
    refine ⟨i1, ?_, ?_⟩
    · intro b hbm
      obtain ⟨c, hc, hle⟩ := better b hbm
      obtain ⟨c', hc', hle'⟩ := i2 c hc
      exact ⟨c', hc', hle'.trans hle⟩
    · intro p hp u hu
      rcases List.mem_cons.1 hp with rfl | hp
      · obtain ⟨w, rfl, hw⟩ := s3 u hu
        obtain ⟨c, hc, hle⟩ := here w rfl
        obtain ⟨c', hc', hle'⟩ := i2 c hc
        exact ⟨c', hc', (hle'.trans hle).trans hw⟩
      · exact i3 p hp u hu

theorem bounds_within [LinearOrder F] {dims : List (Dim F)} {bounds : List (F × F)} {xs : List F}
    (hb : mapE Dim.bounds dims = .ok bounds) (h : List.Forall₂ (fun b t => b.1 ≤ t ∧ t ≤ b.2) bounds xs) :
    List.Forall₂ Within dims (xs.map .num) := by
  rw [mapE_eq_ok] at hb
  induction hb generalizing xs with
  | nil => cases h; exact .nil
  | @cons d b ds bs h1 _ ih =>
    cases h with
    | @cons _ t _ ts h2 h3 =>
      refine .cons ?_ (ih h3)
      cases d with
      | real r => cases h1; exact ⟨t, rfl, h2.1, h2.2⟩
      | int r => cases h1; exact ⟨t, rfl, h2.1, h2.2⟩
      | cat c => cases h1

theorem Within.legal_of_real [LinearOrder F] {A : Arith F} {dims : List (Dim F)} {p : Point F}
    (hr : ∀ d ∈ dims, ∃ r, d = .real r) (h : List.Forall₂ Within dims p) : InSpace A dims p := by
  induction h with
  | nil => exact .nil
  | @cons d v ds vs h1 _ ih =>
    refine .cons ?_ (ih fun d hd => hr d (List.mem_cons_of_mem _ hd))
    obtain ⟨r, rfl⟩ := hr d List.mem_cons_self
    exact h1

/-! ## C74 -/

/-- **C74**, spaces without categories.  If `expected_minimum` returns, then the returned value is the prediction
of the last model at the returned point, it is a number that is not larger than the prediction at the best point
observed, nor than the prediction at any of the random starting points; the point is within the bounds, and it is a
point of the space if all dimensions are `Real`.  For every arithmetic.  Missing for the full property: `Integer`
dimensions, where the point need not be an integer (`C74_refuted_integer`), and categorical ones
(`C74_refuted_categorical`). -/
theorem C74_expected_minimum_partial [LinearOrder F] (A : Arith F) (dims : List (Dim F))
    (hnc : ∀ d ∈ dims, d.isCat = false) (models : List M) (m : M) (hm : models.getLast? = some m)
    (predict : Predictor F M) (mini : Minimiser F) (hmini : SoundMinimiser mini) (best : Point F) (n : ℤ)
    (draws : Nat → List (RawDraw F)) (x : Point F) (v : Flt F)
    (h : expectedMinimum A dims models predict mini best n draws = .ok (x, v)) :
    ∃ w, v = .fin w ∧ PredictedAt A dims predict m x (.fin w) ∧
      (∀ u, PredictedAt A dims predict m best (.fin u) → w ≤ u) ∧
      (0 < n → ∀ starts, Space.rvs A dims (draws n.toNat) = .ok starts →
        ∀ p ∈ starts, ∀ u, PredictedAt A dims predict m p (.fin u) → w ≤ u) ∧
      List.Forall₂ Within dims x ∧
      ((∀ d ∈ dims, ∃ r, d = .real r) → InSpace A dims x) := by
  unfold expectedMinimum at h
  have hc : Space.isPartlyCategorical dims = false := by
    unfold Space.isPartlyCategorical
    rw [List.any_eq_false]
    exact fun d hd => by simp [hnc d hd]
  rw [hc] at h
  simp only [Bool.false_eq_true, if_false, bind_eq_ok] at h
  obtain ⟨more, hmore, bounds, hbounds, out, hout, h⟩ := h
  obtain ⟨i1, -, i3⟩ := descend_spec hmini hout (by simp)
  cases out with
  | none => cases h
  | some b =>
    simp only [Except.ok.injEq, Prod.mk.injEq] at h
    obtain ⟨rfl, rfl⟩ := h
    obtain ⟨j1, j2⟩ := i1 b rfl
    have hw := bounds_within hbounds j2
    refine ⟨b.2, rfl, (surrogateAt_ok hm).1 j1, ?_, ?_, hw, fun hr => Within.legal_of_real hr hw⟩
    · intro u hu
      obtain ⟨c, hc', hle⟩ := i3 best List.mem_cons_self u ((surrogateAt_ok hm).2 hu)
      cases hc'; exact hle
    · intro hn starts hs p hp u hu
      rw [randomStarts, if_pos hn, hs] at hmore
      cases hmore
      obtain ⟨c, hc', hle⟩ := i3 p (List.mem_cons_of_mem _ hp) u ((surrogateAt_ok hm).2 hu)
      cases hc'; exact hle

/-- **C74**, random sampling (the only method for spaces with categories).  If
`expected_minimum_random_sampling` returns, then the point is one of the samples and therefore a point of the
space, the returned value is the prediction of the last model at that point, and no sample has a smaller
prediction. -/
theorem C74_random_sampling [LinearOrder F] (A : Arith F) (hA : OrderlyRounding A) (dims : List (Dim F))
    (hne : dims ≠ []) (hv : ∀ d ∈ dims, ValidDim A d)
    (hmix : (∀ d ∈ dims, YieldsNoStr d) ∨ (∀ d ∈ dims, YieldsNoNum d))
    (models : List M) (m : M) (hm : models.getLast? = some m) (predict : Predictor F M)
    (hp : RowwisePredictor predict) (n : Nat) (hn0 : 0 < n) (raws : List (RawDraw F))
    (hlen : raws.length = dims.length) (hn : ∀ r ∈ raws, r.nums.length = n ∧ r.idxs.length = n)
    (x : Point F) (v : Flt F) (h : expectedMinimumSampling A dims models predict raws = .ok (x, v)) :
    InSpace A dims x ∧ PredictedAt A dims predict m x v ∧
    ∃ samples, Space.rvs A dims raws = .ok samples ∧ samples.length = n ∧ x ∈ samples ∧
      ∀ p ∈ samples, ∃ u, PredictedAt A dims predict m p u ∧ v ≤ u := by
  unfold expectedMinimumSampling at h
  simp only [bind_eq_ok, pyGetI_last, hm, Option.some.injEq, pyGet_eq_ok, Except.ok.injEq, Prod.mk.injEq] at h
  obtain ⟨samples, hs, m', rfl, rows, hrows, ys, hys, i, hi, x', hx, y', hy, rfl, rfl⟩ := h
  obtain ⟨hsl, hsin⟩ := C05_rvs_in_space A hA dims hv n raws hlen hn samples hs
  have hsne : samples ≠ [] := by rintro rfl; simp at hsl; omega
  have h1 := (C67_transform_pointwise_partial A dims hne hv hmix samples hsne hsin rows).1 hrows
  have h2 := hp _ _ _ hys
  have key : ∀ (j : Nat) p u, samples[j]? = some p → ys[j]? = some u → PredictedAt A dims predict m p u := by
    intro j p u e1 e2
    obtain ⟨k1, e1⟩ := List.getElem?_eq_some_iff.1 e1
    obtain ⟨k2, e2⟩ := List.getElem?_eq_some_iff.1 e2
    rw [List.forall₂_iff_get] at h1 h2
    have a1 := h1.2 j k1 (h1.1 ▸ k1)
    have a2 := h2.2 j (h2.1 ▸ k2) k2
    simp only [List.get_eq_getElem] at a1 a2
    rw [e1] at a1; rw [e2] at a2
    exact ⟨_, [], a1, a2⟩
  obtain ⟨hil, hmin, -⟩ := npArgmin_spec hi
  have hyi : ys[i] = y' := by
    rw [List.getElem?_eq_getElem hil] at hy; exact Option.some.inj hy
  refine ⟨hsin _ (List.mem_of_getElem? hx), key i _ _ hx hy, samples, hs, hsl, List.mem_of_getElem? hx, ?_⟩
  intro p hpm
  obtain ⟨j, k1, e1⟩ := List.mem_iff_getElem.1 hpm
  have k2 : j < ys.length := by
    rw [← h2.length_eq, ← h1.length_eq]; exact k1
  refine ⟨ys[j], key j p ys[j] ?_ ?_, hyi ▸ hmin _ (List.getElem_mem k2)⟩
  · rw [List.getElem?_eq_getElem k1, e1]
  · exact List.getElem?_eq_getElem k2

/-- A sound minimiser: it compares the starting point with the centre of the box. -/
def centreMinimiser : Minimiser ℚ := fun f x0 bounds =>
  match mapE Val.toNum x0 with
  | .error e => .error e
  | .ok xs =>
    if xs.length = bounds.length ∧ (bounds.zip xs).all (fun p => decide (p.1.1 ≤ p.2 ∧ p.2 ≤ p.1.2)) ∧
        bounds.all (fun b => decide (b.1 ≤ b.2)) then
      let c := bounds.map fun b => (b.1 + b.2) / 2
      match f x0, f (c.map .num) with
      | .ok (.fin u), .ok (.fin w) => if w < u then .ok (c, .fin w) else .ok (xs, .fin u)
      | .ok (.fin u), _ => .ok (xs, .fin u)
      | .ok .nan, _ => .ok (xs, .nan)
      | .error e, _ => .error e
    else .error .valueError

theorem toNum_map {F : Type} {x0 : Point F} {xs : List F} (h : mapE Val.toNum x0 = .ok xs) :
    x0 = xs.map .num := by
  rw [mapE_eq_ok] at h
  induction h with
  | nil => rfl
  | @cons v y vs ys h1 _ ih =>
    cases v <;> simp [Val.toNum] at h1
    subst h1; rw [ih]; rfl

theorem centreMinimiser_sound : SoundMinimiser centreMinimiser := by
  intro f x0 bounds x v h
  unfold centreMinimiser at h
  cases hx : mapE Val.toNum x0 with
  | error e => rw [hx] at h; cases h
  | ok xs =>
    rw [hx] at h
    simp only at h
    split at h
    · next hcond =>
      obtain ⟨hl, hb, hb2⟩ := hcond
      have hx0 := toNum_map hx
      have hin : List.Forall₂ (fun b t => b.1 ≤ t ∧ t ≤ b.2) bounds xs := by
        rw [List.forall₂_iff_zip]
        refine ⟨hl.symm, fun {a b} hab => ?_⟩
        have := List.all_eq_true.1 hb (a, b) hab
        exact of_decide_eq_true this
      have hc : List.Forall₂ (fun (b : ℚ × ℚ) t => b.1 ≤ t ∧ t ≤ b.2) bounds
          (bounds.map fun b => (b.1 + b.2) / 2) := by
        rw [List.forall₂_map_right_iff, List.forall₂_same]
        intro b hb'
        have := of_decide_eq_true (List.all_eq_true.1 hb2 b hb')
        constructor <;> linarith
      split at h
      · next u w e1 e2 =>
        split at h
        · next hlt =>
          cases h
          refine ⟨e2, hc, fun u' hu' => ⟨w, rfl, ?_⟩⟩
          rw [e1] at hu'; cases hu'; exact hlt.le
        · cases h
          rw [hx0] at e1
          refine ⟨e1, hin, fun u' hu' => ⟨u, rfl, ?_⟩⟩
          rw [hx0, e1] at hu'; cases hu'; exact le_refl _
      · next u e1 _ =>
        cases h
        rw [hx0] at e1
        refine ⟨e1, hin, fun u' hu' => ⟨u, rfl, ?_⟩⟩
        rw [hx0, e1] at hu'; cases hu'; exact le_refl _
      · next e1 =>
        cases h
        rw [hx0] at e1
        refine ⟨e1, hin, fun u' hu' => ?_⟩
        rw [hx0, e1] at hu'; cases hu'
      · cases h
    · cases h

/-- A surrogate on one column: the distance to the number `m`. -/
def distanceModel : Predictor ℚ ℚ := fun m X =>
  mapE (fun r => match r with
    | [.num t] => .ok (.fin |t - m|)
    | _ => .error .valueError) X

theorem distanceModel_rowwise : RowwisePredictor distanceModel := by
  intro m X ys h
  unfold distanceModel at h ⊢
  rw [mapE_eq_ok] at h
  exact h.imp fun r y hr => mapE_singleton.2 hr

/-- `Real(0, 4)`. -/
def emReal : List (Dim ℚ) := [.real ⟨0, 4, .uniform, 10, .identity, none, id⟩]

/-- Non-vacuity of `C74_expected_minimum_partial`: the surrogate's minimum 2 is found from the best point 1 and a
random start at 3. -/
example : SoundMinimiser centreMinimiser ∧ ([1, 2] : List ℚ).getLast? = some 2 ∧
    expectedMinimum ratArith emReal [1, 2] distanceModel centreMinimiser [.num 1] 1
      (fun _ => [⟨[3], [0]⟩]) = .ok ([.num 2], .fin 0) :=
  ⟨centreMinimiser_sound, rfl, by decide +kernel⟩

/-- Non-vacuity of `C74_random_sampling`: three samples, the best of them is 3. -/
example : OrderlyRounding ratArith ∧ RowwisePredictor distanceModel ∧ (∀ d ∈ emReal, ValidDim ratArith d) ∧
    (∀ d ∈ emReal, YieldsNoStr d) ∧
    expectedMinimumSampling ratArith emReal [1, 5 / 2] distanceModel [⟨[1, 3, 4], [0, 0, 0]⟩] =
      .ok ([.num 3], .fin (1 / 2)) := by
  refine ⟨⟨roundHalfEven_mono, fun a b h => Int.cast_le.2 h⟩, distanceModel_rowwise, ?_, ?_, by decide +kernel⟩
  · intro d hd
    simp only [emReal, List.mem_cons, List.not_mem_nil, or_false] at hd
    subst hd
    exact ⟨by norm_num, Or.inl rfl, fun x h1 h2 => ⟨h1, h2⟩⟩
  · intro d hd
    simp only [emReal, List.mem_cons, List.not_mem_nil, or_false] at hd
    subst hd
    trivial

/-- **C74 is false for `Integer` dimensions**: on `Integer(0, 5)` the minimiser (a sound one) returns 2.5, which is
not a point of the space. -/
theorem C74_refuted_integer :
    let dims : List (Dim ℚ) := [.int ⟨0, 5, .uniform, 10, .identity, none, id⟩]
    SoundMinimiser centreMinimiser ∧
    expectedMinimum ratArith dims [5 / 2] distanceModel centreMinimiser [.num 1] 0 (fun _ => []) =
      .ok ([.num (5 / 2)], .fin 0) ∧ ¬ InSpace ratArith dims [.num (5 / 2)] := by
  refine ⟨centreMinimiser_sound, by decide +kernel, ?_⟩
  intro h
  cases h with
  | cons h _ =>
    obtain ⟨k, hk, -⟩ := h
    have hk : (5 / 2 : ℚ) = (k : ℚ) := by simpa [ratArith] using hk
    have : (5 : ℚ) = ((2 * k : ℤ) : ℚ) := by push_cast; linarith
    have : (5 : ℤ) = 2 * k := by exact_mod_cast this
    omega

/-- Where `expected_minimum` raises: if all predictions are NaN, `best_x` is still `None` at the end and iterating over
it raises, whatever the minimiser does. -/
theorem C74_all_nan_raises [LinearOrder F] (A : Arith F) (dims : List (Dim F)) (hnc : ∀ d ∈ dims, d.isCat = false)
    (models : List M) (predict : Predictor F M) (hp : ∀ m X ys, predict m X = .ok ys → ∀ y ∈ ys, y = .nan)
    (mini : Minimiser F) (hmini : SoundMinimiser mini) (best : Point F) (n : ℤ)
    (draws : Nat → List (RawDraw F)) (r : Point F × Flt F) :
    expectedMinimum A dims models predict mini best n draws ≠ .ok r := by
  intro h
  obtain ⟨x, v⟩ := r
  cases hm : models.getLast? with
  | none =>
    have hnil : models = [] := List.getLast?_eq_none_iff.1 hm
    subst hnil
    unfold expectedMinimum at h
    have hc : Space.isPartlyCategorical dims = false := by
      unfold Space.isPartlyCategorical
      rw [List.any_eq_false]
      exact fun d hd => by simp [hnc d hd]
    rw [hc] at h
    simp only [Bool.false_eq_true, if_false, bind_eq_ok] at h
    obtain ⟨more, _, bounds, _, out, hout, h⟩ := h
    obtain ⟨i1, -, -⟩ := descend_spec hmini hout (by simp)
    cases out with
    | none => cases h
    | some b =>
      obtain ⟨j1, -⟩ := i1 b rfl
      simp [surrogateAt, pyGetI, bind, Except.bind] at j1
  | some m =>
    obtain ⟨w, rfl, ⟨rows, ys, h1, h2⟩, -⟩ :=
      C74_expected_minimum_partial A dims hnc models m hm predict mini hmini best n draws x v h
    have := hp _ _ _ h2 (.fin w) List.mem_cons_self
    cases this

/-- Non-vacuity of `C74_all_nan_raises`: the error is the `TypeError`. -/
example : expectedMinimum ratArith emReal [(1 : ℚ)] (fun _ X => .ok (X.map fun _ => .nan)) centreMinimiser [.num 1] 0
    (fun _ => []) = .error .typeError := by decide +kernel

/-- **C74 is false for spaces with categories**: the random samples do not include the best point observed.  For
every space with a categorical dimension (of the kind for which the encoding is invertible), every best point and
every outcome of the 100000 draws that misses it, there is a surrogate for which `expected_minimum` returns a larger
value than the prediction at the best point. -/
theorem C74_refuted_categorical (dims : List (Dim ℝ)) (hcat : ∃ d ∈ dims, d.isCat = true)
    (hv : ∀ d ∈ dims, ValidDim exact d) (hi : ∀ d ∈ dims, Invertible (0 : ℝ) 1 d)
    (hmix : (∀ d ∈ dims, YieldsNoStr d) ∨ (∀ d ∈ dims, YieldsNoNum d))
    (best : Point ℝ) (hb : InSpace exact dims best) (hbr : List.Forall₂ Representable dims best)
    (mini : Minimiser ℝ) (n : ℤ) (draws : Nat → List (RawDraw ℝ))
    (hn : ∀ k, ∀ r ∈ draws k, r.nums.length = k ∧ r.idxs.length = k)
    (hu : List.Forall₂ UsableDraw dims (draws 100000))
    (hmiss : ∀ samples, Space.rvs exact dims (draws 100000) = .ok samples →
      best ∉ samples ∧ ∀ p ∈ samples, List.Forall₂ Representable dims p) :
    ∃ predict : Predictor ℝ Unit, RowwisePredictor predict ∧
      ∃ x v u, expectedMinimum exact dims [()] predict mini best n draws = .ok (x, v) ∧
        PredictedAt exact dims predict () best u ∧ u < v := by
  obtain ⟨d0, hd0, hc0⟩ := hcat
  have hne : dims ≠ [] := fun h => by rw [h] at hd0; cases hd0
  have hpc : Space.isPartlyCategorical dims = true := by
    unfold Space.isPartlyCategorical
    exact List.any_eq_true.2 ⟨d0, hd0, hc0⟩
  have hO : OrderlyRounding exact := exact_orderly
  obtain ⟨samples, hs⟩ := Space.rvs_ok hne hv (hn 100000) hu
  obtain ⟨hbs, hsr⟩ := hmiss samples hs
  obtain ⟨hsl, hsin⟩ := C05_rvs_in_space exact hO dims hv 100000 _ hu.length_eq.symm (hn 100000) samples hs
  have hsne : samples ≠ [] := by rintro rfl; simp at hsl
  obtain ⟨R, hR, -⟩ := C02_round_trip_partial dims hne hv hi hmix samples hsne hsin hsr
  obtain ⟨B, hB, hB2⟩ := C02_round_trip_partial dims hne hv hi hmix [best] (by simp) (by simpa using hb)
    (by simpa using hbr)
  classical
  let g : List (Val ℝ) → Flt ℝ := fun r => if [r] = B then .fin 0 else .fin 1
  let predict : Predictor ℝ Unit := fun _ X => .ok (X.map g)
  have hrow : RowwisePredictor predict := by
    intro m X ys h
    simp only [predict, Except.ok.injEq] at h
    subst h
    rw [List.forall₂_map_right_iff, List.forall₂_same]
    exact fun r _ => rfl
  have hBl : ∃ r, B = [r] := by
    have := (C67_transform_pointwise_partial exact dims hne hv hmix [best] (by simp) (by simpa using hb) B).1 hB
    cases this with
    | cons _ h2 => cases h2; exact ⟨_, rfl⟩
  obtain ⟨rb, rfl⟩ := hBl
  have hbest : PredictedAt exact dims predict () best (.fin 0) :=
    ⟨[rb], [], hB, by simp [predict, g]⟩
  have hRl := (C67_transform_pointwise_partial exact dims hne hv hmix samples hsne hsin R).1 hR
  obtain ⟨i, hi'⟩ := npArgmin_ok (xs := R.map g) (by
    intro h0
    have := hRl.length_eq
    simp only [List.map_eq_nil_iff] at h0
    rw [h0] at this
    exact hsne (List.length_eq_zero_iff.1 (by simpa using this)))
  obtain ⟨hil, -, -⟩ := npArgmin_spec hi'
  have hil' : i < samples.length := by rw [hRl.length_eq]; simpa using hil
  have hem : expectedMinimum exact dims [()] predict mini best n draws = .ok (samples[i], (R.map g)[i]) := by
    unfold expectedMinimum
    rw [hpc, if_pos rfl]
    unfold expectedMinimumSampling
    rw [hs, pyGetI_last.2 (rfl : [()].getLast? = some ())]
    simp only [bind, Except.bind, hR, predict, hi', pyGet_lt hil', pyGet_lt hil]
  refine ⟨predict, hrow, _, _, _, hem, hbest, ?_⟩
  obtain ⟨-, ⟨rows, ys, h1, h2⟩, -⟩ := C74_random_sampling exact hO dims hne hv hmix [()] () rfl predict hrow 100000
    (by norm_num) _ hu.length_eq.symm (hn 100000) samples[i] (R.map g)[i] (by
      unfold expectedMinimum at hem
      rwa [hpc, if_pos rfl] at hem)
  have hmem : samples[i] ∈ samples := List.getElem_mem hil'
  have hrows : ∃ r, rows = [r] := by
    have := (C67_transform_pointwise_partial exact dims hne hv hmix [samples[i]] (by simp)
      (by simpa using hsin _ hmem) rows).1 h1
    cases this with
    | cons _ h3 => cases h3; exact ⟨_, rfl⟩
  obtain ⟨r, rfl⟩ := hrows
  obtain ⟨B', hB', hB2'⟩ := C02_round_trip_partial dims hne hv hi hmix [samples[i]] (by simp)
    (by simpa using hsin _ hmem) (by simpa using hsr _ hmem)
  have hne' : [r] ≠ [rb] := by
    intro h0
    rw [h1] at hB'
    cases hB'
    rw [h0, hB2] at hB2'
    simp only [Except.ok.injEq, List.cons.injEq, and_true] at hB2'
    exact hbs (hB2' ▸ hmem)
  have hval : (R.map g)[i] = .fin 1 := by
    simp only [predict, List.map_cons, List.map_nil, Except.ok.injEq, List.cons.injEq] at h2
    rw [← h2.1]
    show (if [r] = [rb] then Flt.fin 0 else Flt.fin 1) = _
    rw [if_neg hne']
  rw [hval]
  exact Flt.fin_lt_fin.2 one_pos

/-- Two categories and a `Real`. -/
noncomputable def emMixed : List (Dim ℝ) :=
  [.cat ⟨[.str "a", .str "b"], none, .onehot, none, fun _ => "", fun s => .ok (.str s)⟩,
   .real ⟨0, 1, .uniform, 10, .identity, none, id⟩]

/-- Draws that always choose the second category. -/
noncomputable def emDraws (k : Nat) : List (RawDraw ℝ) :=
  [⟨List.replicate k 0, List.replicate k 1⟩, ⟨List.replicate k 0, List.replicate k 0⟩]

theorem emMixed_valid : ∀ d ∈ emMixed, ValidDim exact d := by
  intro d hd
  simp only [emMixed, List.mem_cons, List.not_mem_nil, or_false] at hd
  rcases hd with rfl | rfl
  · refine ⟨by simp, by simp, ?_, Or.inr ?_⟩ <;> simp [Val.isSeq, Val.isNum]
  · exact ⟨by norm_num, Or.inl rfl, fun x h1 h2 => ⟨h1, h2⟩⟩

theorem emDraws_length (k : Nat) : ∀ r ∈ emDraws k, r.nums.length = k ∧ r.idxs.length = k := by
  intro r hr
  simp only [emDraws, List.mem_cons, List.not_mem_nil, or_false] at hr
  rcases hr with rfl | rfl <;> simp

theorem emDraws_miss (t : ℝ) (k : Nat) (samples : List (Point ℝ)) (h : Space.rvs exact emMixed (emDraws k) = .ok samples) :
    ([.str "a", .num t] : Point ℝ) ∉ samples := by
  intro hmem
  unfold Space.rvs at h
  rw [bind_eq_ok] at h
  obtain ⟨cols, hcols, h⟩ := h
  have h2 := transpose_mem h _ hmem
  rw [mapE_eq_ok] at hcols
  simp only [emMixed, emDraws, List.zip_cons_cons] at hcols
  cases hcols with
  | cons h1 _ =>
    cases h2 with
    | cons h2 _ =>
      simp only [Dim.rvs] at h1
      obtain ⟨i, hi, h1⟩ := mapE_mem h1 h2
      rw [List.eq_of_mem_replicate hi] at h1
      simp [pyGet] at h1

/-- Non-vacuity of `C74_refuted_categorical`: the best point is `["a", 0.5]`, all draws have `"b"`. -/
example : ∃ predict : Predictor ℝ Unit, RowwisePredictor predict ∧
    ∃ x v u, expectedMinimum exact emMixed [()] predict (fun _ _ _ => .error .valueError) [.str "a", .num (1 / 2)] 20
        emDraws = .ok (x, v) ∧
      PredictedAt exact emMixed predict () [.str "a", .num (1 / 2)] u ∧ u < v := by
  refine C74_refuted_categorical emMixed ⟨_, List.mem_cons_self, rfl⟩ emMixed_valid ?_ (Or.inl ?_) _ ?_ ?_ _ 20
    emDraws emDraws_length ?_ ?_
  · intro d hd
    simp only [emMixed, List.mem_cons, List.not_mem_nil, or_false] at hd
    rcases hd with rfl | rfl <;> simp [Invertible]
  · intro d hd
    simp only [emMixed, List.mem_cons, List.not_mem_nil, or_false] at hd
    rcases hd with rfl | rfl <;> simp [YieldsNoStr]
  · refine .cons ?_ (.cons ⟨1 / 2, rfl, by norm_num, by norm_num⟩ .nil)
    simp [Legal]
  · exact .cons trivial (.cons rfl .nil)
  · refine .cons ⟨fun h => (by cases h), fun i hi => ?_⟩ (.cons ⟨fun h => (by cases h), trivial⟩ .nil)
    rw [List.eq_of_mem_replicate hi]; simp
  · intro samples hs
    refine ⟨emDraws_miss _ _ _ hs, fun p hp => ?_⟩
    obtain ⟨-, hin⟩ := C05_rvs_in_space exact exact_orderly emMixed emMixed_valid 100000 _ rfl
      (emDraws_length 100000) samples hs
    have h1 := hin p hp
    unfold emMixed at h1 ⊢
    cases h1 with
    | cons _ h2 =>
      cases h2 with
      | cons h3 h4 =>
        cases h4
        obtain ⟨x, rfl, -⟩ := h3
        exact .cons trivial (.cons rfl .nil)

end Skopt

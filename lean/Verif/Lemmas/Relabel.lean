import Verif.Lemmas.Checks
import Verif.Lemmas.Layout
import Verif.Spec.Units
import Verif.Lemmas.Generator

/-!
Helper lemmas: an optimizer does the same on a space and on a rescaled copy of it.
-/

namespace Skopt

variable {F M R G : Type}

/-- The optimizer with all points it holds mapped. -/
def Opt.relabel (fs : List (Val F → Val F)) (s : Opt F M R) : Opt F M R :=
  { s with
    initialSamples := s.initialSamples.map (List.map (Skopt.relabel fs))
    Xi := s.Xi.map (relabelVal fs)
    cache := s.cache.map fun c => (c.1, c.2.map (Skopt.relabel fs))
    nextX := s.nextX.map (Skopt.relabel fs) }

/-! ### Rescaled dimensions -/

/-- `d'` is the dimension `d` with its values renamed by `f`: the same values are accepted, the
encoded values are the same, and decoding gives the renamed value, always inside the dimension. -/
structure Rescaled [LinearOrder F] (A : Arith F) (d d' : Dim F) (f : Val F → Val F) : Prop where
  contains : ∀ v, d'.contains (f v) = d.contains v
  isSeq : ∀ v, (f v).isSeq = v.isSeq
  transform : ∀ X, (∀ v ∈ X, Within d v) → d'.transform A (X.map f) = d.transform A X
  inverse : ∀ rows, d'.inverse A rows = (d.inverse A rows).map (List.map f)
  rvs : ∀ raw, d'.rvs A raw = (d.rvs A raw).map (List.map f)
  inverse_within : ∀ rows vs, d.inverse A rows = .ok vs → ∀ v ∈ vs, Within d v
  rvs_within : ∀ raw vs, d.rvs A raw = .ok vs → ∀ v ∈ vs, Within d v
  bounds : d'.transformedBounds A = d.transformedBounds A
  size : d'.transformedSize = d.transformedSize
  isCat : d'.isCat = d.isCat
  sampler : d'.sampler A = d.sampler A

/-- Dimension by dimension. -/
inductive Rescales [LinearOrder F] (A : Arith F) :
    List (Dim F) → List (Dim F) → List (Val F → Val F) → Prop where
  | nil : Rescales A [] [] []
  | cons {d d' f ds ds' fs} (h : Rescaled A d d' f) (hs : Rescales A ds ds' fs) :
      Rescales A (d :: ds) (d' :: ds') (f :: fs)

theorem Except.map_ok' {α β : Type} (f : α → β) (a : α) :
    Except.map f (Except.ok a : Except PyErr α) = .ok (f a) := rfl

theorem Except.map_error' {α β : Type} (f : α → β) (e : PyErr) :
    Except.map f (Except.error e : Except PyErr α) = .error e := rfl

@[simp] theorem relabel_length (fs : List (Val F → Val F)) (p : Point F) :
    (relabel fs p).length = p.length := by
  induction fs generalizing p with
  | nil => cases p <;> rfl
  | cons f fs ih => cases p <;> simp [relabel, ih]

section Space
variable [LinearOrder F] {A : Arith F} {dims dims' : List (Dim F)} {fs : List (Val F → Val F)}

theorem Rescales.length_eq (h : Rescales A dims dims' fs) : dims'.length = dims.length := by
  induction h with
  | nil => rfl
  | cons _ _ ih => simp [ih]

theorem Rescales.contains (h : Rescales A dims dims' fs) (p : Point F) :
    Space.contains dims' (relabel fs p) = Space.contains dims p := by
  induction h generalizing p with
  | nil => cases p <;> rfl
  | cons hd _ ih =>
    cases p with
    | nil => rfl
    | cons v vs => simp only [relabel, Space.contains, hd.contains, ih]

theorem Rescales.isSeq (h : Rescales A dims dims' fs) (p : Point F) :
    (relabel fs p).all Val.isSeq = p.all Val.isSeq := by
  induction h generalizing p with
  | nil => cases p <;> rfl
  | cons hd _ ih =>
    cases p with
    | nil => rfl
    | cons v vs => simp only [relabel, List.all_cons, hd.isSeq, ih]

theorem Rescales.bounds (h : Rescales A dims dims' fs) :
    Space.transformedBounds A dims' = Space.transformedBounds A dims := by
  unfold Space.transformedBounds
  induction h with
  | nil => rfl
  | cons hd _ ih => simp only [List.flatMap_cons, hd.bounds, ih]

theorem Rescales.isCategorical (h : Rescales A dims dims' fs) :
    Space.isCategorical dims' = Space.isCategorical dims := by
  unfold Space.isCategorical
  induction h with
  | nil => rfl
  | cons hd _ ih => simp only [List.all_cons, hd.isCat, ih]

theorem Rescales.isEmpty (h : Rescales A dims dims' fs) : dims'.isEmpty = dims.isEmpty := by
  cases h <;> rfl

/-! ### Transposition -/

theorem pyGet_map {α β : Type} (f : α → β) (xs : List α) (i : Nat) :
    pyGet (xs.map f) i = (pyGet xs i).map f := by
  unfold pyGet
  rw [List.getElem?_map]
  cases xs[i]? <;> rfl

/-- Columns mapped one by one. -/
def mapCols : List (Val F → Val F) → List (List (Val F)) → List (List (Val F))
  | f :: fs, c :: cs => c.map f :: mapCols fs cs
  | _, cs => cs

omit [LinearOrder F] in
theorem mapE_pyGet_mapCols (fs : List (Val F → Val F)) (cols : List (List (Val F))) (i : Nat) :
    mapE (fun col => pyGet col i) (mapCols fs cols)
      = (mapE (fun col => pyGet col i) cols).map (relabel fs) := by
  induction fs generalizing cols with
  | nil =>
    have : (relabel [] : Point F → Point F) = id := by funext p; cases p <;> rfl
    rw [this, show mapCols ([] : List (Val F → Val F)) cols = cols by cases cols <;> rfl]
    cases mapE (fun col => pyGet col i) cols <;> rfl
  | cons f fs ih =>
    cases cols with
    | nil => rfl
    | cons c cs =>
      simp only [mapCols, mapE, ih, pyGet_map]
      cases pyGet c i with
      | error e => rfl
      | ok v =>
        simp only [Except.map_ok']
        cases mapE (fun col => pyGet col i) cs <;> rfl

theorem mapE_map_out {α β γ : Type} (f : α → Except PyErr β) (g : β → γ) (xs : List α) :
    mapE (fun x => (f x).map g) xs = (mapE f xs).map (List.map g) := by
  induction xs with
  | nil => rfl
  | cons x xs ih =>
    simp only [mapE, ih]
    cases f x with
    | error e => rfl
    | ok y =>
      simp only [Except.map_ok']
      cases mapE f xs <;> rfl

omit [LinearOrder F] in
theorem transpose_mapCols (fs : List (Val F → Val F)) (cols : List (List (Val F))) :
    transposeListArray (mapCols fs cols)
      = (transposeListArray cols).map (List.map (relabel fs)) := by
  cases cols with
  | nil => cases fs <;> rfl
  | cons c cs =>
    have h : transposeListArray (mapCols fs (c :: cs))
        = mapE (fun i => mapE (fun col => pyGet col i) (mapCols fs (c :: cs)))
            (List.range c.length) := by
      cases fs <;> simp [mapCols, transposeListArray]
    rw [h]
    simp only [transposeListArray, mapE_pyGet_mapCols, mapE_map_out]

theorem Rescales.inverseCols (h : Rescales A dims dims' fs) (start : Nat)
    (Xt : List (List (Val F))) :
    Space.inverseCols A dims' start Xt = (Space.inverseCols A dims start Xt).map (mapCols fs) := by
  induction h generalizing start with
  | nil => rfl
  | cons hd _ ih =>
    simp only [Space.inverseCols, hd.size, ih, hd.inverse]
    cases Space.block start _ Xt with
    | error e => rfl
    | ok b =>
      simp only [ok_bind]
      cases Dim.inverse A _ b with
      | error e => rfl
      | ok c =>
        simp only [Except.map_ok', ok_bind]
        cases Space.inverseCols A _ _ Xt <;> rfl

theorem Rescales.inverseTransform (h : Rescales A dims dims' fs) (Xt : List (List (Val F))) :
    Space.inverseTransform A dims' Xt
      = (Space.inverseTransform A dims Xt).map (List.map (relabel fs)) := by
  unfold Space.inverseTransform
  rw [h.inverseCols, h.isEmpty]
  cases Space.inverseCols A dims 0 Xt with
  | error e => rfl
  | ok cols =>
    simp only [Except.map_ok', ok_bind]
    split
    · rfl
    · exact transpose_mapCols fs cols

theorem Rescales.rvs (h : Rescales A dims dims' fs) (raws : List (RawDraw F)) :
    Space.rvs A dims' raws = (Space.rvs A dims raws).map (List.map (relabel fs)) := by
  have key : mapE (fun p => Dim.rvs A p.1 p.2) (dims'.zip raws)
      = (mapE (fun p => Dim.rvs A p.1 p.2) (dims.zip raws)).map (mapCols fs) := by
    induction h generalizing raws with
    | nil => rfl
    | cons hd _ ih =>
      cases raws with
      | nil => rfl
      | cons r rs =>
        simp only [List.zip_cons_cons, mapE, ih, hd.rvs]
        cases Dim.rvs A _ r with
        | error e => rfl
        | ok c =>
          simp only [Except.map_ok']
          cases mapE (fun p : Dim F × RawDraw F => Dim.rvs A p.1 p.2) _ <;> rfl
  unfold Space.rvs
  rw [key]
  cases mapE (fun p : Dim F × RawDraw F => Dim.rvs A p.1 p.2) (dims.zip raws) with
  | error e => rfl
  | ok cols => exact transpose_mapCols fs cols

/-! ### Decoded points lie in the space -/

theorem within_of_cols {cols : List (List (Val F))}
    (h : List.Forall₂ (fun d col => ∀ v ∈ col, Within d v) dims cols)
    {p : Point F} (hp : List.Forall₂ (fun col v => v ∈ col) cols p) :
    List.Forall₂ Within dims p := by
  induction h generalizing p with
  | nil => cases hp; exact .nil
  | cons h1 _ ih =>
    cases hp with
    | cons hm1 hm2 => exact .cons (h1 _ hm1) (ih hm2)

theorem Rescales.inverseTransform_within (h : Rescales A dims dims' fs) {Xt : List (List (Val F))}
    {ps : List (Point F)} (hps : Space.inverseTransform A dims Xt = .ok ps) :
    ∀ p ∈ ps, List.Forall₂ Within dims p := by
  unfold Space.inverseTransform at hps
  rw [bind_eq_ok] at hps
  obtain ⟨cols, hc, hps⟩ := hps
  split at hps
  · simp at hps
  have : List.Forall₂ (fun d col => ∀ v ∈ col, Within d v) dims cols := by
    clear hps
    rename_i hxx
    clear hxx
    generalize 0 = start at hc
    induction h generalizing start cols with
    | nil =>
      simp only [Space.inverseCols, Except.ok.injEq] at hc
      subst hc; exact .nil
    | cons hd _ ih =>
      simp only [Space.inverseCols, bind_eq_ok, Except.ok.injEq] at hc
      obtain ⟨b, _, c, hc1, cs, hcs, rfl⟩ := hc
      exact .cons (hd.inverse_within b c hc1) (ih _ _ hcs)
  intro p hp
  exact within_of_cols this (transpose_mem hps p hp)

theorem Rescales.rvs_within (h : Rescales A dims dims' fs) {raws : List (RawDraw F)}
    (hl : raws.length = dims.length)
    {ps : List (Point F)} (hps : Space.rvs A dims raws = .ok ps) :
    ∀ p ∈ ps, List.Forall₂ Within dims p := by
  unfold Space.rvs at hps
  rw [bind_eq_ok] at hps
  obtain ⟨cols, hc, hps⟩ := hps
  have : List.Forall₂ (fun d col => ∀ v ∈ col, Within d v) dims cols := by
    clear hps
    induction h generalizing raws cols with
    | nil =>
      simp only [List.zip_nil_left, mapE_nil, Except.ok.injEq] at hc
      subst hc; exact .nil
    | cons hd _ ih =>
      cases raws with
      | nil => simp at hl
      | cons r rs =>
        simp only [List.zip_cons_cons, mapE_cons_ok] at hc
        obtain ⟨c, cs, hc1, hcs, rfl⟩ := hc
        exact .cons (hd.rvs_within r c hc1) (ih (by simpa using hl) _ hcs)
  intro p hp
  exact within_of_cols this (transpose_mem hps p hp)

/-! ### Encoding -/

theorem Rescales.transform (h : Rescales A dims dims' fs) {X : List (Point F)}
    (hX : ∀ p ∈ X, List.Forall₂ Within dims p) :
    Space.transform A dims' (X.map (relabel fs)) = Space.transform A dims X := by
  have hl : ∀ p ∈ X, p.length = dims.length := fun p hp => (hX p hp).length_eq.symm
  unfold Space.transform
  rw [columns_ok hl, h.length_eq, h.isEmpty,
    columns_ok (n := dims.length) (X := X.map (relabel fs)) (by
      intro p hp
      obtain ⟨q, hq, rfl⟩ := List.mem_map.1 hp
      rw [relabel_length, hl q hq])]
  simp only [ok_bind]
  have key : mapE (fun p => Dim.transform A p.1 p.2) (dims'.zip
        ((List.range dims.length).map fun j => (X.map (relabel fs)).map fun p => p.getD j (.obj 0)))
      = mapE (fun p => Dim.transform A p.1 p.2) (dims.zip
        ((List.range dims.length).map fun j => X.map fun p => p.getD j (.obj 0))) := by
    clear hl
    induction h generalizing X with
    | nil => rfl
    | @cons d d' f ds ds' fs hd _ ih =>
      have ht : ∀ p ∈ X.map List.tail, List.Forall₂ Within ds p := by
        intro p hp
        obtain ⟨q, hq, rfl⟩ := List.mem_map.1 hp
        cases hX q hq with
        | cons _ h2 => exact h2
      have ih := ih ht
      have e1 : ((X.map (relabel (f :: fs))).map fun p => p.getD 0 (.obj 0))
          = (X.map fun p => p.getD 0 (.obj 0)).map f := by
        rw [List.map_map, List.map_map]
        refine List.map_congr_left fun p hp => ?_
        cases hX p hp; rfl
      have e2 : ∀ j, ((X.map (relabel (f :: fs))).map fun p => p.getD (j + 1) (.obj 0))
          = ((X.map List.tail).map (relabel fs)).map fun p => p.getD j (.obj 0) := by
        intro j
        simp only [List.map_map]
        refine List.map_congr_left fun p hp => ?_
        cases hX p hp; rfl
      have e3 : ∀ j, (X.map fun p => p.getD (j + 1) (.obj 0))
          = (X.map List.tail).map fun p => p.getD j (.obj 0) := by
        intro j
        simp only [List.map_map]
        refine List.map_congr_left fun p hp => ?_
        cases hX p hp; rfl
      simp only [List.length_cons, List.range_succ_eq_map, List.map_cons, List.zip_cons_cons, mapE]
      rw [e1, hd.transform _ (by
        intro v hv
        obtain ⟨p, hp, rfl⟩ := List.mem_map.1 hv
        cases hX p hp with
        | cons h1 _ => exact h1)]
      have l1 : ∀ Y : List (Point F), (List.map (fun j => Y.map fun p => p.getD j (.obj 0))
          (List.map Nat.succ (List.range ds.length)))
          = (List.range ds.length).map fun j => Y.map fun p => p.getD (j + 1) (.obj 0) := by
        intro Y; rw [List.map_map]; rfl
      rw [l1, l1]
      simp only [e2, e3]
      rw [ih]
  rw [key]
  simp

theorem Rescales.distance (h : Rescales A dims dims' fs) {a b : Point F}
    (ha : List.Forall₂ Within dims a) (hb : List.Forall₂ Within dims b) :
    (∃ x, Space.distance A dims' (relabel fs a) (relabel fs b) = .ok x) ∧
      ∃ x, Space.distance A dims a b = .ok x := by
  unfold Space.distance
  generalize A.ofInt 0 = z
  suffices ∀ z z', (∃ x, Space.distanceFrom A z' dims' (relabel fs a) (relabel fs b) = .ok x) ∧
      ∃ x, Space.distanceFrom A z dims a b = .ok x from this z z
  intro z z'
  have hdist : ∀ (d : Dim F) (u v : Val F), d.contains u = .ok true → d.contains v = .ok true →
      ∃ x, d.distance A u v = .ok x := by
    intro d u v hu hv
    cases d with
    | cat c => unfold Dim.distance; rw [hu, hv]; exact ⟨_, rfl⟩
    | real r =>
      obtain ⟨x, rfl, _⟩ := Dim.contains_true.1 hu
      obtain ⟨y, rfl, _⟩ := Dim.contains_true.1 hv
      unfold Dim.distance; rw [hu, hv]; exact ⟨_, rfl⟩
    | int r =>
      obtain ⟨x, rfl, _⟩ := Dim.contains_true.1 hu
      obtain ⟨y, rfl, _⟩ := Dim.contains_true.1 hv
      unfold Dim.distance; rw [hu, hv]; exact ⟨_, rfl⟩
  induction h generalizing a b z z' with
  | nil => cases ha; cases hb; exact ⟨⟨_, rfl⟩, ⟨_, rfl⟩⟩
  | cons hd _ ih =>
    cases ha with
    | cons a1 a2 =>
      cases hb with
      | cons b1 b2 =>
        rw [← Dim.contains_true] at a1 b1
        obtain ⟨x, hx⟩ := hdist _ _ _ a1 b1
        rw [← hd.contains] at a1 b1
        obtain ⟨y, hy⟩ := hdist _ _ _ a1 b1
        obtain ⟨h1, h2⟩ := ih a2 b2 (A.add z x) (A.add z' y)
        simp only [relabel, Space.distanceFrom, hx, hy, ok_bind]
        exact ⟨h1, h2⟩

end Space


/-! ### States -/

/-- The recorded, designed and suggested points lie in the space. -/
structure Tidy [LinearOrder F] (dims dims' : List (Dim F)) (s : Opt F M R) : Prop where
  xi : ∀ v ∈ s.Xi, ∃ p, v = .seq p ∧ List.Forall₂ Within dims p
  next : ∀ p, s.nextX = some p → List.Forall₂ Within dims p
  design : ∀ ps, s.initialSamples = some ps → ∀ p ∈ ps, List.Forall₂ Within dims p
  gp : s.cfg.isGP = true → Space.setTransformer dims .normalize = .ok dims ∧
    Space.setTransformer dims' .normalize = .ok dims'

/-- The random draws and the designs do not depend on the units: the scipy distributions of the two
spaces give the same draws, one per dimension, and a generator gives the same design in the other
units. -/
structure SameDraws [LinearOrder F] (W : World F M R G) (dims dims' : List (Dim F))
    (fs : List (Val F → Val F)) : Prop where
  draws : ∀ r n, W.draws r dims' n = W.draws r dims n
  width : ∀ r n, (W.draws r dims n).2.length = dims.length
  generate : ∀ g n r, ∃ g' ps, W.generate g dims n r = (g', dims, ps) ∧
    W.generate g dims' n r = (g', dims', ps.map (List.map (relabel fs))) ∧
    ∀ qs, ps = .ok qs → ∀ p ∈ qs, List.Forall₂ Within dims p

section State
variable [LinearOrder F] {A : Arith F} {W : World F M R G} {dims dims' : List (Dim F)}
  {fs : List (Val F → Val F)}

theorem createResult_relabel (fs : List (Val F → Val F)) (Xi : List (Val F)) (yi : List (YArg F))
    (ms : List M) :
    createResult (Xi.map (relabelVal fs)) yi ms = (createResult Xi yi ms).map (Result.relabel fs) := by
  have key : ∀ (ys : List (Flt F)) (lt : Option (List (Flt F))),
      (do let best ← npArgmin ys
          let x ← pyGet (Xi.map (relabelVal fs)) best
          let f ← pyGet ys best
          .ok ⟨x, f, ys, lt, Xi.map (relabelVal fs), ms⟩ : Except PyErr (Result F M))
        = Except.map (Result.relabel fs) (do
          let best ← npArgmin ys
          let x ← pyGet Xi best
          let f ← pyGet ys best
          .ok ⟨x, f, ys, lt, Xi, ms⟩) := by
    intro ys lt
    cases npArgmin ys with
    | error e => rfl
    | ok b =>
      simp only [ok_bind, pyGet_map]
      cases pyGet Xi b with
      | error e => rfl
      | ok x =>
        simp only [ok_bind, Except.map_ok']
        cases pyGet ys b <;> rfl
  unfold createResult
  cases asColumns yi with
  | error e => rfl
  | ok c =>
    cases c with
    | inl ys => exact key ys none
    | inr ps => exact key (ps.map Prod.fst) (some (ps.map Prod.snd))

theorem proposeOne_dims (h : Rescales A dims dims' fs) (cfg : Config) (est : M) (yOpt : Flt F)
    (X : List (List (Val F))) (rng : R) (c : AcqFunc) :
    proposeOne A W cfg dims' est yOpt X rng c = proposeOne A W cfg dims est yOpt X rng c := by
  unfold proposeOne
  rw [h.isCategorical, h.bounds]

theorem proposeAll_relabel (h : Rescales A dims dims' fs) (est : M) (yOpt : Flt F)
    (X : List (List (Val F))) (cs : List AcqFunc) (s : Opt F M R) :
    proposeAll A W dims' est yOpt X cs (s.relabel fs)
      = ((proposeAll A W dims est yOpt X cs s).1.relabel fs,
         (proposeAll A W dims est yOpt X cs s).2) := by
  induction cs generalizing s with
  | nil => rfl
  | cons c cs ih =>
    simp only [proposeAll, proposeOne_dims h]
    change (match proposeOne A W s.cfg dims est yOpt X s.rng c with
      | (rng, .error e) => _
      | (rng, .ok row) => _) = _
    rcases proposeOne A W s.cfg dims est yOpt X s.rng c with ⟨rng, _ | row⟩
    · rfl
    · exact ih { s with rng := rng, nextXs := some (s.nextXs.getD [] ++ [row]) }

theorem proposeAll_points (est : M) (yOpt : Flt F) (X : List (List (Val F))) (cs : List AcqFunc)
    (s : Opt F M R) :
    (proposeAll A W dims est yOpt X cs s).1.Xi = s.Xi ∧
    (proposeAll A W dims est yOpt X cs s).1.nextX = s.nextX ∧
    (proposeAll A W dims est yOpt X cs s).1.initialSamples = s.initialSamples ∧
    (proposeAll A W dims est yOpt X cs s).1.cfg = s.cfg := by
  induction cs generalizing s with
  | nil => exact ⟨rfl, rfl, rfl, rfl⟩
  | cons c cs ih =>
    simp only [proposeAll]
    rcases proposeOne A W s.cfg dims est yOpt X s.rng c with ⟨rng, _ | row⟩
    · exact ⟨rfl, rfl, rfl, rfl⟩
    · exact ih _

omit [LinearOrder F] in
theorem choose_relabel [LinearOrder F] (s : Opt F M R) :
    choose A W (s.relabel fs) = choose A W s := rfl

theorem suggest_relabel (h : Rescales A dims dims' fs) (hd : SameDraws W dims dims' fs) (est : M)
    (s : Opt F M R) (hs : Tidy dims dims' s) :
    suggest A W dims' est (s.relabel fs)
        = ((suggest A W dims est s).1.relabel fs, (suggest A W dims est s).2) ∧
      Tidy dims dims' (suggest A W dims est s).1 := by
  unfold suggest
  have e1 : W.draws (s.relabel fs).rng dims' (s.relabel fs).cfg.nPoints
      = W.draws s.rng dims s.cfg.nPoints := hd.draws _ _
  rw [e1]
  have hw := hd.width s.rng s.cfg.nPoints
  generalize W.draws s.rng dims s.cfg.nPoints = q at hw ⊢
  obtain ⟨rng, raws⟩ := q
  simp only at hw ⊢
  have e2 : (Space.rvs A dims' raws >>= fun pts => Space.transform A dims' pts)
      = (Space.rvs A dims raws >>= fun pts => Space.transform A dims pts) := by
    rw [h.rvs]
    cases hr : Space.rvs A dims raws with
    | error e => rfl
    | ok pts => exact h.transform (h.rvs_within hw hr)
  rw [e2]
  cases (Space.rvs A dims raws >>= fun pts => Space.transform A dims pts) with
  | error e => exact ⟨rfl, hs.1, hs.2, hs.3, hs.4⟩
  | ok X =>
    simp only
    have e3 : (s.relabel fs).yi = s.yi := rfl
    rw [e3]
    cases (flatNums s.yi >>= fun ys => fltMin ys) with
    | error e => exact ⟨rfl, hs.1, hs.2, hs.3, hs.4⟩
    | ok yOpt =>
      simp only
      have e4 := proposeAll_relabel (W := W) h est yOpt X s.cfg.acq.candidates
        { s with rng := rng, nextXs := some [] }
      have e5 := proposeAll_points (A := A) (W := W) (dims := dims) est yOpt X s.cfg.acq.candidates
        { s with rng := rng, nextXs := some [] }
      change (match proposeAll A W dims' est yOpt X s.cfg.acq.candidates
        (Opt.relabel fs { s with rng := rng, nextXs := some [] }) with
        | (s, .error e) => _
        | (s, .ok _) => _) = _ ∧ _
      rw [e4]
      rcases hp : proposeAll A W dims est yOpt X s.cfg.acq.candidates
        { s with rng := rng, nextXs := some [] } with ⟨s2, _ | _⟩
      · rw [hp] at e5
        obtain ⟨h1, h2, h3, h4⟩ := e5
        simp only at h1 h2 h3 h4
        refine ⟨rfl, ?_, ?_, ?_, ?_⟩
        · simp only [h1]; exact hs.1
        · simp only [h2]; exact hs.2
        · simp only [h3]; exact hs.3
        · simp only [h4]; exact hs.4
      · rw [hp] at e5
        obtain ⟨h1, h2, h3, h4⟩ := e5
        simp only at h1 h2 h3 h4 ⊢
        rw [choose_relabel]
        rcases choose A W s2 with ⟨rng2, row⟩
        simp only
        cases row with
        | error e =>
          refine ⟨rfl, ?_, ?_, ?_, ?_⟩
          · simp only [error_bind, h1]; exact hs.1
          · simp only [error_bind, h2]; exact hs.2
          · simp only [error_bind, h3]; exact hs.3
          · simp only [error_bind, h4]; exact hs.4
        | ok r =>
          simp only [ok_bind, h.inverseTransform]
          cases hi : Space.inverseTransform A dims [r] with
          | error e =>
            refine ⟨rfl, ?_, ?_, ?_, ?_⟩
            · simp only [error_bind, h1]; exact hs.1
            · simp only [error_bind, h2]; exact hs.2
            · simp only [error_bind, h3]; exact hs.3
            · simp only [error_bind, h4]; exact hs.4
          | ok ps =>
            simp only [ok_bind, Except.map_ok', pyGet_map]
            cases hg : pyGet ps 0 with
            | error e =>
              refine ⟨rfl, ?_, ?_, ?_, ?_⟩
              · simp only [h1]; exact hs.1
              · simp only [h2]; exact hs.2
              · simp only [h3]; exact hs.3
              · simp only [h4]; exact hs.4
            | ok x =>
              refine ⟨rfl, ?_, ?_, ?_, ?_⟩
              · simp only [h1]; exact hs.1
              · intro p hp
                simp only [Option.some.injEq] at hp
                subst hp
                exact h.inverseTransform_within hi x (pyGet_mem hg)
              · simp only [h3]; exact hs.3
              · simp only [h4]; exact hs.4

theorem items_relabel {Xi : List (Val F)}
    (hs : ∀ v ∈ Xi, ∃ p, v = .seq p ∧ List.Forall₂ Within dims p) :
    (Xi.map (relabelVal fs)).map Val.items = (Xi.map Val.items).map (relabel fs) := by
  rw [List.map_map, List.map_map]
  refine List.map_congr_left fun v hv => ?_
  obtain ⟨p, rfl, _⟩ := hs v hv
  rfl

theorem refit_relabel (h : Rescales A dims dims' fs) (hd : SameDraws W dims dims' fs)
    (s : Opt F M R) (hs : Tidy dims dims' s) :
    refit A W dims' (s.relabel fs)
        = ((refit A W dims s).1.relabel fs, (refit A W dims s).2) ∧
      Tidy dims dims' (refit A W dims s).1 := by
  let after (dims : List (Dim F)) (s : Opt F M R) (q : R × Except PyErr M) :
      Opt F M R × Except PyErr Unit :=
    match q.2 with
    | .error e => ({ s with rng := q.1 }, .error e)
    | .ok est =>
      match updateGains A W { s with rng := q.1 } est with
      | .error e => ({ s with rng := q.1 }, .error e)
      | .ok g =>
        match pushModel s.cfg.queueSize s.models est with
        | .error e => ({ s with rng := q.1, gains := g }, .error e)
        | .ok ms => suggest A W dims est { s with rng := q.1, gains := g, models := ms }
  have hrefit : ∀ (dims : List (Dim F)) (s : Opt F M R), refit A W dims s
      = match Space.transform A dims (s.Xi.map Val.items) with
        | .error e => (s, .error e)
        | .ok Xt => after dims s (W.fit s.rng Xt s.yi) := by
    intro dims s
    unfold refit
    cases Space.transform A dims (s.Xi.map Val.items) <;> rfl
  have e1 : Space.transform A dims' ((s.relabel fs).Xi.map Val.items)
      = Space.transform A dims (s.Xi.map Val.items) := by
    change Space.transform A dims' ((s.Xi.map (relabelVal fs)).map Val.items) = _
    rw [items_relabel hs.xi]
    refine h.transform fun p hp => ?_
    obtain ⟨v, hv, rfl⟩ := List.mem_map.1 hp
    obtain ⟨q, rfl, hq⟩ := hs.xi v hv
    exact hq
  rw [hrefit, hrefit, e1]
  cases Space.transform A dims (s.Xi.map Val.items) with
  | error e => exact ⟨rfl, hs⟩
  | ok Xt =>
    change after dims' (s.relabel fs) (W.fit s.rng Xt s.yi)
      = ((after dims s (W.fit s.rng Xt s.yi)).1.relabel fs, (after dims s (W.fit s.rng Xt s.yi)).2) ∧
      Tidy dims dims' (after dims s (W.fit s.rng Xt s.yi)).1
    generalize W.fit s.rng Xt s.yi = q
    obtain ⟨rng, m⟩ := q
    cases m with
    | error e => exact ⟨rfl, hs.1, hs.2, hs.3, hs.4⟩
    | ok est =>
      simp only [after]
      rw [show updateGains A W { s.relabel fs with rng := rng } est
        = updateGains A W { s with rng := rng } est from rfl]
      cases updateGains A W { s with rng := rng } est with
      | error e => exact ⟨rfl, hs.1, hs.2, hs.3, hs.4⟩
      | ok g =>
        simp only
        rw [show pushModel (s.relabel fs).cfg.queueSize (s.relabel fs).models est
          = pushModel s.cfg.queueSize s.models est from rfl]
        cases pushModel s.cfg.queueSize s.models est with
        | error e => exact ⟨rfl, hs.1, hs.2, hs.3, hs.4⟩
        | ok ms =>
          exact suggest_relabel h hd est
            { s with rng := rng, gains := g, models := ms } ⟨hs.1, hs.2, hs.3, hs.4⟩

/-- The rest of `_tell` after recording. -/
theorem afterRecord_relabel (h : Rescales A dims dims' fs) (hd : SameDraws W dims dims' fs)
    (s : Opt F M R) (hs : Tidy dims dims' s) (x x' : XArg F) (y : YArg F) (fit : Bool) (s0 s0' : Opt F M R)
    (h0 : record s0 x y = .ok s) (h0' : record s0' x' y = .ok (s.relabel fs)) :
    tellCore A W dims' s0' x' y fit
        = ((tellCore A W dims s0 x y fit).1.relabel fs,
           (tellCore A W dims s0 x y fit).2.map (Result.relabel fs)) ∧
      Tidy dims dims' (tellCore A W dims s0 x y fit).1 := by
  unfold tellCore
  rw [h0, h0']
  simp only
  change (if fit && decide (s.nInit ≤ 0) && s.cfg.hasEst then _ else _) = _ ∧ _
  split
  · obtain ⟨e1, e2⟩ := refit_relabel h hd s hs
    rw [e1]
    generalize refit A W dims s = q at e2 ⊢
    rcases q with ⟨s2, _ | _⟩
    · exact ⟨rfl, e2⟩
    · refine ⟨?_, e2⟩
      simp only
      rw [← createResult_relabel]
      rfl
  · refine ⟨?_, hs⟩
    simp only
    rw [← createResult_relabel]
    rfl

/-! ### Recording -/

theorem checkXInSpace_one (h : Rescales A dims dims' fs) {p : Point F} (hp : is2D p = false) :
    checkXInSpace dims' (relabel fs p) = checkXInSpace dims p := by
  have hp' : is2D (relabel fs p) = false := by rw [← hp]; exact h.isSeq p
  unfold checkXInSpace
  simp only [hp, hp', h.contains, h.length_eq, relabel_length, Bool.false_eq_true, if_false]

theorem checkXInSpace_many (h : Rescales A dims dims' fs) (ps : List (Point F)) :
    checkXInSpace dims' ((ps.map (relabel fs)).map .seq) = checkXInSpace dims (ps.map .seq) := by
  have h2 : ∀ qs : List (Point F), is2D (qs.map .seq) = true := by
    intro qs; simp [is2D, Val.isSeq]
  unfold checkXInSpace
  rw [h2, h2, mapE_map, mapE_map, mapE_map, h.length_eq]
  simp only [List.any_map, Function.comp_def, Val.items, relabel_length, h.contains, if_true]
  rfl

theorem checkXInSpace_one_within {p : Point F} (hp : is2D p = false)
    (h : checkXInSpace dims p = .ok ()) : List.Forall₂ Within dims p := by
  unfold checkXInSpace at h
  rw [hp] at h
  simp only [Bool.false_eq_true, if_false, bind_eq_ok] at h
  obtain ⟨b, hb, h⟩ := h
  split at h
  · rename_i hbt
    split at h
    · simp at h
    · rename_i hl
      exact Space.contains_true_iff.1 ⟨by rw [hb, hbt], by simpa using hl⟩
  · simp at h

theorem checkXInSpace_many_within {ps : List (Point F)}
    (h : checkXInSpace dims (ps.map .seq) = .ok ()) : ∀ p ∈ ps, List.Forall₂ Within dims p := by
  have h2 : is2D (ps.map Val.seq) = true := by simp [is2D, Val.isSeq]
  unfold checkXInSpace at h
  rw [h2] at h
  simp only [if_true, bind_eq_ok] at h
  obtain ⟨bs, hb, h⟩ := h
  split at h
  · rename_i hbt
    split at h
    · simp at h
    · rename_i hl
      intro p hp
      rw [mapE_map, mapE_eq_ok] at hb
      obtain ⟨b, hbm, hpb⟩ := forall₂_mem_left hb hp
      have hb1 : b = true := by simpa using List.all_eq_true.1 hbt b hbm
      refine Space.contains_true_iff.1 ⟨by rw [← hb1]; exact hpb, ?_⟩
      simp only [List.any_map, List.any_eq_true, not_exists, not_and] at hl
      by_contra hc
      exact hl p hp (decide_eq_true hc)
  · simp at h

/-- The points of the space are not made of sequences only. -/
def FlatSpace (dims : List (Dim F)) : Prop := ∀ p, List.Forall₂ Within dims p → is2D p = false

theorem tellCore_one (h : Rescales A dims dims' fs) (hd : SameDraws W dims dims' fs)
    (s : Opt F M R) (hs : Tidy dims dims' s) {p : Point F} (hp : is2D p = false)
    (hw : List.Forall₂ Within dims p) (y : YArg F) (fit : Bool) :
    tellCore A W dims' (s.relabel fs) (.lst (relabel fs p)) y fit
        = ((tellCore A W dims s (.lst p) y fit).1.relabel fs,
           (tellCore A W dims s (.lst p) y fit).2.map (Result.relabel fs)) ∧
      Tidy dims dims' (tellCore A W dims s (.lst p) y fit).1 := by
  have hp' : is2D (relabel fs p) = false := by rw [← hp]; exact h.isSeq p
  refine afterRecord_relabel h hd (record.single s p y) ⟨?_, hs.2, hs.3, hs.4⟩ _ _ _ _ _ _ ?_ ?_
  · intro v hv
    rcases List.mem_append.1 hv with hv | hv
    · exact hs.1 v hv
    · rw [List.mem_singleton] at hv
      exact ⟨p, hv, hw⟩
  · simp [record, hp]
  · have e : (record.single s p y).relabel fs = record.single (s.relabel fs) (relabel fs p) y := by
      simp [record.single, Opt.relabel, relabelVal]
    rw [e]
    simp [record, hp']

theorem tellCore_many (h : Rescales A dims dims' fs) (hd : SameDraws W dims dims' fs)
    (s : Opt F M R) (hs : Tidy dims dims' s) {ps : List (Point F)}
    (hw : ∀ p ∈ ps, List.Forall₂ Within dims p) (ys : List (YArg F)) (fit : Bool) :
    tellCore A W dims' (s.relabel fs) (.lst ((ps.map (relabel fs)).map .seq)) (.seq ys) fit
        = ((tellCore A W dims s (.lst (ps.map .seq)) (.seq ys) fit).1.relabel fs,
           (tellCore A W dims s (.lst (ps.map .seq)) (.seq ys) fit).2.map (Result.relabel fs)) ∧
      Tidy dims dims' (tellCore A W dims s (.lst (ps.map .seq)) (.seq ys) fit).1 := by
  have h2 : ∀ qs : List (Point F), is2D (qs.map .seq) = true := by
    intro qs; simp [is2D, Val.isSeq]
  refine afterRecord_relabel h hd (record.batch s (ps.map .seq) ys) ⟨?_, hs.2, hs.3, hs.4⟩ _ _ _ _ _ _ ?_ ?_
  · intro v hv
    rcases List.mem_append.1 hv with hv | hv
    · exact hs.1 v hv
    · obtain ⟨p, hp, rfl⟩ := List.mem_map.1 hv
      exact ⟨p, rfl, hw p hp⟩
  · simp only [record, h2, YArg.isSeq, YArg.items, Bool.and_self, if_true, ite_self]
  · have e : (record.batch s (ps.map .seq) ys).relabel fs
        = record.batch (s.relabel fs) ((ps.map (relabel fs)).map .seq) ys := by
      simp [record.batch, Opt.relabel, relabelVal, Function.comp_def]
    rw [e]
    simp only [record, h2, YArg.isSeq, YArg.items, Bool.and_self, if_true, ite_self]

/-! ### ask -/

theorem pyGetI_map {α β : Type} (f : α → β) (xs : List α) (i : ℤ) :
    pyGetI (xs.map f) i = (pyGetI xs i).map f := by
  unfold pyGetI
  simp only [List.length_map, pyGet_map]
  split
  · rfl
  · split
    · rfl
    · rfl

theorem askOne_relabel (h : Rescales A dims dims' fs) (hd : SameDraws W dims dims' fs)
    (s : Opt F M R) (hs : Tidy dims dims' s) :
    askOne A W dims' (s.relabel fs)
        = ((askOne A W dims s).1.relabel fs, (askOne A W dims s).2.map (relabel fs)) ∧
      Tidy dims dims' (askOne A W dims s).1 ∧
      ∀ p, (askOne A W dims s).2 = .ok p → List.Forall₂ Within dims p := by
  unfold askOne
  rw [show (s.relabel fs).nInit = s.nInit from rfl, show (s.relabel fs).cfg = s.cfg from rfl,
    show (s.relabel fs).models = s.models from rfl]
  by_cases h1 : 0 < s.nInit ∨ s.cfg.hasEst = false
  · simp only [if_pos h1]
    rw [show (s.relabel fs).initialSamples = s.initialSamples.map (List.map (relabel fs)) from rfl]
    cases hi : s.initialSamples with
    | none =>
      change (({ s.relabel fs with rng := (W.draws s.rng dims' 1).1, initialSamples := none } : Opt F M R),
          (Space.rvs A dims' (W.draws s.rng dims' 1).2 >>= fun pts => pyGet pts 0))
          = (Opt.relabel fs { s with rng := (W.draws s.rng dims 1).1, initialSamples := none },
            (Space.rvs A dims (W.draws s.rng dims 1).2 >>= fun pts => pyGet pts 0).map (relabel fs)) ∧
        Tidy dims dims' { s with rng := (W.draws s.rng dims 1).1, initialSamples := none } ∧
        ∀ p, (Space.rvs A dims (W.draws s.rng dims 1).2 >>= fun pts => pyGet pts 0) = .ok p → _
      rw [hd.draws]
      have hw := hd.width s.rng 1
      generalize W.draws s.rng dims 1 = q at hw ⊢
      obtain ⟨rng, raws⟩ := q
      simp only at hw ⊢
      rw [h.rvs]
      cases hr : Space.rvs A dims raws with
      | error e => exact ⟨rfl, ⟨hs.1, hs.2, by simp, hs.4⟩, by simp⟩
      | ok pts =>
        simp only [Except.map_ok', ok_bind, pyGet_map]
        refine ⟨rfl, ⟨hs.1, hs.2, by simp, hs.4⟩, fun p hp => ?_⟩
        exact h.rvs_within hw hr p (pyGet_mem hp)
    | some pts =>
      simp only [Option.map_some, List.length_map, pyGetI_map]
      refine ⟨trivial, hs, fun p hp => hs.design pts hi p ?_⟩
      unfold pyGetI at hp
      split at hp
      · exact pyGet_mem hp
      · split at hp
        · exact pyGet_mem hp
        · simp at hp
  · simp only [if_neg h1]
    by_cases h2 : s.models.isEmpty = true
    · simp only [h2, if_true]
      exact ⟨rfl, hs, by simp⟩
    · simp only [h2, if_false, Bool.false_eq_true]
      rw [show (s.relabel fs).nextX = s.nextX.map (relabel fs) from rfl]
      cases hx : s.nextX with
      | none => exact ⟨rfl, hs, by simp⟩
      | some x =>
        have hxw := hs.next x hx
        have k1 : ∀ v ∈ s.Xi, ∃ z, Space.distance A dims x v.items = .ok z := by
          intro v hv
          obtain ⟨p, rfl, hp⟩ := hs.xi v hv
          exact (h.distance hxw hp).2
        have k2 : ∀ v ∈ s.Xi.map (relabelVal fs),
            ∃ z, Space.distance A dims' (relabel fs x) v.items = .ok z := by
          intro v hv
          obtain ⟨u, hu, rfl⟩ := List.mem_map.1 hv
          obtain ⟨p, rfl, hp⟩ := hs.xi u hu
          exact (h.distance hxw hp).1
        have k3 : ∀ (f : Val F → Except PyErr F) (l : List (Val F)) (x : Point F),
            (∀ v ∈ l, ∃ z, f v = .ok z) →
            (mapE f l >>= fun ds => if ds.isEmpty then .error .valueError else .ok x)
              = if l.isEmpty then .error .valueError else (.ok x : Except PyErr (Point F)) := by
          intro f l x hl
          cases hm : mapE f l with
          | error e =>
            obtain ⟨v, hv, e', he'⟩ := mapE_error_iff.1 ⟨e, hm⟩
            obtain ⟨z, hz⟩ := hl v hv
            rw [hz] at he'; simp at he'
          | ok ds =>
            have := mapE_length hm
            simp only [ok_bind]
            cases ds <;> cases l <;> simp_all
        simp only [Option.map_some]
        rw [show (s.relabel fs).Xi = s.Xi.map (relabelVal fs) from rfl]
        rw [k3 _ _ _ k1, k3 _ _ _ k2]
        simp only [List.isEmpty_map]
        refine ⟨?_, hs, ?_⟩
        · split <;> rfl
        · intro p hp
          split at hp
          · simp at hp
          · simp only [Except.ok.injEq] at hp
            exact hp ▸ hxw

theorem liarLoop_relabel (h : Rescales A dims dims' fs) (hd : SameDraws W dims dims' fs)
    (hf : FlatSpace dims) (strat : Strategy) (n : Nat) (s : Opt F M R) (hs : Tidy dims dims' s) :
    liarLoop A W dims' strat n (s.relabel fs)
        = ((liarLoop A W dims strat n s).1.relabel fs,
           (liarLoop A W dims strat n s).2.map (List.map (relabel fs))) := by
  induction n generalizing s with
  | zero => rfl
  | succ n ih =>
    unfold liarLoop
    obtain ⟨e1, t1, w1⟩ := askOne_relabel h hd s hs
    rw [e1]
    generalize askOne A W dims s = q at t1 w1 ⊢
    obtain ⟨o, _ | x⟩ := q
    · rfl
    · simp only at t1 w1 ⊢
      have hxw := w1 x rfl
      rw [Except.map_ok']
      simp only
      rw [show lie A W (o.relabel fs).cfg.acq strat (o.relabel fs).yi
        = lie A W o.cfg.acq strat o.yi from rfl]
      cases lie A W o.cfg.acq strat o.yi with
      | error e => rfl
      | ok l =>
        simp only
        obtain ⟨e2, t2⟩ := tellCore_one h hd o t1 (hf x hxw) hxw l true
        rw [e2]
        generalize tellCore A W dims o (.lst x) l true = q at t2 ⊢
        obtain ⟨o2, _ | r⟩ := q
        · rfl
        · simp only [Except.map_ok'] at t2 ⊢
          rw [ih o2 t2]
          generalize liarLoop A W dims strat n o2 = q
          obtain ⟨o3, _ | xs⟩ := q <;> rfl

/-- Construction on the two spaces. -/
theorem init_relabel (hd : SameDraws W dims dims' fs)
    (hst : Space.setTransformers dims (Space.getTransformer dims) = .ok dims)
    (hst' : Space.setTransformers dims' (Space.getTransformer dims') = .ok dims')
    (gen : Option G) (cfg : Config) (rng : R) {D D' : List (Dim F)}
    (e1 : (if cfg.isGP then Space.setTransformer D .normalize else .ok D) = .ok dims)
    (e2 : (if cfg.isGP then Space.setTransformer D' .normalize else .ok D') = .ok dims')
    (hgp : cfg.isGP = true → Space.setTransformer dims .normalize = .ok dims ∧
      Space.setTransformer dims' .normalize = .ok dims') :
    ∃ gen' o, Opt.init (M := M) A W ⟨D, gen⟩ cfg rng = (⟨dims, gen'⟩, o) ∧
      Opt.init A W ⟨D', gen⟩ cfg rng = (⟨dims', gen'⟩, o.map (Opt.relabel fs)) ∧
      ∀ s, o = .ok s → Tidy dims dims' s ∧ s.cfg = cfg ∧ s.Xi = [] := by
  cases gen with
  | none =>
    refine ⟨none, .ok (Opt.fresh A cfg rng none), ?_, ?_, ?_⟩
    · unfold Opt.init; simp only [e1]
    · unfold Opt.init; simp only [e2]; rfl
    intro s hs
    simp only [Except.ok.injEq] at hs
    subst hs
    exact ⟨⟨by simp [Opt.fresh], by simp [Opt.fresh], by simp [Opt.fresh], hgp⟩, rfl, rfl⟩
  | some g =>
    obtain ⟨g', ps, h1, h2, h3⟩ := hd.generate g cfg.nInitial (W.seed rng).2
    have k : ∀ D D' : List (Dim F),
        (if cfg.isGP then Space.setTransformer D .normalize else .ok D) = .ok D' →
        Opt.init (M := M) A W ⟨D, some g⟩ cfg rng = match W.generate g D' cfg.nInitial (W.seed rng).2 with
        | (g', (dims', .error e)) => ({ dims := dims', gen := some g' }, .error e)
        | (g', (dims', .ok pts)) =>
          match Space.setTransformers dims' (Space.getTransformer D') with
          | .error e => ({ dims := dims', gen := some g' }, .error e)
          | .ok dims'' =>
            ({ dims := dims'', gen := some g' }, .ok (Opt.fresh A cfg (W.seed rng).1 (some pts))) := by
      intro D D' hD
      unfold Opt.init
      simp only [hD]
      rfl
    rw [k _ _ e1, k _ _ e2, h1, h2]
    cases ps with
    | error e => exact ⟨some g', .error e, rfl, rfl, by simp⟩
    | ok pts =>
      simp only [Except.map_ok', hst, hst']
      refine ⟨some g', .ok (Opt.fresh A cfg (W.seed rng).1 (some pts)), rfl, rfl, ?_⟩
      intro s hs
      simp only [Except.ok.injEq] at hs
      subst hs
      refine ⟨⟨by simp [Opt.fresh], by simp [Opt.fresh], ?_, hgp⟩, rfl, rfl⟩
      intro qs hqs
      simp only [Opt.fresh, Option.some.injEq] at hqs
      subst hqs
      exact h3 pts rfl

theorem copy_relabel (h : Rescales A dims dims' fs) (hd : SameDraws W dims dims' fs)
    (hst : Space.setTransformers dims (Space.getTransformer dims) = .ok dims)
    (hst' : Space.setTransformers dims' (Space.getTransformer dims') = .ok dims')
    (gen : Option G) (s : Opt F M R) (hs : Tidy dims dims' s) (rng : R) :
    ∃ gen' o, Opt.copy A W ⟨dims, gen⟩ s rng = (⟨dims, gen'⟩, o) ∧
      Opt.copy A W ⟨dims', gen⟩ (s.relabel fs) rng = (⟨dims', gen'⟩, o.map (Opt.relabel fs)) ∧
      ∀ c, o = .ok c → Tidy dims dims' c := by
  obtain ⟨gen', o, h1, h2, h3⟩ := init_relabel (A := A) (M := M) hd hst hst' gen
    { s.cfg with queueSize := none } rng (by
      split
      · rename_i hg; exact (hs.gp hg).1
      · rfl) (by
      split
      · rename_i hg; exact (hs.gp hg).2
      · rfl) hs.gp
  unfold Opt.copy
  rw [show (s.relabel fs).cfg = s.cfg from rfl, h1, h2]
  cases o with
  | error e => exact ⟨gen', .error e, rfl, rfl, by simp⟩
  | ok c =>
    obtain ⟨t, hc, hX⟩ := h3 c rfl
    let c' : Opt F M R := { c with
      initialSamples := s.initialSamples
      gains := match s.gains with
        | some g => some g
        | none => c.gains }
    have t' : Tidy dims dims' c' := ⟨t.1, t.2, hs.3, t.4⟩
    by_cases he : s.Xi.isEmpty = true
    · have he' : (s.relabel fs).Xi.isEmpty = true := by
        simpa [Opt.relabel] using he
      refine ⟨gen', .ok c', ?_, ?_, ?_⟩
      · simp only [he, if_true]; rfl
      · simp only [Except.map_ok', he', if_true]; rfl
      · intro d hdd
        simp only [Except.ok.injEq] at hdd
        exact hdd ▸ t'
    · have he' : ¬ (s.relabel fs).Xi.isEmpty = true := by
        simpa [Opt.relabel] using he
      obtain ⟨ps, hps, hpw⟩ : ∃ ps : List (Point F), s.Xi = ps.map .seq ∧
          ∀ p ∈ ps, List.Forall₂ Within dims p := by
        refine ⟨s.Xi.map Val.items, ?_, ?_⟩
        · rw [List.map_map]
          symm
          conv_rhs => rw [← List.map_id s.Xi]
          refine List.map_congr_left fun v hv => ?_
          obtain ⟨p, rfl, _⟩ := hs.xi v hv
          rfl
        · intro p hp
          obtain ⟨v, hv, rfl⟩ := List.mem_map.1 hp
          obtain ⟨q, rfl, hq⟩ := hs.xi v hv
          exact hq
      have hps' : (s.relabel fs).Xi = (ps.map (relabel fs)).map .seq := by
        change s.Xi.map (relabelVal fs) = _
        rw [hps, List.map_map, List.map_map]
        rfl
      obtain ⟨e, t2⟩ := tellCore_many h hd c' t' hpw s.yi true
      have k1 : Opt.copy A W ⟨dims, gen⟩ s rng = (⟨dims, gen'⟩,
          match tellCore A W dims c' (.lst (ps.map .seq)) (.seq s.yi) true with
          | (_, .error e) => .error e
          | (o, .ok _) => .ok o) := by
        unfold Opt.copy
        rw [h1]
        simp only [he, Bool.false_eq_true, if_false]
        rw [← hps]
        change (match tellCore A W dims c' (.lst s.Xi) (.seq s.yi) true with
          | (_, .error e) => _
          | (o, .ok _) => _) = _
        generalize tellCore A W dims c' (.lst s.Xi) (.seq s.yi) true = q
        obtain ⟨o, _ | _⟩ := q <;> rfl
      have k2 : Opt.copy A W ⟨dims', gen⟩ (s.relabel fs) rng = (⟨dims', gen'⟩,
          match tellCore A W dims' (c'.relabel fs) (.lst ((ps.map (relabel fs)).map .seq))
              (.seq s.yi) true with
          | (_, .error e) => .error e
          | (o, .ok _) => .ok o) := by
        unfold Opt.copy
        rw [show (s.relabel fs).cfg = s.cfg from rfl, h2]
        simp only [he', Bool.false_eq_true, if_false, Except.map_ok']
        rw [← hps']
        change (match tellCore A W dims' (c'.relabel fs) (.lst (s.relabel fs).Xi) (.seq s.yi) true with
          | (_, .error e) => _
          | (o, .ok _) => _) = _
        generalize tellCore A W dims' (c'.relabel fs) (.lst (s.relabel fs).Xi) (.seq s.yi) true = q
        obtain ⟨o, _ | _⟩ := q <;> rfl
      unfold Opt.copy at k1 k2
      rw [h1] at k1
      rw [show (s.relabel fs).cfg = s.cfg from rfl, h2] at k2
      rw [e] at k2
      refine ⟨gen', _, k1, ?_, ?_⟩
      · rw [k2]
        generalize tellCore A W dims c' (.lst (ps.map .seq)) (.seq s.yi) true = q
        obtain ⟨o, _ | _⟩ := q <;> rfl
      · generalize tellCore A W dims c' (.lst (ps.map .seq)) (.seq s.yi) true = q at t2
        obtain ⟨o, _ | _⟩ := q
        · simp
        · simp only [Except.ok.injEq]
          rintro c rfl
          exact t2

theorem askMany_relabel (h : Rescales A dims dims' fs) (hd : SameDraws W dims dims' fs)
    (hf : FlatSpace dims)
    (hst : Space.setTransformers dims (Space.getTransformer dims) = .ok dims)
    (hst' : Space.setTransformers dims' (Space.getTransformer dims') = .ok dims')
    (gen : Option G) (s : Opt F M R) (hs : Tidy dims dims' s) (n : ℤ) (strat : Strategy) :
    ∃ gen' s' o, askMany A W ⟨dims, gen⟩ s n strat = (⟨dims, gen'⟩, s', o) ∧
      askMany A W ⟨dims', gen⟩ (s.relabel fs) n strat
        = (⟨dims', gen'⟩, s'.relabel fs, o.map (List.map (relabel fs))) ∧
      Tidy dims dims' s' := by
  by_cases h1 : ¬ 0 < n
  · refine ⟨gen, s, .error .valueError, ?_, ?_, hs⟩ <;> unfold askMany <;> rw [if_pos h1]
    rfl
  by_cases h2 : strat = .other
  · refine ⟨gen, s, .error .valueError, ?_, ?_, hs⟩ <;> unfold askMany <;>
      rw [if_neg h1, if_pos h2]
    rfl
  have k : ∀ (sh : Shared F G) (s : Opt F M R), askMany A W sh s n strat =
      match askMany.cached s n.toNat strat with
      | some X => (sh, s, .ok X)
      | none =>
        match Opt.copy A W sh { s with rng := (W.seed s.rng).1 } (W.seed s.rng).2 with
        | (sh, .error e) => (sh, { s with rng := (W.seed s.rng).1 }, .error e)
        | (sh, .ok o) =>
          match liarLoop A W sh.dims strat n.toNat o with
          | (_, .error e) => (sh, { s with rng := (W.seed s.rng).1 }, .error e)
          | (_, .ok X) => (sh, { s with rng := (W.seed s.rng).1, cache := some ((n.toNat, strat), X) }, .ok X) := by
    intro sh s
    unfold askMany
    rw [if_neg h1, if_neg h2]
    cases askMany.cached s n.toNat strat <;> rfl
  rw [k, k]
  have hc : askMany.cached (s.relabel fs) n.toNat strat
      = (askMany.cached s n.toNat strat).map (List.map (relabel fs)) := by
    unfold askMany.cached
    rw [show (s.relabel fs).cache = s.cache.map fun c => (c.1, c.2.map (relabel fs)) from rfl]
    cases s.cache with
    | none => rfl
    | some c =>
      obtain ⟨c1, c2⟩ := c
      simp only [Option.map_some]
      split <;> rfl
  rw [hc]
  cases askMany.cached s n.toNat strat with
  | some X => exact ⟨gen, s, .ok X, rfl, rfl, hs⟩
  | none =>
    have t0 : Tidy dims dims' { s with rng := (W.seed s.rng).1 } := ⟨hs.1, hs.2, hs.3, hs.4⟩
    obtain ⟨gen', o, h3, h4, h5⟩ := copy_relabel h hd hst hst' gen
      { s with rng := (W.seed s.rng).1 } t0 (W.seed s.rng).2
    simp only [Option.map_none]
    rw [h3]
    rw [show Opt.copy A W ⟨dims', gen⟩ { s.relabel fs with rng := (W.seed (s.relabel fs).rng).1 }
        (W.seed (s.relabel fs).rng).2 = Opt.copy A W ⟨dims', gen⟩
          (Opt.relabel fs { s with rng := (W.seed s.rng).1 }) (W.seed s.rng).2 from rfl, h4]
    cases o with
    | error e => exact ⟨gen', _, .error e, rfl, rfl, t0⟩
    | ok c =>
      simp only [Except.map_ok']
      rw [liarLoop_relabel h hd hf strat n.toNat c (h5 c rfl)]
      generalize liarLoop A W dims strat n.toNat c = q
      obtain ⟨o, _ | X⟩ := q
      · exact ⟨gen', _, .error _, rfl, rfl, t0⟩
      · exact ⟨gen', { s with rng := (W.seed s.rng).1, cache := some ((n.toNat, strat), X) }, .ok X,
          rfl, rfl, hs.1, hs.2, hs.3, hs.4⟩

theorem updateNext_relabel (h : Rescales A dims dims' fs) (hd : SameDraws W dims dims' fs)
    (hst : Space.setTransformers dims (Space.getTransformer dims) = .ok dims)
    (hst' : Space.setTransformers dims' (Space.getTransformer dims') = .ok dims')
    (gen : Option G) (s : Opt F M R) (hs : Tidy dims dims' s) :
    ∃ gen' s' o, updateNext A W ⟨dims, gen⟩ s = (⟨dims, gen'⟩, s', o) ∧
      updateNext A W ⟨dims', gen⟩ (s.relabel fs) = (⟨dims', gen'⟩, s'.relabel fs, o) ∧
      Tidy dims dims' s' := by
  have t0 : Tidy dims dims' { s with cache := none } := ⟨hs.1, hs.2, hs.3, hs.4⟩
  have k : ∀ (sh : Shared F G) (s : Opt F M R), updateNext A W sh s =
      if s.nextX.isNone then (sh, { s with cache := none }, .ok ())
      else
        match Opt.copy A W sh { s with cache := none } s.rng with
        | (sh, .error e) => (sh, { s with cache := none }, .error e)
        | (sh, .ok o) =>
          match o.nextX with
          | none => (sh, { s with cache := none, rng := o.rng }, .error .attributeError)
          | some x => (sh, { s with cache := none, rng := o.rng, nextX := some x }, .ok ()) := by
    intro sh s
    obtain ⟨_, _, _, _, _, _, _, _, _, _, nx⟩ := s
    cases nx <;> rfl
  rw [k, k]
  rw [show (s.relabel fs).nextX.isNone = s.nextX.isNone by simp [Opt.relabel]]
  by_cases hx : s.nextX.isNone = true
  · exact ⟨gen, { s with cache := none }, .ok (), by rw [if_pos hx], by rw [if_pos hx]; rfl, t0⟩
  · obtain ⟨gen', o, h3, h4, h5⟩ := copy_relabel h hd hst hst' gen { s with cache := none } t0 s.rng
    rw [if_neg hx, if_neg hx, h3]
    rw [show Opt.copy A W ⟨dims', gen⟩ { s.relabel fs with cache := none } (s.relabel fs).rng
      = Opt.copy A W ⟨dims', gen⟩ (Opt.relabel fs { s with cache := none }) s.rng from rfl, h4]
    cases o with
    | error e => exact ⟨gen', _, .error e, rfl, rfl, t0⟩
    | ok c =>
      have tc := h5 c rfl
      simp only [Except.map_ok']
      rw [show (c.relabel fs).nextX = c.nextX.map (relabel fs) from rfl]
      cases hn : c.nextX with
      | none => exact ⟨gen', _, .error .attributeError, rfl, rfl, hs.1, hs.2, hs.3, hs.4⟩
      | some z =>
        refine ⟨gen', { s with cache := none, rng := c.rng, nextX := some z }, .ok (), rfl, rfl,
          hs.1, ?_, hs.3, hs.4⟩
        intro p hp
        simp only [Option.some.injEq] at hp
        exact tc.next p (hp ▸ hn)

theorem tell_relabel_one (h : Rescales A dims dims' fs) (hd : SameDraws W dims dims' fs)
    (s : Opt F M R) (hs : Tidy dims dims' s) {p : Point F} (hp : is2D p = false) (y : YArg F)
    (fit : Bool) :
    tell A W dims' (s.relabel fs) (.lst (relabel fs p)) y fit
        = ((tell A W dims s (.lst p) y fit).1.relabel fs,
           (tell A W dims s (.lst p) y fit).2.map (Result.relabel fs)) ∧
      Tidy dims dims' (tell A W dims s (.lst p) y fit).1 := by
  have hp' : is2D (relabel fs p) = false := by rw [← hp]; exact h.isSeq p
  unfold tell
  simp only [checkX, checkXInSpace_one h hp, checkY, takeLogs, hp, hp',
    show (s.relabel fs).cfg = s.cfg from rfl]
  cases hc : checkXInSpace dims p with
  | error e => exact ⟨rfl, hs⟩
  | ok u =>
    have hw := checkXInSpace_one_within hp hc
    simp only [ok_bind]
    generalize (_ >>= _ : Except PyErr (YArg F)) = z
    cases z with
    | error e => exact ⟨rfl, hs⟩
    | ok y' => exact tellCore_one h hd s hs hp hw y' fit

theorem tell_relabel_many (h : Rescales A dims dims' fs) (hd : SameDraws W dims dims' fs)
    (s : Opt F M R) (hs : Tidy dims dims' s) (ps : List (Point F)) (ys : List (YArg F))
    (fit : Bool) :
    tell A W dims' (s.relabel fs) (.lst ((ps.map (relabel fs)).map .seq)) (.seq ys) fit
        = ((tell A W dims s (.lst (ps.map .seq)) (.seq ys) fit).1.relabel fs,
           (tell A W dims s (.lst (ps.map .seq)) (.seq ys) fit).2.map (Result.relabel fs)) ∧
      Tidy dims dims' (tell A W dims s (.lst (ps.map .seq)) (.seq ys) fit).1 := by
  have h2 : ∀ qs : List (Point F), is2D (qs.map .seq) = true := by
    intro qs; simp [is2D, Val.isSeq]
  unfold tell
  simp only [checkX, checkXInSpace_many h, checkY, takeLogs, h2,
    show (s.relabel fs).cfg = s.cfg from rfl, YArg.isSeq, YArg.items, if_true]
  cases hc : checkXInSpace dims (ps.map .seq) with
  | error e => exact ⟨rfl, hs⟩
  | ok u =>
    have hw := checkXInSpace_many_within hc
    simp only [ok_bind]
    let fin (D : List (Dim F)) (t : Opt F M R) (xs : List (Val F)) (z : Except PyErr (YArg F)) :
        Opt F M R × Except PyErr (Result F M) :=
      match z with
      | .error e => (t, .error e)
      | .ok y => tellCore A W D t (.lst xs) y fit
    have key : ∀ z : Except PyErr (YArg F), (∀ y, z = .ok y → ∃ ys', y = .seq ys') →
        fin dims' (s.relabel fs) ((ps.map (relabel fs)).map .seq) z
        = ((fin dims s (ps.map .seq) z).1.relabel fs,
           (fin dims s (ps.map .seq) z).2.map (Result.relabel fs)) ∧
        Tidy dims dims' (fin dims s (ps.map .seq) z).1 := by
      intro z hz
      cases z with
      | error e => exact ⟨rfl, hs⟩
      | ok y =>
        obtain ⟨ys', rfl⟩ := hz y rfl
        exact tellCore_many h hd s hs hw ys' fit
    refine key _ ?_
    intro y hy
    rw [bind_eq_ok] at hy
    obtain ⟨_, _, hy⟩ := hy
    split at hy
    · rw [bind_eq_ok] at hy
      obtain ⟨ys', _, hy⟩ := hy
      simp only [Except.ok.injEq] at hy
      exact ⟨ys', hy.symm⟩
    · simp only [Except.ok.injEq] at hy
      exact ⟨ys, hy.symm⟩

/-! ### Sequences of calls -/

/-- The told points of a call are not made of lists only. -/
def Call.FlatPoint : Call F → Prop
  | .one p _ _ => Flat p
  | _ => True

omit [LinearOrder F] in
theorem flat_not_is2D {p : Point F} (h : Flat p) : is2D p = false := by
  obtain ⟨v, hv, hf⟩ := h
  unfold is2D
  rw [List.all_eq_false]
  exact ⟨v, hv, by simp [hf]⟩

theorem step_relabel (h : Rescales A dims dims' fs) (hd : SameDraws W dims dims' fs)
    (hf : FlatSpace dims)
    (hst : Space.setTransformers dims (Space.getTransformer dims) = .ok dims)
    (hst' : Space.setTransformers dims' (Space.getTransformer dims') = .ok dims')
    (gen : Option G) (s : Opt F M R) (hs : Tidy dims dims' s) (c : Call F) (hc : c.FlatPoint) :
    ∃ gen' s' o, step A W ⟨dims, gen⟩ s c.toOp = (⟨dims, gen'⟩, s', o) ∧
      step A W ⟨dims', gen⟩ (s.relabel fs) (c.relabel fs).toOp
        = (⟨dims', gen'⟩, s'.relabel fs, o.map (Out.relabel fs)) ∧
      Tidy dims dims' s' := by
  cases c with
  | one p y fit =>
    obtain ⟨e, t⟩ := tell_relabel_one h hd s hs (flat_not_is2D hc) y fit
    simp only [Call.toOp, Call.relabel, step]
    rw [e]
    generalize tell A W dims s (.lst p) y fit = q at t
    obtain ⟨s', r⟩ := q
    cases r with
    | error e => exact ⟨gen, s', .error e, rfl, rfl, t⟩
    | ok r => exact ⟨gen, s', .ok (.result r), rfl, rfl, t⟩
  | batch obs fit =>
    obtain ⟨e, t⟩ := tell_relabel_many h hd s hs (obs.map Prod.fst) (obs.map Prod.snd) fit
    have e1 : (obs.map Prod.fst).map Val.seq = obs.map fun o => .seq o.1 := by
      rw [List.map_map]; rfl
    have e2 : (((obs.map Prod.fst).map (relabel fs)).map Val.seq)
        = (obs.map fun o => (relabel fs o.1, o.2)).map fun o => .seq o.1 := by
      simp only [List.map_map]; rfl
    have e3 : obs.map Prod.snd = (obs.map fun o => (relabel fs o.1, o.2)).map Prod.snd := by
      simp only [List.map_map]; rfl
    simp only [Call.toOp, Call.relabel, step]
    rw [← e2, ← e3, e, ← e1]
    generalize tell A W dims s (.lst ((obs.map Prod.fst).map Val.seq)) (.seq (obs.map Prod.snd)) fit = q at t
    obtain ⟨s', r⟩ := q
    cases r with
    | error e => exact ⟨gen, s', .error e, rfl, rfl, t⟩
    | ok r => exact ⟨gen, s', .ok (.result r), rfl, rfl, t⟩
  | ask =>
    obtain ⟨e, t, _⟩ := askOne_relabel h hd s hs
    simp only [Call.toOp, Call.relabel, step]
    rw [e]
    generalize askOne A W dims s = q at t
    obtain ⟨s', r⟩ := q
    cases r with
    | error e => exact ⟨gen, s', .error e, rfl, rfl, t⟩
    | ok p => exact ⟨gen, s', .ok (.point p), rfl, rfl, t⟩
  | askMany n strat =>
    obtain ⟨gen', s', o, e1, e2, t⟩ := askMany_relabel h hd hf hst hst' gen s hs n strat
    simp only [Call.toOp, Call.relabel, step]
    rw [e1, e2]
    cases o with
    | error e => exact ⟨gen', s', .error e, rfl, rfl, t⟩
    | ok ps => exact ⟨gen', s', .ok (.points ps), rfl, rfl, t⟩
  | updateNext =>
    obtain ⟨gen', s', o, e1, e2, t⟩ := updateNext_relabel h hd hst hst' gen s hs
    simp only [Call.toOp, Call.relabel, step]
    rw [e1, e2]
    cases o with
    | error e => exact ⟨gen', s', .error e, rfl, rfl, t⟩
    | ok ps => exact ⟨gen', s', .ok .none, rfl, rfl, t⟩
  | getResult =>
    simp only [Call.toOp, Call.relabel, step, getResult]
    rw [show (s.relabel fs).Xi = s.Xi.map (relabelVal fs) from rfl,
      show (s.relabel fs).yi = s.yi from rfl, show (s.relabel fs).models = s.models from rfl,
      createResult_relabel]
    cases createResult s.Xi s.yi s.models with
    | error e => exact ⟨gen, s, .error e, rfl, rfl, hs⟩
    | ok r => exact ⟨gen, s, .ok (.result r), rfl, rfl, hs⟩

theorem runOps_relabel (h : Rescales A dims dims' fs) (hd : SameDraws W dims dims' fs)
    (hf : FlatSpace dims)
    (hst : Space.setTransformers dims (Space.getTransformer dims) = .ok dims)
    (hst' : Space.setTransformers dims' (Space.getTransformer dims') = .ok dims')
    (gen : Option G) (s : Opt F M R) (hs : Tidy dims dims' s) (cs : List (Call F))
    (hc : ∀ c ∈ cs, c.FlatPoint) :
    ∃ gen' s' os, runOps A W ⟨dims, gen⟩ s (cs.map Call.toOp) = (⟨dims, gen'⟩, s', os) ∧
      runOps A W ⟨dims', gen⟩ (s.relabel fs) ((cs.map (Call.relabel fs)).map Call.toOp)
        = (⟨dims', gen'⟩, s'.relabel fs, os.map (Except.map (Out.relabel fs))) ∧
      Tidy dims dims' s' := by
  induction cs generalizing gen s with
  | nil => exact ⟨gen, s, [], rfl, rfl, hs⟩
  | cons c cs ih =>
    obtain ⟨gen', s', o, e1, e2, t⟩ := step_relabel h hd hf hst hst' gen s hs c (hc c (by simp))
    obtain ⟨gen2, s2, os, e3, e4, t2⟩ := ih gen' s' t (fun c' hc' => hc c' (by simp [hc']))
    refine ⟨gen2, s2, o :: os, ?_, ?_, t2⟩
    · simp only [List.map_cons, runOps, e1, e3]
    · simp only [List.map_cons, runOps, e2, e4]

theorem run_relabel (h : Rescales A dims dims' fs) (hd : SameDraws W dims dims' fs)
    (hf : FlatSpace dims) (func func' : List (Point F) → Point F → Except PyErr (YArg F))
    (hfun : ∀ done p, func' (done.map (relabel fs)) (relabel fs p) = func done p)
    (n : Nat) (s : Opt F M R) (hs : Tidy dims dims' s) :
    ∃ xs s' r, Opt.run A W dims func n s = (xs, s', r) ∧
      Opt.run A W dims' func' n (s.relabel fs)
        = (xs.map (relabel fs), s'.relabel fs, r.map (Result.relabel fs)) ∧
      Tidy dims dims' s' := by
  induction n generalizing s func func' with
  | zero =>
    refine ⟨[], s, getResult s, rfl, ?_, hs⟩
    unfold Opt.run getResult
    rw [← createResult_relabel]
    rfl
  | succ n ih =>
    unfold Opt.run
    obtain ⟨e1, t1, w1⟩ := askOne_relabel h hd s hs
    rw [e1]
    generalize askOne A W dims s = q at t1 w1 ⊢
    obtain ⟨o, _ | x⟩ := q
    · exact ⟨[], o, _, rfl, rfl, t1⟩
    · simp only at t1 w1 ⊢
      have hxw := w1 x rfl
      rw [Except.map_ok']
      simp only
      have e0 := hfun [] x
      simp only [List.map_nil] at e0
      rw [e0]
      cases func [] x with
      | error e => exact ⟨[x], o, .error e, rfl, rfl, t1⟩
      | ok y =>
        simp only
        obtain ⟨e2, t2⟩ := tell_relabel_one h hd o t1 (hf x hxw) y true
        rw [e2]
        generalize tell A W dims o (.lst x) y true = q at t2 ⊢
        obtain ⟨o2, _ | r⟩ := q
        · exact ⟨[x], o2, _, rfl, rfl, t2⟩
        · simp only [Except.map_ok'] at t2 ⊢
          obtain ⟨xs, s', r', e3, e4, t3⟩ := ih (fun done => func (x :: done))
            (fun done => func' (relabel fs x :: done))
            (fun done p => by simpa using hfun (x :: done) p) o2 t2
          rw [e3, e4]
          exact ⟨x :: xs, s', r', rfl, rfl, t3⟩

/-! ### Minimisation -/

omit [LinearOrder F] in
theorem evalCallbacks_relabel (fs : List (Val F → Val F)) {cbs cbs' : List (Callback F M)}
    (hcb : List.Forall₂ (fun c c' => ∀ hist, c' (hist.map (Result.relabel fs)) = c hist) cbs cbs')
    (hist : List (Result F M)) (r : Result F M) (i : Nat) (stop : Bool) :
    evalCallbacks (hist.map (Result.relabel fs)) (r.relabel fs) cbs' i stop
      = ((evalCallbacks hist r cbs i stop).1.map (Event.relabel fs),
         (evalCallbacks hist r cbs i stop).2) := by
  induction hcb generalizing i stop with
  | nil => rfl
  | @cons c c' cs cs' h1 _ ih =>
    unfold evalCallbacks
    rw [h1 hist]
    cases c hist with
    | error e => rfl
    | ok d =>
      simp only
      rw [ih (i + 1) (stop || d.getD false)]
      rfl

theorem minimizeLoop_relabel (h : Rescales A dims dims' fs) (hd : SameDraws W dims dims' fs)
    (hf : FlatSpace dims) (func func' : Objective F)
    (hfun : ∀ done v, func' (done.map (relabelVal fs)) (relabelVal fs v) = func done v)
    {cbs cbs' : List (Callback F M)}
    (hcb : List.Forall₂ (fun c c' => ∀ hist, c' (hist.map (Result.relabel fs)) = c hist) cbs cbs')
    (n : Nat) (done : List (Val F)) (hist : List (Result F M)) (s : Opt F M R)
    (hs : Tidy dims dims' s) (last : Option (Result F M)) :
    minimizeLoop A W dims' func' cbs' n (done.map (relabelVal fs)) (hist.map (Result.relabel fs))
        (s.relabel fs) (last.map (Result.relabel fs))
      = ((minimizeLoop A W dims func cbs n done hist s last).1.map (Event.relabel fs),
         (minimizeLoop A W dims func cbs n done hist s last).2.map (Option.map (Result.relabel fs))) := by
  induction n generalizing done hist s last with
  | zero => rfl
  | succ n ih =>
    unfold minimizeLoop
    obtain ⟨e1, t1, w1⟩ := askOne_relabel h hd s hs
    rw [e1]
    generalize askOne A W dims s = q at t1 w1 ⊢
    obtain ⟨o, _ | x⟩ := q
    · rfl
    · simp only at t1 w1 ⊢
      have hxw := w1 x rfl
      rw [Except.map_ok']
      simp only
      rw [show (Val.seq (relabel fs x)) = relabelVal fs (.seq x) from rfl, hfun]
      cases func done (.seq x) with
      | error e => rfl
      | ok y =>
        simp only
        obtain ⟨e2, t2⟩ := tell_relabel_one h hd o t1 (hf x hxw) y true
        rw [e2]
        generalize tell A W dims o (.lst x) y true = q at t2 ⊢
        obtain ⟨o2, _ | r⟩ := q
        · rfl
        · simp only [Except.map_ok'] at t2 ⊢
          rw [show hist.map (Result.relabel fs) ++ [r.relabel fs]
            = (hist ++ [r]).map (Result.relabel fs) by simp, evalCallbacks_relabel fs hcb]
          generalize evalCallbacks (hist ++ [r]) r cbs 0 false = q
          obtain ⟨t, _ | b⟩ := q
          · rfl
          · cases b with
            | true => rfl
            | false =>
              simp only
              have := ih (done ++ [.seq x]) (hist ++ [r]) o2 t2 (some r)
              rw [List.map_append, List.map_singleton, Option.map_some] at this
              rw [this]
              generalize minimizeLoop A W dims func cbs n (done ++ [.seq x]) (hist ++ [r]) o2 (some r) = q
              obtain ⟨t', o'⟩ := q
              simp [Event.relabel]

omit [LinearOrder F] in
theorem evalAll_relabel (fs : List (Val F → Val F)) (func func' : Objective F)
    (hfun : ∀ done v, func' (done.map (relabelVal fs)) (relabelVal fs v) = func done v)
    (done xs : List (Val F)) :
    (evalAll func' (done.map (relabelVal fs)) (xs.map (relabelVal fs)) :
        List (Event F M) × Except PyErr (List (YArg F)))
      = ((evalAll func done xs : List (Event F M) × _).1.map (Event.relabel fs),
          (evalAll func done xs : List (Event F M) × _).2) := by
  induction xs generalizing done with
  | nil => rfl
  | cons x xs ih =>
    simp only [List.map_cons, evalAll, hfun]
    cases func done x with
    | error e => rfl
    | ok y =>
      simp only
      have := ih (done ++ [x])
      rw [List.map_append, List.map_singleton] at this
      rw [this]
      rfl

omit [LinearOrder F] in
theorem startValues_relabel (fs : List (Val F → Val F)) (func func' : Objective F)
    (hfun : ∀ done v, func' (done.map (relabelVal fs)) (relabelVal fs v) = func done v)
    (xs : List (Val F)) (y0 : Y0 F) :
    (startValues func' (xs.map (relabelVal fs)) y0 :
        List (Event F M) × Except PyErr (List (YArg F)))
      = ((startValues func xs y0 : List (Event F M) × _).1.map (Event.relabel fs),
          (startValues func xs y0 : List (Event F M) × _).2) := by
  unfold startValues
  cases y0.values with
  | none => exact evalAll_relabel fs func func' hfun [] xs
  | some o => cases o with
    | none => rfl
    | some ys => simp

theorem minimizeBody_relabel (h : Rescales A dims dims' fs) (hd : SameDraws W dims dims' fs)
    (hf : FlatSpace dims) (func func' : Objective F)
    (hfun : ∀ done v, func' (done.map (relabelVal fs)) (relabelVal fs v) = func done v)
    {cbs cbs' : List (Callback F M)}
    (hcb : List.Forall₂ (fun c c' => ∀ hist, c' (hist.map (Result.relabel fs)) = c hist) cbs cbs')
    (nCalls : ℤ) (ps : List (Point F)) (y0 : Y0 F) (s : Opt F M R) (hs : Tidy dims dims' s) :
    minimizeBody A W dims' func' cbs' nCalls ((ps.map (relabel fs)).map .seq) y0 (s.relabel fs)
      = ((minimizeBody A W dims func cbs nCalls (ps.map .seq) y0 s).1.map (Event.relabel fs),
         (minimizeBody A W dims func cbs nCalls (ps.map .seq) y0 s).2.map
           (Option.map (Result.relabel fs))) := by
  have hps : (ps.map (relabel fs)).map Val.seq = (ps.map Val.seq).map (relabelVal fs) := by
    simp only [List.map_map]; rfl
  have hev : evaluatedFirst ((ps.map Val.seq).map (relabelVal fs)) y0
      = (evaluatedFirst (ps.map Val.seq) y0).map (relabelVal fs) := by
    unfold evaluatedFirst
    cases y0.values <;> rfl
  have hevl : (evaluatedFirst ((ps.map Val.seq).map (relabelVal fs)) y0).length
      = (evaluatedFirst (ps.map Val.seq) y0).length := by rw [hev, List.length_map]
  unfold minimizeBody
  rw [show ((ps.map (relabel fs)).map Val.seq).isEmpty = (ps.map Val.seq).isEmpty by simp]
  by_cases he : (ps.map (Val.seq (F := F))).isEmpty = true
  · rw [if_pos he, if_pos he]
    exact minimizeLoop_relabel h hd hf func func' hfun hcb nCalls.toNat [] [] s hs none
  · rw [if_neg he, if_neg he]
    have e0 := startValues_relabel (M := M) fs func func' hfun (ps.map Val.seq) y0
    rw [hps, e0]
    generalize (startValues func (ps.map Val.seq) y0 : List (Event F M) × _) = q
    obtain ⟨t, _ | ys⟩ := q
    · rfl
    · simp only
      obtain ⟨e2, t2⟩ := tell_relabel_many h hd s hs ps ys true
      rw [hps] at e2
      rw [e2]
      generalize tell A W dims s (.lst (ps.map .seq)) (.seq ys) true = q at t2 ⊢
      obtain ⟨o2, _ | r⟩ := q
      · rfl
      · simp only [Except.map_ok'] at t2 ⊢
        rw [show [r.relabel fs] = [r].map (Result.relabel fs) from rfl, evalCallbacks_relabel fs hcb]
        generalize evalCallbacks [r] r cbs 0 false = q
        obtain ⟨t', _ | b⟩ := q
        · simp [Except.map]
        · cases b with
          | true => simp [Except.map]
          | false =>
            simp only
            have := minimizeLoop_relabel h hd hf func func' hfun hcb
              (nCalls - (evaluatedFirst (ps.map Val.seq) y0).length).toNat
              (evaluatedFirst (ps.map Val.seq) y0) [r] o2 t2 (some r)
            rw [hevl, hev]
            rw [Option.map_some] at this
            rw [this]
            simp

theorem mkConfig_isGP {a : Args} {cfg : Config} (h : mkConfig a = .ok cfg) : cfg.isGP = a.est.isGP := by
  unfold mkConfig at h
  split at h
  · cases h
  · simp only at h
    repeat' split at h
    all_goals cases h
    rfl

omit [LinearOrder F] in
theorem SameStarts.points_eq {fs : List (Val F → Val F)} {X X' : X0 F} (h : SameStarts fs X X') :
    (∃ e, X.points = .error e ∧ X'.points = .error e) ∨
      ∃ ps : List (Point F), X.points = .ok (ps.map .seq) ∧
        X'.points = .ok ((ps.map (relabel fs)).map .seq) := by
  cases h with
  | none => exact .inr ⟨[], rfl, rfl⟩
  | points ps => cases ps with
    | nil => exact .inl ⟨_, rfl, rfl⟩
    | cons p ps => exact .inr ⟨p :: ps, rfl, rfl⟩

/-- A whole run. -/
theorem baseMinimize_relabel (h : Rescales A dims dims' fs) (hd : SameDraws W dims dims' fs)
    (hf : FlatSpace dims)
    (hst : Space.setTransformers dims (Space.getTransformer dims) = .ok dims)
    (hst' : Space.setTransformers dims' (Space.getTransformer dims') = .ok dims')
    (gen : Option G) {D D' : List (Dim F)} (m : MinArgs F M)
    (e1 : (if m.opt.est.isGP then Space.setTransformer D .normalize else .ok D) = .ok dims)
    (e2 : (if m.opt.est.isGP then Space.setTransformer D' .normalize else .ok D') = .ok dims')
    (hgp : m.opt.est.isGP = true → Space.setTransformer dims .normalize = .ok dims ∧
      Space.setTransformer dims' .normalize = .ok dims')
    (func func' : Objective F)
    (hfun : ∀ done v, func' (done.map (relabelVal fs)) (relabelVal fs v) = func done v)
    {cbs cbs' : List (Callback F M)}
    (hcb : List.Forall₂ (fun c c' => ∀ hist, c' (hist.map (Result.relabel fs)) = c hist) cbs cbs')
    {X X' : X0 F} (hX : SameStarts fs X X') (rng : R) :
    (baseMinimize A W ⟨D', gen⟩ func' { m with x0 := X', callback := .list cbs' } rng).trace
        = (baseMinimize A W ⟨D, gen⟩ func { m with x0 := X, callback := .list cbs } rng).trace.map
            (Event.relabel fs) ∧
      (baseMinimize A W ⟨D', gen⟩ func' { m with x0 := X', callback := .list cbs' } rng).result
        = (baseMinimize A W ⟨D, gen⟩ func { m with x0 := X, callback := .list cbs } rng).result.map
            (Option.map (Result.relabel fs)) := by
  rcases hX.points_eq with ⟨e, h1, h2⟩ | ⟨ps, h1, h2⟩
  · have p1 : ({ m with x0 := X, callback := .list cbs } : MinArgs F M).prepare = .error e := by
      unfold MinArgs.prepare; simp only [h1]; rfl
    have p2 : ({ m with x0 := X', callback := .list cbs' } : MinArgs F M).prepare = .error e := by
      unfold MinArgs.prepare; simp only [h2]; rfl
    unfold baseMinimize
    rw [p1, p2]
    exact ⟨rfl, rfl⟩
  · have hp : (∃ e, ({ m with x0 := X, callback := .list cbs } : MinArgs F M).prepare = .error e ∧
        ({ m with x0 := X', callback := .list cbs' } : MinArgs F M).prepare = .error e) ∨
        ∃ n, ({ m with x0 := X, callback := .list cbs } : MinArgs F M).prepare
            = .ok (ps.map .seq, n) ∧
          ({ m with x0 := X', callback := .list cbs' } : MinArgs F M).prepare
            = .ok ((ps.map (relabel fs)).map .seq, n) := by
      unfold MinArgs.prepare
      simp only [h1, h2, ok_bind, List.isEmpty_map, List.length_map]
      split_ifs <;> first | exact .inl ⟨_, rfl, rfl⟩ | exact .inr ⟨_, rfl, rfl⟩
    rcases hp with ⟨e, p1, p2⟩ | ⟨n, p1, p2⟩
    · unfold baseMinimize
      rw [p1, p2]
      exact ⟨rfl, rfl⟩
    · unfold baseMinimize
      rw [p1, p2]
      simp only
      rw [show ({ m with x0 := X, callback := .list cbs } : MinArgs F M).optArgs n = m.optArgs n from rfl,
        show ({ m with x0 := X', callback := .list cbs' } : MinArgs F M).optArgs n = m.optArgs n from rfl]
      cases hc : mkConfig (m.optArgs n) with
      | error e => exact ⟨rfl, rfl⟩
      | ok cfg =>
        simp only
        have hg : cfg.isGP = m.opt.est.isGP := (mkConfig_isGP hc).trans rfl
        rw [← hg] at e1 e2 hgp
        obtain ⟨gen', o, i1, i2, i3⟩ := init_relabel (A := A) (M := M) hd hst hst' gen cfg rng e1 e2 hgp
        rw [i1, i2]
        cases o with
        | error e => exact ⟨rfl, rfl⟩
        | ok s =>
          obtain ⟨t, -, -⟩ := i3 s rfl
          rw [Except.map_ok']
          simp only
          have hcs : checkStarts dims'.length ((ps.map (relabel fs)).map Val.seq)
              = checkStarts dims.length (ps.map Val.seq) := by
            unfold checkStarts
            rw [h.length_eq]
            simp [Val.len?, relabel_length, List.all_map, Function.comp_def]
          rw [hcs]
          cases checkStarts dims.length (ps.map (Val.seq (F := F))) with
          | error e => exact ⟨rfl, rfl⟩
          | ok _ =>
            simp only [checkCallback]
            have hv : List.Forall₂ (fun c c' => ∀ hist, c' (hist.map (Result.relabel fs)) = c hist)
                (if m.verbose then cbs ++ [verboseCallback] else cbs)
                (if m.verbose then cbs' ++ [verboseCallback] else cbs') := by
              split_ifs
              · exact List.rel_append hcb (.cons (fun _ => rfl) .nil)
              · exact hcb
            rw [minimizeBody_relabel h hd hf func func' hfun hv m.nCalls ps m.y0 s t]
            exact ⟨rfl, rfl⟩

end State

end Skopt

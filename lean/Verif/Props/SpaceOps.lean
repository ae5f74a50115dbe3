import Verif.Model.SpaceOps
import Verif.Lemmas.Basic
import Verif.Model.Exact

/-!
# C89: `set_transformer` sets what it is told, and C90: `Space.from_yaml` builds the described space
-/

namespace Skopt

variable {F : Type}

/-! ## Specification -/

/-- The name the documentation gives to a transformation. -/
def TKind.docName : TKind → String
  | .identity => "identity"
  | .normalize => "normalize"
  | .onehot => "onehot"
  | .string => "string"
  | .label => "label"

/-- The names documented for this kind of dimension. -/
def Installable (d : Dim F) (s : String) : Prop :=
  match d with
  | .cat _ => s ∈ ["identity", "normalize", "onehot", "string", "label"]
  | _ => s ∈ ["identity", "normalize"]

/-- The object encodes points the way it says it does. -/
def Honest (o : DimObj F) : Prop := Installable o.dim o.label ∧ o.dim.tkind.docName = o.label

/-- `o'` is the dimension `o`, encoding points with the transformation named `s`. -/
def EncodesWith (o : DimObj F) (s : String) (o' : DimObj F) : Prop :=
  Honest o' ∧ o'.label = s ∧ ∀ t, o'.dim.install t = o.dim.install t

/-! ## Lemmas -/

theorem kindOfName_eq {d : Dim F} {s : String} {t : TKind} :
    d.kindOfName s = some t ↔ Installable d s ∧ t.docName = s := by
  cases d <;> simp only [Dim.kindOfName, Installable, List.mem_cons, List.not_mem_nil, or_false]
  all_goals
    constructor
    · intro h
      repeat' split at h
      all_goals (first | (simp at h; done) | (obtain rfl := Option.some.inj h; simp_all [TKind.docName]))
    · rintro ⟨h, rfl⟩
      cases t <;> simp [TKind.docName] at h ⊢

theorem kindOfName_none {d : Dim F} {s : String} : d.kindOfName s = none ↔ ¬ Installable d s := by
  cases d <;> simp only [Dim.kindOfName, Installable, List.mem_cons, List.not_mem_nil, or_false]
  all_goals
    constructor
    · intro h
      repeat' split at h
      all_goals simp_all
    · intro h
      simp_all

theorem tkind_install (d : Dim F) (t : TKind) : (d.install t).tkind = t := by cases d <;> rfl

theorem install_install (d : Dim F) (s t : TKind) : (d.install s).install t = d.install t := by
  cases d <;> rfl

theorem install_tkind (d : Dim F) : d.install d.tkind = d := by cases d <;> rfl

theorem documented_install (d : Dim F) (t : TKind) (s : String) :
    Installable (d.install t) s ↔ Installable d s := by cases d <;> rfl

/-- One dimension: it succeeds exactly for the documented names. -/
theorem DimObj.setTransformer_spec (o : DimObj F) (s : String) :
    (Installable o.dim s → (o.setTransformer s).2 = none ∧
      EncodesWith o s (o.setTransformer s).1) ∧
    (¬ Installable o.dim s → (o.setTransformer s).2 = some .valueError) := by
  constructor
  · intro h
    cases hk : o.dim.kindOfName s with
    | none => exact absurd h (kindOfName_none.1 hk)
    | some t =>
      obtain ⟨_, ht⟩ := kindOfName_eq.1 hk
      have e : o.setTransformer s = ({ dim := o.dim.install t, label := s }, none) := by
        simp only [DimObj.setTransformer, hk]
      rw [e]
      refine ⟨rfl, ⟨(documented_install _ _ _).2 h, ?_⟩, rfl, fun t' => install_install _ _ _⟩
      show (o.dim.install t).tkind.docName = s
      rw [tkind_install, ht]
  · intro h
    have hk := kindOfName_none.2 h
    simp only [DimObj.setTransformer, hk]

/-- Setting an honest object back to its own label restores it. -/
theorem encodesWith_unique {o a b : DimObj F} {s : String} (ha : EncodesWith o s a)
    (hb : EncodesWith o s b) : a = b := by
  obtain ⟨⟨_, a1⟩, a2, a3⟩ := ha
  obtain ⟨⟨_, b1⟩, b2, b3⟩ := hb
  have hk : a.dim.tkind = b.dim.tkind := by
    have : a.dim.tkind.docName = b.dim.tkind.docName := by rw [a1, b1, a2, b2]
    revert this
    cases a.dim.tkind <;> cases b.dim.tkind <;> simp [TKind.docName]
  have hd : a.dim = b.dim := by
    rw [← install_tkind a.dim, ← install_tkind b.dim, hk, a3, b3]
  cases a; cases b
  simp only at hd a2 b2
  rw [hd, a2, b2]

theorem encodesWith_self {o : DimObj F} (h : Honest o) : EncodesWith o o.label o :=
  ⟨h, rfl, fun _ => rfl⟩

theorem EncodesWith.back {o o' : DimObj F} {s : String} (h : EncodesWith o s o') (ho : Honest o) :
    EncodesWith o' o.label o := ⟨ho, rfl, fun t => (h.2.2 t).symm⟩

theorem EncodesWith.documented {o o' : DimObj F} {s u : String} (h : EncodesWith o s o') :
    Installable o'.dim u ↔ Installable o.dim u := by
  rw [← documented_install o'.dim .identity, h.2.2, documented_install]

theorem setEach_ok (os : List (DimObj F)) (ss : List String) :
    (SpaceObj.setEach os ss).2 = none ↔
      os.length ≤ ss.length ∧ ∀ p ∈ os.zip ss, Installable p.1.dim p.2 := by
  induction os generalizing ss with
  | nil => simp [SpaceObj.setEach]
  | cons o os ih =>
    cases ss with
    | nil => simp [SpaceObj.setEach]
    | cons s ss =>
      obtain ⟨h1, h2⟩ := o.setTransformer_spec s
      by_cases hd : Installable o.dim s
      · obtain ⟨e, _⟩ := h1 hd
        have : (SpaceObj.setEach (o :: os) (s :: ss)).2 = (SpaceObj.setEach os ss).2 := by
          rw [SpaceObj.setEach]
          split
          · next h => rw [h] at e; exact absurd e (by simp)
          · rfl
        rw [this, ih]
        simp [hd]
      · have : (SpaceObj.setEach (o :: os) (s :: ss)).2 = some .valueError := by
          have e := h2 hd
          rw [SpaceObj.setEach]
          split
          · next h => rw [h] at e; exact e
          · next h => rw [h] at e; exact absurd e (by simp)
        rw [this]
        simp [hd]

theorem setEach_result {os : List (DimObj F)} {ss : List String}
    (h : (SpaceObj.setEach os ss).2 = none) :
    List.Forall₂ (fun p o' => EncodesWith p.1 p.2 o') (os.zip ss) (SpaceObj.setEach os ss).1 := by
  induction os generalizing ss with
  | nil => simp [SpaceObj.setEach]
  | cons o os ih =>
    cases ss with
    | nil => simp [SpaceObj.setEach] at h
    | cons s ss =>
      obtain ⟨hl, hd⟩ := (setEach_ok _ _).1 h
      have hs := hd (o, s) (by simp)
      obtain ⟨e, he⟩ := (o.setTransformer_spec s).1 hs
      rw [SpaceObj.setEach] at h ⊢
      split at h
      · next h' => rw [h'] at e; exact absurd e (by simp)
      · next h' =>
        rw [h'] at he
        rw [List.zip_cons_cons]
        exact .cons he (ih h)

theorem setWhere_ok (p : Dim F → Bool) (s : String) (os : List (DimObj F)) :
    ((SpaceObj.setWhere p s os).2 = none ↔ ∀ o ∈ os, p o.dim = true → Installable o.dim s) ∧
    ((SpaceObj.setWhere p s os).2 = none → List.Forall₂ (fun o o' =>
      if p o.dim then EncodesWith o s o' else o' = o) os (SpaceObj.setWhere p s os).1) := by
  induction os with
  | nil => simp [SpaceObj.setWhere]
  | cons o os ih =>
    obtain ⟨ih1, ih2⟩ := ih
    by_cases hp : p o.dim = true
    · obtain ⟨h1, h2⟩ := o.setTransformer_spec s
      by_cases hd : Installable o.dim s
      · obtain ⟨e, he⟩ := h1 hd
        have : SpaceObj.setWhere p s (o :: os) =
            ((o.setTransformer s).1 :: (SpaceObj.setWhere p s os).1,
              (SpaceObj.setWhere p s os).2) := by
          rw [SpaceObj.setWhere, if_pos hp]
          split
          · next h => rw [h] at e; exact absurd e (by simp)
          · next h => rw [h]
        rw [this]
        refine ⟨?_, fun h => .cons (by rw [if_pos hp]; exact he) (ih2 h)⟩
        rw [ih1]
        simp [hd, hp]
      · have e := h2 hd
        have : (SpaceObj.setWhere p s (o :: os)).2 = some .valueError := by
          rw [SpaceObj.setWhere, if_pos hp]
          split
          · next h => rw [h] at e; exact e
          · next h => rw [h] at e; exact absurd e (by simp)
        rw [this]
        simp [hd, hp]
    · have : SpaceObj.setWhere p s (o :: os) =
          (o :: (SpaceObj.setWhere p s os).1, (SpaceObj.setWhere p s os).2) := by
        rw [SpaceObj.setWhere, if_neg hp]
      rw [this]
      refine ⟨?_, fun h => .cons (by rw [if_neg hp]) (ih2 h)⟩
      rw [ih1]
      simp [hp]

theorem forall₂_zip_labels {os os' : List (DimObj F)} {ss : List String}
    (hl : os.length ≤ ss.length)
    (h : List.Forall₂ (fun p o' => EncodesWith p.1 p.2 o') (os.zip ss) os') :
    SpaceObj.getTransformer os' = ss.take os.length := by
  induction os generalizing ss os' with
  | nil => simp at h; subst h; simp [SpaceObj.getTransformer]
  | cons o os ih =>
    cases ss with
    | nil => simp at hl
    | cons s ss =>
      rw [List.zip_cons_cons] at h
      cases h with
      | cons h1 h2 =>
        simp only [SpaceObj.getTransformer, List.map_cons, List.length_cons, List.take_succ_cons]
        rw [h1.2.1, ← ih (by simpa using hl) h2]
        rfl

theorem setEach_back {os os' : List (DimObj F)} {ss : List String} (hh : ∀ o ∈ os, Honest o)
    (hl : os.length ≤ ss.length)
    (h : List.Forall₂ (fun p o' => EncodesWith p.1 p.2 o') (os.zip ss) os') :
    SpaceObj.setEach os' (SpaceObj.getTransformer os) = (os, none) := by
  induction os generalizing ss os' with
  | nil => simp at h; subst h; simp [SpaceObj.setEach]
  | cons o os ih =>
    cases ss with
    | nil => simp at hl
    | cons s ss =>
      rw [List.zip_cons_cons] at h
      cases h with
      | @cons _ o' _ os' h1 h2 =>
        have ho := hh o (by simp)
        obtain ⟨e, he⟩ := (o'.setTransformer_spec o.label).1 (h1.documented.2 ho.1)
        have hr := ih (fun x hx => hh x (by simp [hx])) (by simpa using hl) h2
        have hoo := encodesWith_unique he (h1.back ho)
        show SpaceObj.setEach (o' :: os') (o.label :: SpaceObj.getTransformer os) = _
        rw [SpaceObj.setEach]
        split
        · next h => rw [h] at e; exact absurd e (by simp)
        · next h => rw [h] at hoo; rw [hr]; exact congrArg (fun x => (x :: os, none)) hoo

/-- A single name behaves like that name repeated. -/
theorem setWhere_true (s : String) (os : List (DimObj F)) :
    SpaceObj.setWhere (fun _ => true) s os = SpaceObj.setEach os (List.replicate os.length s) := by
  induction os with
  | nil => rfl
  | cons o os ih =>
    rw [List.length_cons, List.replicate_succ, SpaceObj.setWhere, SpaceObj.setEach, ih]
    simp

/-! ## C89 -/

/-- The names `Space.set_transformer` gives to the `n` dimensions. -/
def TransformArg.names (n : Nat) : TransformArg → List String
  | .one s => List.replicate n s
  | .each ss => ss

/-- C89 (the part that holds).  `set_transformer` raises exactly when a name is missing or is not
documented for its dimension.  When it returns, `get_transformer` gives back the names, every
dimension encodes with the transformation it was told (and is otherwise unchanged), and setting the
old names restores the space.  `set_transformer_by_type` does this to the dimensions of the type and
leaves the others alone.

Missing: when it raises, the space should be as before — see `C89_refuted_failed_change`. -/
theorem C89_set_transformer_partial (os : List (DimObj F)) (hh : ∀ o ∈ os, Honest o)
    (arg : TransformArg) (s : String) (p : Dim F → Bool) :
    ((SpaceObj.setTransformer os arg).2 = none ↔
      os.length ≤ (arg.names os.length).length ∧
        ∀ q ∈ os.zip (arg.names os.length), Installable q.1.dim q.2) ∧
    ((SpaceObj.setTransformer os arg).2 = none →
      SpaceObj.getTransformer (SpaceObj.setTransformer os arg).1 =
        (arg.names os.length).take os.length ∧
      List.Forall₂ (fun q o' => EncodesWith q.1 q.2 o') (os.zip (arg.names os.length))
        (SpaceObj.setTransformer os arg).1 ∧
      SpaceObj.setTransformer (SpaceObj.setTransformer os arg).1
        (.each (SpaceObj.getTransformer os)) = (os, none)) ∧
    ((SpaceObj.setTransformerByType os s p).2 = none ↔
      ∀ o ∈ os, p o.dim = true → Installable o.dim s) ∧
    ((SpaceObj.setTransformerByType os s p).2 = none → List.Forall₂ (fun o o' =>
      if p o.dim then EncodesWith o s o' else o' = o) os
        (SpaceObj.setTransformerByType os s p).1) := by
  have e : SpaceObj.setTransformer os arg = SpaceObj.setEach os (arg.names os.length) := by
    cases arg with
    | one s => exact setWhere_true s os
    | each ss => rfl
  rw [e]
  refine ⟨setEach_ok _ _, fun h => ?_, (setWhere_ok p s os).1, (setWhere_ok p s os).2⟩
  have hl := ((setEach_ok _ _).1 h).1
  have hr := setEach_result h
  exact ⟨forall₂_zip_labels hl hr, hr, setEach_back hh hl hr⟩

/-- `Space([Categorical(['a','b','c']), Real(0, 10, transform='normalize')])` as objects. -/
def mixedObjs : List (DimObj ℚ) :=
  [⟨.cat ⟨[.str "a", .str "b", .str "c"], none, .onehot, none, fun _ => "", fun s => .ok (.str s)⟩,
    "onehot"⟩,
   ⟨.real ⟨0, 10, .uniform, 10, .normalize, none, id⟩, "normalize"⟩]

/-- Meets the hypotheses of `C89_set_transformer_partial`. -/
example : (∀ o ∈ mixedObjs, Honest o) ∧
    (SpaceObj.setTransformer mixedObjs (.each ["label", "identity"])).2 = none ∧
    SpaceObj.getTransformer (SpaceObj.setTransformer mixedObjs (.each ["label", "identity"])).1 =
      ["label", "identity"] ∧
    SpaceObj.transform ratArith
      (SpaceObj.setTransformer mixedObjs (.each ["label", "identity"])).1 [[.str "c", .num 5]] =
      .ok [[.num 2, .num 5]] ∧
    SpaceObj.transform ratArith mixedObjs [[.str "c", .num 5]] =
      .ok [[.num 0, .num 0, .num 1, .num (1 / 2)]] := by
  refine ⟨?_, by decide +kernel, by decide +kernel, by decide +kernel, by decide +kernel⟩
  intro o ho
  simp only [mixedObjs, List.mem_cons, List.not_mem_nil, or_false] at ho
  rcases ho with rfl | rfl <;> simp [Honest, Installable, Dim.tkind, TKind.docName]

/-- C89 is false when the call is refused: `Space.set_transformer('label')` on a space with a
`Categorical` and a normalized `Real(0, 10)` raises `ValueError`, but the categorical dimension has
been switched to label encoding and the real dimension now reports the transform `'label'`.  Its
`transformed_bounds` is then (0, 10) although points are still encoded into [0, 1] (10 ↦ 1), and the
list returned by `get_transformer` is refused by `set_transformer`, so that every later call of an
initial point generator on this space, which saves and restores the transforms this way, raises. -/
theorem C89_refuted_failed_change :
    (∀ o ∈ mixedObjs, Honest o) ∧
    (SpaceObj.setTransformer mixedObjs (.one "label")).2 = some .valueError ∧
    SpaceObj.getTransformer mixedObjs = ["onehot", "normalize"] ∧
    SpaceObj.getTransformer (SpaceObj.setTransformer mixedObjs (.one "label")).1 =
      ["label", "label"] ∧
    SpaceObj.transform ratArith (SpaceObj.setTransformer mixedObjs (.one "label")).1
      [[.str "c", .num 10]] = .ok [[.num 2, .num 1]] ∧
    SpaceObj.transformedBounds ratArith (SpaceObj.setTransformer mixedObjs (.one "label")).1 =
      [(0, 1), (0, 10)] ∧
    (SpaceObj.setTransformer (SpaceObj.setTransformer mixedObjs (.one "label")).1
      (.each (SpaceObj.getTransformer
        (SpaceObj.setTransformer mixedObjs (.one "label")).1))).2 = some .valueError := by
  refine ⟨?_, by decide +kernel, by decide +kernel, by decide +kernel, by decide +kernel,
    by decide +kernel, by decide +kernel⟩
  intro o ho
  simp only [mixedObjs, List.mem_cons, List.not_mem_nil, or_false] at ho
  rcases ho with rfl | rfl <;> simp [Honest, Installable, Dim.tkind, TKind.docName]

/-! ## C90 -/

/-- The class a configuration file names, in any mixture of capitals. -/
def Names (s : String) (k : DimKind) : Prop :=
  s.toLower = match k with
    | .real => "real"
    | .integer => "integer"
    | .categorical => "categorical"

/-- The section of the file to use: the named one, otherwise the first one; a file that is a plain
list is the section itself. -/
def Section (config : Yaml F) (ns : Option String) (entries : List (Yaml F)) : Prop :=
  config = .seq entries ∨
  (∃ kvs, config = .map kvs ∧ ns = none ∧ (kvs.head?.map Prod.snd) = some (.seq entries)) ∨
  (∃ kvs n, config = .map kvs ∧ ns = some n ∧
    ∃ pre post, kvs = pre ++ (n, Yaml.seq entries) :: post ∧ ∀ q ∈ pre, q.1 ≠ n)

/-- An entry `- Class: {key: value, …}`. -/
def entry (e : String × List (String × Yaml F)) : Yaml F := .map [(e.1, .map e.2)]

theorem names_iff {s : String} {k : DimKind} : dimClassOf s = some k ↔ Names s k := by
  unfold dimClassOf Names
  constructor
  · intro h
    repeat' split at h
    all_goals (first | (simp at h; done) | (obtain rfl := Option.some.inj h; assumption))
  · intro h
    cases k <;> simp_all

theorem yamlGet_append {n : String} {v : Yaml F} {pre post : List (String × Yaml F)}
    (h : ∀ q ∈ pre, q.1 ≠ n) : yamlGet n (pre ++ (n, v) :: post) = .ok v := by
  induction pre with
  | nil => simp [yamlGet]
  | cons q qs ih =>
    obtain ⟨k, w⟩ := q
    have hk : k ≠ n := h (k, w) (by simp)
    simp only [List.cons_append, yamlGet, if_neg hk]
    exact ih fun x hx => h x (by simp [hx])

theorem yamlOptions_section {config : Yaml F} {ns : Option String} {entries : List (Yaml F)}
    (h : Section config ns entries) : yamlOptions ns config = .ok (.seq entries) := by
  rcases h with rfl | ⟨kvs, rfl, rfl, h⟩ | ⟨kvs, n, rfl, rfl, pre, post, rfl, h⟩
  · rfl
  · cases kvs with
    | nil => simp at h
    | cons q qs =>
      simp only [List.head?_cons, Option.map_some, Option.some.injEq] at h
      simp only [yamlOptions]
      rw [h]
  · exact yamlGet_append h

/-- C90 (the part that holds).  When every entry of the section is of the form
`- Class: {key: value, …}` with `Class` one of Real, Integer, Categorical (any capitalisation),
`from_yaml` returns a space with exactly one dimension per entry, in the order of the file, each made
by calling that class with the entry's values under their lower-cased names; it raises exactly when
one of these constructions does.

Missing: entries naming any other class should be refused — see `C90_refuted_unknown_class`. -/
theorem C90_from_yaml_partial (build : DimKind → List (String × Yaml F) → Except PyErr (Dim F))
    (config : Yaml F) (ns : Option String) (es : List (String × List (String × Yaml F)))
    (hsec : Section config ns (es.map entry)) (hk : ∀ e ∈ es, ∃ k, Names e.1 k)
    (dims : List (Dim F)) :
    fromYaml build config ns = .ok dims ↔
      List.Forall₂ (fun e d => ∃ k, Names e.1 k ∧
        build k (dictOf (e.2.map fun q => (q.1.toLower, q.2))) = .ok d) es dims := by
  have key : ∀ ds : List (Option (Dim F)),
      mapE (yamlEntry build) (es.map entry) = .ok ds ↔
      ∃ dims, ds = dims.map some ∧ List.Forall₂ (fun e d => ∃ k, Names e.1 k ∧
        build k (dictOf (e.2.map fun q => (q.1.toLower, q.2))) = .ok d) es dims := by
    intro ds
    rw [mapE_eq_ok, List.forall₂_map_left_iff]
    constructor
    · intro h
      clear hsec
      induction h with
      | nil => exact ⟨[], rfl, .nil⟩
      | @cons e o es ds h1 _ ih =>
        obtain ⟨dims, rfl, h2⟩ := ih fun x hx => hk x (by simp [hx])
        obtain ⟨k, hn⟩ := hk e (by simp)
        simp only [entry, yamlEntry, names_iff.2 hn, bind_eq_ok, Except.ok.injEq] at h1
        obtain ⟨d, h1, rfl⟩ := h1
        exact ⟨d :: dims, rfl, .cons ⟨k, hn, h1⟩ h2⟩
    · rintro ⟨dims, rfl, h⟩
      rw [List.forall₂_map_right_iff]
      refine h.imp ?_
      rintro e d ⟨k, hn, h⟩
      simp only [entry, yamlEntry, names_iff.2 hn, bind_eq_ok, Except.ok.injEq]
      exact ⟨d, h, rfl⟩
  simp only [fromYaml, yamlOptions_section hsec, ok_bind, yamlItems, bind_eq_ok, Except.ok.injEq]
  constructor
  · rintro ⟨ds, h1, h2⟩
    obtain ⟨dims', rfl, h⟩ := (key ds).1 h1
    rw [List.filterMap_map] at h2
    have : dims' = dims := by simpa using h2
    rwa [this] at h
  · intro h
    refine ⟨dims.map some, (key _).2 ⟨dims, rfl, h⟩, ?_⟩
    rw [List.filterMap_map]
    simp

/-- A constructor for the example: the `low`/`high` arguments of a `Real` or `Integer`. -/
def demoBuild (k : DimKind) (kvs : List (String × Yaml ℚ)) : Except PyErr (Dim ℚ) :=
  match k, dictGet kvs "low", dictGet kvs "high" with
  | .real, .ok (.num a), .ok (.num b) => mkReal a b .uniform 10 none none id
  | .integer, .ok (.num a), .ok (.num b) => mkInt a b .uniform 10 none none id
  | _, _, _ => .error .typeError

/-- Two entries of a file. -/
def demoEntries : List (String × List (String × Yaml ℚ)) :=
  [("Real", [("LOW", .num 0), ("high", .num 1)]), ("INTEGER", [("low", .num (-5)), ("High", .num 5)])]

/-- Meets the hypotheses of `C90_from_yaml_partial`. -/
example : Section (.map [("Space", .seq (demoEntries.map entry))]) none (demoEntries.map entry) ∧
    (∀ e ∈ demoEntries, ∃ k, Names e.1 k) ∧
    (fromYaml demoBuild (.map [("Space", .seq (demoEntries.map entry))]) none).toOption.map
      (List.map (Dim.transformedBounds ratArith)) = some [[(0, 1)], [(-5, 5)]] := by
  refine ⟨.inr (.inl ⟨_, rfl, rfl, rfl⟩), ?_, by decide +kernel⟩
  · intro e he
    simp only [demoEntries, List.mem_cons, List.not_mem_nil, or_false] at he
    rcases he with rfl | rfl
    · exact ⟨.real, (by decide +kernel : "Real".toLower = "real")⟩
    · exact ⟨.integer, (by decide +kernel : "INTEGER".toLower = "integer")⟩

/-- C90 is false for a misspelt class: a file with a `Real` and a `Float` entry is accepted and the
`Float` entry is silently dropped, so the search runs over fewer dimensions than the file lists. -/
theorem C90_refuted_unknown_class :
    (fromYaml demoBuild (.seq [entry ("Float", [("low", .num 0), ("high", .num 1)]),
      entry ("Real", [("low", .num 2), ("high", .num 3)])]) none).toOption.map
      (List.map (Dim.transformedBounds ratArith)) = some [[(2, 3)]] := by
  decide +kernel

/-- The file shown in the documentation of `from_yaml` is refused: there the keys `low` and `high`
stand in the same column as the class name, so YAML reads one mapping
`{Integer: null, low: -5, high: 5}` and `option[key].items()` raises `AttributeError`, whatever the
constructors do. -/
theorem C90_refuted_documented_example
    (build : DimKind → List (String × Yaml ℚ) → Except PyErr (Dim ℚ)) :
    fromYaml build (.map [("Space", .seq [.map [("Integer", .null), ("low", .num (-5)),
      ("high", .num 5)]])]) none = .error .attributeError := by
  rfl

/-- `Space.setTransformers` of `Verif.Model.Space`, which `Optimizer` uses to restore the transforms of the space
(optimizer.py:258-268, base.py:230-240), does what `Space.set_transformer` with the list of names does to the dimension
objects: it raises the same exception, or installs the same transforms. -/
theorem C89_models_agree (os : List (DimObj F)) (ts : List TKind) :
    (∀ dims', Space.setTransformers (os.map DimObj.dim) ts = .ok dims' →
      (SpaceObj.setTransformer os (.each (ts.map TKind.docName))).2 = none ∧
      (SpaceObj.setTransformer os (.each (ts.map TKind.docName))).1.map DimObj.dim = dims' ∧
      SpaceObj.getTransformer (SpaceObj.setTransformer os (.each (ts.map TKind.docName))).1 =
        (ts.take os.length).map TKind.docName) ∧
    (∀ e, Space.setTransformers (os.map DimObj.dim) ts = .error e →
      (SpaceObj.setTransformer os (.each (ts.map TKind.docName))).2 = some e) := by
  simp only [SpaceObj.setTransformer]
  induction os generalizing ts with
  | nil => simp [Space.setTransformers, SpaceObj.setEach, SpaceObj.getTransformer]
  | cons o os ih =>
    cases ts with
    | nil => simp [Space.setTransformers, SpaceObj.setEach]
    | cons t ts =>
      obtain ⟨i1, i2⟩ := ih ts
      obtain ⟨d, lab⟩ := o
      have key : (∀ d', d.setTransformer t = .ok d' →
          DimObj.setTransformer ⟨d, lab⟩ t.docName = (⟨d', t.docName⟩, none)) ∧
          (∀ e, d.setTransformer t = .error e → (DimObj.setTransformer ⟨d, lab⟩ t.docName).2 = some e) := by
        cases d <;> cases t <;>
          simp [Dim.setTransformer, DimObj.setTransformer, Dim.kindOfName, TKind.docName, Dim.install]
      simp only [List.map_cons, Space.setTransformers, SpaceObj.setEach]
      cases hd : d.setTransformer t with
      | error e =>
        have := key.2 e hd
        generalize DimObj.setTransformer ⟨d, lab⟩ t.docName = q at this
        obtain ⟨q1, q2⟩ := q
        simp only at this
        subst this
        refine ⟨fun dims' h => (by cases h), fun e' h => ?_⟩
        cases h
        rfl
      | ok d' =>
        rw [key.1 d' hd]
        simp only [ok_bind]
        cases hr : Space.setTransformers (os.map DimObj.dim) ts with
        | error e => 
          refine ⟨fun dims' h => (by cases h), fun e' h => ?_⟩
          cases h
          exact i2 e hr
        | ok ds' =>
          refine ⟨fun dims' h => ?_, fun e' h => by cases h⟩
          cases h
          obtain ⟨j1, j2, j3⟩ := i1 ds' hr
          refine ⟨j1, by rw [List.map_cons, j2], ?_⟩
          simp only [SpaceObj.getTransformer, List.map_cons, List.length_cons, List.take_succ_cons]
          rw [← j3]
          rfl

open Classical in
/-- Which exception `set_transformer` with a list of names raises: `IndexError` if all names given are documented but
there are fewer than dimensions, `ValueError` as soon as one is not documented for its dimension. -/
theorem C89_exceptions (os : List (DimObj F)) (ss : List String) :
    (SpaceObj.setTransformer os (.each ss)).2 =
      if ∀ q ∈ os.zip ss, Installable q.1.dim q.2 then
        if os.length ≤ ss.length then none else some .indexError
      else some .valueError := by
  simp only [SpaceObj.setTransformer]
  induction os generalizing ss with
  | nil => simp [SpaceObj.setEach]
  | cons o os ih =>
    cases ss with
    | nil => simp [SpaceObj.setEach]
    | cons s ss =>
      obtain ⟨h1, h2⟩ := o.setTransformer_spec s
      by_cases hd : Installable o.dim s
      · have e := (h1 hd).1
        have : (SpaceObj.setEach (o :: os) (s :: ss)).2 = (SpaceObj.setEach os ss).2 := by
          rw [SpaceObj.setEach]
          split
          · next h => rw [h] at e; exact absurd e (by simp)
          · rfl
        rw [this, ih]
        simp [hd]
      · have : (SpaceObj.setEach (o :: os) (s :: ss)).2 = some .valueError := by
          have e := h2 hd
          rw [SpaceObj.setEach]
          split
          · next h => rw [h] at e; exact e
          · next h => rw [h] at e; exact absurd e (by simp)
        rw [this, if_neg]
        intro hall
        exact hd (hall (o, s) (by simp))

example : (SpaceObj.setTransformer mixedObjs (.each ["label"])).2 = some .indexError ∧
    (SpaceObj.setTransformer mixedObjs (.each ["label", "onehot"])).2 = some .valueError := by
  constructor <;> decide +kernel

/-- `Optimizer` remembering and restoring the transforms of a space with two dimensions.
Meets the hypotheses of `C89_models_agree`. -/
example : (Space.setTransformers (mixedObjs.map DimObj.dim) [.label, .identity]).isOk = true ∧
    (Space.setTransformers (mixedObjs.map DimObj.dim) [.label, .onehot]).isOk = false := by
  constructor <;> decide +kernel

/-- **C90, missing section.** A namespace that is not in the file raises `KeyError`. -/
theorem C90_missing_namespace (build : DimKind → List (String × Yaml F) → Except PyErr (Dim F))
    (kvs : List (String × Yaml F)) (n : String) (h : ∀ q ∈ kvs, q.1 ≠ n) :
    fromYaml build (.map kvs) (some n) = .error .keyError := by
  have : yamlGet n kvs = .error .keyError := by
    induction kvs with
    | nil => rfl
    | cons q qs ih =>
      obtain ⟨k, w⟩ := q
      simp only [yamlGet, if_neg (h (k, w) (by simp))]
      exact ih fun x hx => h x (by simp [hx])
  simp only [fromYaml, yamlOptions, this, error_bind]

example : ∀ q ∈ ([("Space", .seq [])] : List (String × Yaml ℚ)), q.1 ≠ "space" := by simp

end Skopt

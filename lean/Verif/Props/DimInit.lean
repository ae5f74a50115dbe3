import Verif.Model.DimInit
import Verif.Model.SpaceOps
import Verif.Lemmas.Generator
import Verif.Props.SpaceChecks

/-!
# C103, C104: constructing dimensions; `repr`
-/

namespace Skopt

variable {F : Type}

/-! ## C103 -/

/-- The documented types of a `Real`: `float`, the names of numpy's float types, subtypes of `np.floating`. -/
def FloatType : DTypeArg → Prop
  | .str s => s = "float" ∨ s = "float16" ∨ s = "float32" ∨ s = "float64"
  | .type t => t = .float ∨ t = .float16 ∨ t = .float32 ∨ t = .float64 ∨ t = .longdouble
  | .other => True

/-- The documented types of an `Integer`: `int`, and the signed and unsigned types of 8, 16, 32 and 64 bits, as a
string or a type. -/
def IntType : DTypeArg → Prop
  | .str s => s = "int" ∨ ∃ u ∈ ["", "u"], ∃ w ∈ ["8", "16", "32", "64"], s = u ++ "int" ++ w
  | .type t => t = .int ∨ t = .int8 ∨ t = .int16 ∨ t = .int32 ∨ t = .int64 ∨ t = .uint8 ∨ t = .uint16 ∨
      t = .uint32 ∨ t = .uint64
  | .other => True

/-- The arguments a `Real` or `Integer` is made of, apart from its `dtype`: the upper bound is not at most the lower
one, and prior, transform and name are documented ones. -/
structure NumSensible [LinearOrder F] (a : NumArgs F) : Prop where
  bounds : ∀ l h, a.low = .fin l → a.high = .fin h → l < h
  prior : a.prior = "uniform" ∨ a.prior = "log-uniform"
  name : a.name ≠ .other
  transform : a.transform = none ∨ a.transform = some "identity" ∨ a.transform = some "normalize"

theorem atMost_false [LinearOrder F] {x y : Flt F} :
    Flt.atMost y x = false ↔ ∀ l h, x = .fin l → y = .fin h → l < h := by
  cases x <;> cases y <;> simp [Flt.atMost]

theorem checkNumTransform_ok {t : Option String} :
    checkNumTransform (t.getD "identity") = .ok () ↔ t = none ∨ t = some "identity" ∨ t = some "normalize" := by
  unfold checkNumTransform
  cases t with
  | none => simp
  | some t =>
    simp only [Option.getD_some, List.mem_cons, List.not_mem_nil, or_false, reduceCtorEq, Option.some.injEq, false_or]
    split
    · next h => exact ⟨fun _ => h.symm, fun _ => rfl⟩
    · next h => exact ⟨by simp, fun h' => absurd h'.symm h⟩

theorem checkNumTransform_error {t : String} {e : PyErr} (h : checkNumTransform t = .error e) : e = .valueError := by
  unfold checkNumTransform at h
  split at h
  · cases h
  · injection h with h; exact h.symm

theorem numInit_spec [LinearOrder F] {check : DTypeArg → Except PyErr Unit} {Good : DTypeArg → Prop}
    (hgood : ∀ t, check t = .ok () ↔ Good t) (hbad : ∀ t e, check t = .error e → e = .valueError) (a : NumArgs F) :
    (NumSensible a ∧ Good a.dtype → ∃ o, numInit check a = .ok o ∧ o.low = a.low ∧ o.high = a.high ∧
      o.prior = a.prior ∧ o.base = a.base ∧ a.transform.getD "identity" = o.transform ∧ o.dtype = a.dtype ∧
      a.name = (match o.name with | none => .none | some s => .str s)) ∧
    (¬ (NumSensible a ∧ Good a.dtype) → numInit check a = .error .valueError) := by
  have hpr : a.prior ∈ ["uniform", "log-uniform"] ↔ a.prior = "uniform" ∨ a.prior = "log-uniform" := by simp
  constructor
  · rintro ⟨⟨h1, h2, h3, h4⟩, h5⟩
    unfold numInit
    rw [if_neg (by rw [atMost_false.2 h1]; simp), if_neg (not_not.2 (hpr.2 h2)), (hgood _).2 h5,
      checkNumTransform_ok.2 h4]
    cases hn : a.name with
    | other => exact absurd hn h3
    | none => exact ⟨_, rfl, rfl, rfl, rfl, rfl, rfl, rfl, rfl⟩
    | str s => exact ⟨_, rfl, rfl, rfl, rfl, rfl, rfl, rfl, rfl⟩
  · intro h
    unfold numInit
    split
    · rfl
    · next h1 =>
      split
      · rfl
      · next h2 =>
        have h1' := atMost_false.1 (Bool.not_eq_true _ ▸ h1)
        have h2' := hpr.1 (not_not.1 h2)
        cases hn : a.name with
        | other => rfl
        | none =>
          simp only [setName, ok_bind]
          cases hd : check a.dtype with
          | error e => rw [hbad _ _ hd]; rfl
          | ok u =>
            simp only [ok_bind]
            cases ht : checkNumTransform (a.transform.getD "identity") with
            | error e => rw [checkNumTransform_error ht]; rfl
            | ok u => exact absurd ⟨⟨h1', h2', by rw [hn]; simp, checkNumTransform_ok.1 ht⟩, (hgood _).1 hd⟩ h
        | str s =>
          simp only [setName, ok_bind]
          cases hd : check a.dtype with
          | error e => rw [hbad _ _ hd]; rfl
          | ok u =>
            simp only [ok_bind]
            cases ht : checkNumTransform (a.transform.getD "identity") with
            | error e => rw [checkNumTransform_error ht]; rfl
            | ok u => exact absurd ⟨⟨h1', h2', by rw [hn]; simp, checkNumTransform_ok.1 ht⟩, (hgood _).1 hd⟩ h

theorem ite_ok {p : Prop} [Decidable p] {e : PyErr} : (if p then (.ok () : Except PyErr Unit) else .error e) = .ok () ↔ p := by
  split <;> simp [*]

theorem checkRealDtype_ok (t : DTypeArg) : checkRealDtype t = .ok () ↔ FloatType t := by
  cases t <;> simp only [checkRealDtype, FloatType, ite_ok, List.mem_cons, List.not_mem_nil, or_false]

theorem checkIntDtype_ok (t : DTypeArg) : checkIntDtype t = .ok () ↔ IntType t := by
  cases t with
  | str s =>
    have e : (∃ u ∈ ["", "u"], ∃ w ∈ ["8", "16", "32", "64"], s = u ++ "int" ++ w) ↔
        s ∈ ["int8", "int16", "int32", "int64", "uint8", "uint16", "uint32", "uint64"] := by
      simp [or_assoc]
    simp only [checkIntDtype, IntType, ite_ok]
    rw [e]
    simp only [List.mem_cons, List.not_mem_nil, or_false]
  | type t => simp only [checkIntDtype, IntType, ite_ok, List.mem_cons, List.not_mem_nil, or_false]
  | other => simp only [checkIntDtype, IntType]

theorem checkDtype_error :
    (∀ t e, checkRealDtype t = .error e → e = .valueError) ∧ ∀ t e, checkIntDtype t = .error e → e = .valueError := by
  constructor
  · intro t e h
    cases t <;> simp only [checkRealDtype] at h
    · split at h <;> cases h; rfl
    · split at h <;> cases h; rfl
    · cases h
  · intro t e h
    cases t <;> simp only [checkIntDtype] at h
    · split at h <;> cases h; rfl
    · split at h <;> cases h; rfl
    · cases h

/-- **C103 (`Real`).** The constructor accepts exactly the documented arguments and stores them; for all others it
raises `ValueError`. -/
theorem C103_real_partial [LinearOrder F] (a : NumArgs F) :
    (NumSensible a ∧ FloatType a.dtype → ∃ o, realInit a = .ok o ∧ o.low = a.low ∧ o.high = a.high ∧
      o.prior = a.prior ∧ o.base = a.base ∧ a.transform.getD "identity" = o.transform ∧ o.dtype = a.dtype ∧
      a.name = (match o.name with | none => .none | some s => .str s)) ∧
    (¬ (NumSensible a ∧ FloatType a.dtype) → realInit a = .error .valueError) :=
  numInit_spec checkRealDtype_ok checkDtype_error.1 a

/-- `Real(0, 1, dtype="float32")` is accepted, `Real(0, 1, dtype="float8")` refused. -/
example : (∃ o, realInit (⟨.fin 0, .fin 1, "uniform", 10, none, .none, .str "float32"⟩ : NumArgs ℚ) = .ok o) ∧
    realInit (⟨.fin 0, .fin 1, "uniform", 10, none, .none, .str "float8"⟩ : NumArgs ℚ) = .error .valueError := by
  constructor
  · obtain ⟨o, h, -⟩ := (C103_real_partial (⟨.fin 0, .fin 1, "uniform", 10, none, .none, .str "float32"⟩ : NumArgs ℚ)).1
      ⟨⟨by rintro l h ⟨⟩ ⟨⟩; norm_num, Or.inl rfl, by simp, Or.inl rfl⟩, by simp [FloatType]⟩
    exact ⟨o, h⟩
  · exact (C103_real_partial _).2 fun h => by
      have := h.2
      simp [FloatType] at this

/-- **C103 (`Integer`).** -/
theorem C103_integer_partial [LinearOrder F] (a : NumArgs F) :
    (NumSensible a ∧ IntType a.dtype → ∃ o, intInit a = .ok o ∧ o.low = a.low ∧ o.high = a.high ∧
      o.prior = a.prior ∧ o.base = a.base ∧ a.transform.getD "identity" = o.transform ∧ o.dtype = a.dtype ∧
      a.name = (match o.name with | none => .none | some s => .str s)) ∧
    (¬ (NumSensible a ∧ IntType a.dtype) → intInit a = .error .valueError) :=
  numInit_spec checkIntDtype_ok checkDtype_error.2 a

/-- `Integer(1, 8, "log-uniform", transform="normalize", dtype="uint8", name="n")`. -/
example : NumSensible (⟨.fin 1, .fin 8, "log-uniform", 10, some "normalize", .str "n", .str "uint8"⟩ : NumArgs ℚ) ∧
    IntType (.str "uint8") :=
  ⟨⟨by rintro l h ⟨⟩ ⟨⟩; norm_num, Or.inr rfl, by simp, Or.inr (Or.inr rfl)⟩,
    Or.inr ⟨"u", by simp, "8", by simp, by decide⟩⟩

/-- **C103 (in the model of the space).** What the constructors accept is a dimension as the other properties assume it:
ordered bounds and a legal transform; and the constructors with arguments of the right kind (`mkReal`, `mkInt`) agree
with those with unchecked ones. -/
theorem C103_dimension_partial [LinearOrder F] (a : NumArgs F) (o : NumObj F) (l h : F) (hl : a.low = .fin l)
    (hh : a.high = .fin h) (cast : DTypeArg → F → F) (wrap : DTypeArg → ℤ → ℤ) :
    (realInit a = .ok o → l < h ∧ ∃ d, o.toReal cast = some d ∧ HasLegalTransform d ∧
      mkReal l h (priorOf a.prior) a.base (a.transform.map transformOf) o.name (cast a.dtype) = .ok d) ∧
    (intInit a = .ok o → l < h ∧ ∃ d, o.toInt wrap = some d ∧ HasLegalTransform d ∧
      mkInt l h (priorOf a.prior) a.base (a.transform.map transformOf) o.name (wrap a.dtype) = .ok d) ∧
    (∀ p b t nm c w, h ≤ l ∨ (∃ k, t = some k ∧ k ≠ .identity ∧ k ≠ .normalize) →
      mkReal l h p b t nm c = .error .valueError ∧ mkInt l h p b t nm w = .error .valueError) := by
  have htr : ∀ t : Option String, t = none ∨ t = some "identity" ∨ t = some "normalize" →
      (t.map transformOf).getD .identity = transformOf (t.getD "identity") := by
    rintro t (rfl | rfl | rfl) <;> rfl
  have hle : ∀ t, transformOf t = .identity ∨ transformOf t = .normalize := by
    intro t; unfold transformOf; split <;> simp
  refine ⟨fun hr => ?_, fun hr => ?_, fun p b t nm c w hbad => ?_⟩
  · by_cases hs : NumSensible a ∧ FloatType a.dtype
    · obtain ⟨o', e, e1, e2, e3, e4, e5, e6, -⟩ := (C103_real_partial a).1 hs
      rw [hr] at e
      injection e with e
      subst e
      have hlt := hs.1.bounds l h hl hh
      rw [hl] at e1
      rw [hh] at e2
      refine ⟨hlt, .real ⟨l, h, priorOf o.prior, o.base, transformOf o.transform, o.name, cast o.dtype⟩,
        by simp only [NumObj.toReal, e1, e2], hle o.transform, ?_⟩
      unfold mkReal
      rw [if_neg (not_le.2 hlt), htr _ hs.1.transform, e3, e4, e6, ← e5]
      rcases hle (a.transform.getD "identity") with h | h <;> rw [h]
    · rw [(C103_real_partial a).2 hs] at hr; cases hr
  · by_cases hs : NumSensible a ∧ IntType a.dtype
    · obtain ⟨o', e, e1, e2, e3, e4, e5, e6, -⟩ := (C103_integer_partial a).1 hs
      rw [hr] at e
      injection e with e
      subst e
      have hlt := hs.1.bounds l h hl hh
      rw [hl] at e1
      rw [hh] at e2
      refine ⟨hlt, .int ⟨l, h, priorOf o.prior, o.base, transformOf o.transform, o.name, wrap o.dtype⟩,
        by simp only [NumObj.toInt, e1, e2], hle o.transform, ?_⟩
      unfold mkInt
      rw [if_neg (not_le.2 hlt), htr _ hs.1.transform, e3, e4, e6, ← e5]
      rcases hle (a.transform.getD "identity") with h | h <;> rw [h]
    · rw [(C103_integer_partial a).2 hs] at hr; cases hr
  · by_cases hle : h ≤ l
    · exact ⟨by rw [mkReal, if_pos hle], by rw [mkInt, if_pos hle]⟩
    · obtain ⟨k, rfl, hk⟩ := hbad.resolve_left hle
      cases k <;> simp_all [mkReal, mkInt]

/-- `Real(1e-3, 10, "log-uniform", 2, name="C", dtype="float32")`. -/
example : NumSensible (⟨.fin (1/1000), .fin 10, "log-uniform", 2, none, .str "C", .str "float32"⟩ : NumArgs ℚ) ∧
    FloatType (.str "float32") :=
  ⟨⟨by rintro l h ⟨⟩ ⟨⟩; norm_num, Or.inr rfl, by simp, Or.inl rfl⟩, by simp [FloatType]⟩

/-- `Integer(1, 5, transform="normalize", dtype=np.uint8)`. -/
example : NumSensible (⟨.fin 1, .fin 5, "uniform", 10, some "normalize", .none, .type .uint8⟩ : NumArgs ℚ) ∧
    IntType (.type .uint8) :=
  ⟨⟨by rintro l h ⟨⟩ ⟨⟩; norm_num, Or.inl rfl, by simp, Or.inr (Or.inr rfl)⟩, by simp [IntType]⟩

/-- **C103 (`Categorical`).** If the constructor returns, there is at least one category or a prior was given, the
transform is a documented one, the name a string or `None`, the encoder accepts the categories, and, unless the
transform is `"normalize"`, `rv_discrete` accepts the prior, which is uniform if none is given; and under these
conditions it returns.  Otherwise it raises: `ValueError` for name and transform, `ZeroDivisionError` for no
categories. -/
theorem C103_categorical_partial (A : Arith F) (K : CatChecks F) (cats : List (Val F)) (prior : Option (List F))
    (transform : Option String) (name : NameArg) :
    (∀ o, catInit A K cats prior transform name = .ok o ↔
      name ≠ .other ∧ (cats ≠ [] ∨ prior ≠ none) ∧
      (∀ t, transform = some t → t ∈ ["identity", "onehot", "string", "normalize", "label"]) ∧
      K.fit (transform.getD "onehot") cats = .ok () ∧
      (transform ≠ some "normalize" → K.discrete cats.length o.priorVals = .ok ()) ∧
      o.cats = cats ∧ o.prior = prior ∧ o.transform = transform.getD "onehot" ∧
      name = (match o.name with | none => .none | some s => .str s) ∧
      o.priorVals = prior.getD (List.replicate cats.length (A.div (A.ofInt 1) (A.ofInt cats.length)))) ∧
    (name = .other → catInit A K cats prior transform name = .error .valueError) ∧
    (name ≠ .other → cats = [] → prior = none → catInit A K cats prior transform name = .error .zeroDivisionError) ∧
    (name ≠ .other → (cats ≠ [] ∨ prior ≠ none) → ∀ t, transform = some t →
      t ∉ ["identity", "onehot", "string", "normalize", "label"] →
      catInit A K cats prior transform name = .error .valueError) := by
  have hprior : (cats ≠ [] ∨ prior ≠ none) → catPrior A cats prior =
      .ok (prior.getD (List.replicate cats.length (A.div (A.ofInt 1) (A.ofInt cats.length)))) := by
    intro h
    cases prior with
    | some p => rfl
    | none =>
      have : cats.length ≠ 0 := fun h0 => h.elim (fun h => h (List.length_eq_zero_iff.1 h0)) (fun h => h rfl)
      simp only [catPrior, if_neg this, Option.getD_none]
  have hname : name ≠ .other → ∃ nm, setName name = .ok nm ∧
      ∀ nm', nm' = nm ↔ name = (match nm' with | none => .none | some s => .str s) := by
    intro h
    cases name with
    | other => exact absurd rfl h
    | none => exact ⟨none, rfl, fun nm' => by cases nm' <;> simp⟩
    | str s => exact ⟨some s, rfl, fun nm' => by
        cases nm' with
        | none => simp
        | some x => simp [eq_comm]⟩
  have hempty : name ≠ .other → cats = [] → prior = none →
      catInit A K cats prior transform name = .error .zeroDivisionError := by
    rintro h rfl rfl
    obtain ⟨nm, h1, -⟩ := hname h
    simp [catInit, h1, catPrior, ok_bind, error_bind]
  have hbad : name ≠ .other → (cats ≠ [] ∨ prior ≠ none) → ∀ t, transform = some t →
      t ∉ ["identity", "onehot", "string", "normalize", "label"] →
      catInit A K cats prior transform name = .error .valueError := by
    rintro h hp t rfl ht
    obtain ⟨nm, h1, -⟩ := hname h
    simp only [catInit, h1, hprior hp, ok_bind, Option.getD_some]
    rw [if_pos ht]
  refine ⟨fun o => ?_, by rintro rfl; rfl, hempty, hbad⟩
  by_cases hn : name = .other
  · subst hn
    exact ⟨fun h => (by cases h), fun h => absurd rfl h.1⟩
  · by_cases hp : cats ≠ [] ∨ prior ≠ none
    · obtain ⟨nm, h1, h1'⟩ := hname hn
      by_cases ht : ∀ t, transform = some t → t ∈ ["identity", "onehot", "string", "normalize", "label"]
      · have ht' : transform.getD "onehot" ∈ ["identity", "onehot", "string", "normalize", "label"] := by
          cases transform with
          | none => simp
          | some t => exact ht t rfl
        have hno : transform.getD "onehot" = "normalize" ↔ transform = some "normalize" := by
          cases transform <;> simp
        simp only [catInit, h1, hprior hp, ok_bind]
        rw [if_neg (not_not.2 ht')]
        cases hf : K.fit (transform.getD "onehot") cats with
        | error e => simp [error_bind]
        | ok u =>
          simp only [ok_bind, hno]
          by_cases hz : transform = some "normalize"
          · rw [if_pos hz]
            simp only [Except.ok.injEq]
            constructor
            · rintro rfl
              exact ⟨hn, hp, ht, trivial, fun h => absurd hz h, rfl, rfl, rfl, (h1' nm).1 rfl, rfl⟩
            · rintro ⟨-, -, -, -, -, e1, e2, e3, e4, e5⟩
              have := (h1' _).2 e4
              cases o
              simp only at *
              subst e1 e2 e3 e5 this
              rfl
          · rw [if_neg hz]
            cases hdz : K.discrete cats.length
                (prior.getD (List.replicate cats.length (A.div (A.ofInt 1) (A.ofInt cats.length)))) with
            | error e =>
              simp only [error_bind]
              constructor
              · intro h; cases h
              · rintro ⟨-, -, -, -, e0, e1, e2, e3, e4, e5⟩
                have := e0 hz
                rw [e5, hdz] at this
                cases this
            | ok u =>
              simp only [ok_bind, Except.ok.injEq]
              constructor
              · rintro rfl
                exact ⟨hn, hp, ht, trivial, fun _ => hdz, rfl, rfl, rfl, (h1' nm).1 rfl, rfl⟩
              · rintro ⟨-, -, -, -, -, e1, e2, e3, e4, e5⟩
                have := (h1' _).2 e4
                cases o
                simp only at *
                subst e1 e2 e3 e5 this
                rfl
      · push Not at ht
        obtain ⟨t, h2, h3⟩ := ht
        rw [hbad hn hp t h2 h3]
        exact ⟨fun h => (by cases h), fun h => absurd (h.2.2.1 t h2) h3⟩
    · push Not at hp
      rw [hempty hn hp.1 hp.2]
      exact ⟨fun h => (by cases h), fun h => by
        rcases h.2.1 with h | h
        · exact absurd hp.1 h
        · exact absurd hp.2 h⟩

/-- Checks like scipy's: as many probabilities as values, and they add up to one.  (rv_discrete; used for the examples
on skopt/space/space.py:657-659) -/
def sumChecks : CatChecks ℚ where
  fit _ cats := match cats with
    | [] => .error .valueError
    | _ :: _ => .ok ()
  discrete n p := if p.length = n ∧ p.sum = 1 then .ok () else .error .valueError

/-- `Categorical(["a", "b"], prior=[0.25, 0.75], name="c")` is accepted.
Meets the hypotheses of `C103_categorical_partial`. -/
example : ∃ o, catInit ratArith sumChecks [.str "a", .str "b"] (some [1/4, 3/4]) none (.str "c") = .ok o := by
  norm_num [catInit, setName, catPrior, sumChecks, ok_bind]

/-- **C103 refuted.** NaN is accepted as a bound: `nan <= low` is false (space.py:254). -/
theorem C103_refuted_nan [LinearOrder F] (h b : F) :
    ∃ o, realInit (⟨.nan, .fin h, "uniform", b, none, .none, .type .float⟩ : NumArgs F) = .ok o ∧ o.low = .nan :=
  ⟨_, rfl, rfl⟩

/-- **C103 refuted.** A log-uniform `Real` or `Integer` with a negative lower bound is accepted, although the
logarithms of its bounds do not exist (space.py:254-259, 312). -/
theorem C103_refuted_log_bounds :
    (∃ o, realInit (⟨.fin (-1), .fin 1, "log-uniform", 10, none, .none, .type .float⟩ : NumArgs ℚ) = .ok o) ∧
    ∃ o, intInit (⟨.fin (-1), .fin 1, "log-uniform", 10, none, .none, .type .int64⟩ : NumArgs ℚ) = .ok o :=
  ⟨⟨_, rfl⟩, ⟨_, rfl⟩⟩

/-- **C103 refuted.** `Integer` accepts bounds between which there is no integer (space.py:439-456). -/
theorem C103_refuted_no_integer :
    ∃ o, intInit (⟨.fin (1/4), .fin (3/4), "uniform", 10, none, .none, .type .int64⟩ : NumArgs ℚ) = .ok o ∧
      ¬ ∃ k : ℤ, (1/4 : ℚ) ≤ k ∧ (k : ℚ) ≤ 3/4 := by
  obtain ⟨o, ho, -⟩ := (C103_integer_partial (⟨.fin (1/4), .fin (3/4), "uniform", 10, none, .none, .type .int64⟩ :
    NumArgs ℚ)).1 ⟨⟨by rintro l h ⟨⟩ ⟨⟩; norm_num, Or.inl rfl, by simp, Or.inl rfl⟩, by simp [IntType]⟩
  refine ⟨o, ho, ?_⟩
  rintro ⟨k, h1, h2⟩
  have h3 : (0 : ℚ) < k := by linarith
  have h4 : (k : ℚ) < 1 := by linarith
  have h3' : (0 : ℤ) < k := by exact_mod_cast h3
  have h4' : k < (1 : ℤ) := by exact_mod_cast h4
  omega

/-- **C103 refuted.** With `transform="normalize"` nobody looks at the prior of a `Categorical` (space.py:653-659): a
prior that does not add up to one, which is refused otherwise, is accepted. -/
theorem C103_refuted_prior :
    catInit ratArith sumChecks [.str "a", .str "b"] (some [3, 4, 5]) none .none = .error .valueError ∧
    ∃ o, catInit ratArith sumChecks [.str "a", .str "b"] (some [3, 4, 5]) (some "normalize") .none = .ok o := by
  constructor
  · norm_num [catInit, setName, catPrior, sumChecks, ok_bind, error_bind]
    exact fun h => absurd h (by decide)
  · norm_num [catInit, setName, catPrior, sumChecks, ok_bind, error_bind]

/-! ## C104 -/

/-- What `repr` shows of a dimension: everything but the base of the logarithm, the name and the `dtype` of a number, and
everything but the transform and the name of a `Categorical` with at most seven categories. -/
def ReprPlain (A : Arith F) (wrap : ℤ → ℤ) (str : Val F → String) (castStr : String → Except PyErr (Val F)) : Dim F → Prop
  | .real d => d.base = A.ofInt 10 ∧ d.name = none ∧ d.cast = id
  | .int d => d.base = A.ofInt 10 ∧ d.name = none ∧ d.wrap = wrap
  | .cat c => c.cats.length ≤ 7 ∧ (∀ p, c.prior = some p → p.length ≤ 7) ∧ c.transform = .onehot ∧ c.name = none ∧
      c.str = str ∧ c.castStr = castStr

/-- A dimension as the constructors make them. -/
def Constructed [LinearOrder F] (d : Dim F) : Prop :=
  match d with
  | .real d => d.low < d.high ∧ (d.transform = .identity ∨ d.transform = .normalize)
  | .int d => d.low < d.high ∧ (d.transform = .identity ∨ d.transform = .normalize)
  | .cat c => c.cats ≠ []

theorem abbreviate_short {α : Type} {xs : List α} (h : xs.length ≤ 7) : abbreviate xs = xs.map some := by
  unfold abbreviate
  rw [if_neg (by omega)]

theorem eval_short [LinearOrder F] {A : Arith F} {el : Nat} {str : Val F → String}
    {castStr : String → Except PyErr (Val F)} {wrap : ℤ → ℤ} {c : CatDim F} (hc : c.cats ≠ [])
    (h7 : c.cats.length ≤ 7) (hp : ∀ p, c.prior = some p → p.length ≤ 7) (lp : Bool) :
    ∃ t, (Dim.cat c).repr lp = .ok t ∧ t.eval A el str castStr wrap =
      .ok (.cat ⟨c.cats, c.prior, .onehot, none, str, castStr⟩) := by
  have hm : (c.cats.map some).map (fun x => x.getD (.obj el)) = c.cats := by
    rw [List.map_map]
    exact List.map_id'' (fun _ => rfl) _
  have hempty : c.cats.isEmpty = false := by
    rw [Bool.eq_false_iff]
    simpa using hc
  cases hpr : c.prior with
  | none =>
    refine ⟨_, by simp only [Dim.repr, hpr]; rfl, ?_⟩
    rw [abbreviate_short h7]
    simp only [ReprText.eval, hm, mkCat, hempty, Bool.false_eq_true, if_false, Option.getD_none]
  | some p =>
    have hp7 := hp p hpr
    refine ⟨_, by simp only [Dim.repr, hpr]; rw [if_neg (by omega)], ?_⟩
    rw [abbreviate_short h7, abbreviate_short hp7]
    have hno : ¬ (none ∈ (p.map some).map fun x => x.map fun _ => ()) := by simp
    have hf : (p.map some).filterMap id = p := by
      rw [List.filterMap_map]
      exact List.filterMap_some
    simp only [ReprText.eval, hm, mkCat, hempty, Bool.false_eq_true, if_false, if_neg hno, hf, Option.getD_none]

/-- **C104 (what is shown is rebuilt).** For a dimension that has only the attributes `repr` shows, `eval(repr(d))` is
`d` again.  Partial: at most seven categories, base 10, no name, default types (see the refutations). -/
theorem C104_same_partial [LinearOrder F] (A : Arith F) (el : Nat) (str : Val F → String)
    (castStr : String → Except PyErr (Val F)) (wrap : ℤ → ℤ) (d : Dim F) (h : ReprPlain A wrap str castStr d)
    (hc : Constructed d) (lp : Bool) :
    ∃ t, d.repr lp = .ok t ∧ t.eval A el str castStr wrap = .ok d := by
  cases d with
  | real d =>
    obtain ⟨h1, h2, h3⟩ := h
    obtain ⟨h4, h5⟩ := hc
    refine ⟨_, rfl, ?_⟩
    obtain ⟨lo, hi, p, b, t, nm, cast⟩ := d
    simp only at *
    subst h1 h2 h3
    simp only [ReprText.eval, mkReal, if_neg (not_le.2 h4), Option.getD_some]
    rcases h5 with rfl | rfl <;> rfl
  | int d =>
    obtain ⟨h1, h2, h3⟩ := h
    obtain ⟨h4, h5⟩ := hc
    refine ⟨_, rfl, ?_⟩
    obtain ⟨lo, hi, p, b, t, nm, cast⟩ := d
    simp only at *
    subst h1 h2 h3
    simp only [ReprText.eval, mkInt, if_neg (not_le.2 h4), Option.getD_some]
    rcases h5 with rfl | rfl <;> rfl
  | cat c =>
    obtain ⟨h1, h2, h3, h4, h5, h6⟩ := h
    obtain ⟨t, e1, e2⟩ := eval_short (A := A) (el := el) (str := str) (castStr := castStr) (wrap := wrap) hc h1 h2 lp
    refine ⟨t, e1, ?_⟩
    rw [e2, ← h3, ← h4, ← h5, ← h6]

/-- **C104 (equal by `==`).** For every constructed dimension (with at most seven categories), `eval(repr(d)) == d`:
neither the base, the name, the type nor the transform of a `Categorical` is compared. -/
theorem C104_equal_partial (el : Nat) (str : Val ℝ → String) (castStr : String → Except PyErr (Val ℝ)) (wrap : ℤ → ℤ)
    (d : Dim ℝ) (hc : Constructed d)
    (h7 : ∀ c, d = .cat c → c.cats.length ≤ 7 ∧ ∀ p, c.prior = some p → p.length ≤ 7) (lp : Bool) :
    ∃ t d', d.repr lp = .ok t ∧ t.eval exact el str castStr wrap = .ok d' ∧
      ∀ atol rtol : ℝ, 0 ≤ atol → 0 ≤ rtol → Dim.eqv exact atol rtol d' d = true := by
  have hrefl : ∀ (d : Dim ℝ) (atol rtol : ℝ), 0 ≤ atol → 0 ≤ rtol → Dim.eqv exact atol rtol d d = true := by
    intro d atol rtol h1 h2
    have := (C09_equality_partial atol rtol h1 h2 [d] []).1
    simpa [Space.eqv] using this
  cases d with
  | real d =>
    obtain ⟨h4, h5⟩ := hc
    obtain ⟨lo, hi, p, b, t, nm, cast⟩ := d
    simp only at h4 h5
    refine ⟨_, .real ⟨lo, hi, p, exact.ofInt 10, t, none, id⟩, rfl, ?_, fun a r ha hr => ?_⟩
    · simp only [ReprText.eval, mkReal, if_neg (not_le.2 h4), Option.getD_some]
      rcases h5 with rfl | rfl <;> rfl
    · exact hrefl (.real ⟨lo, hi, p, b, t, nm, cast⟩) a r ha hr
  | int d =>
    obtain ⟨h4, h5⟩ := hc
    obtain ⟨lo, hi, p, b, t, nm, cast⟩ := d
    simp only at h4 h5
    refine ⟨_, .int ⟨lo, hi, p, exact.ofInt 10, t, none, wrap⟩, rfl, ?_, fun a r ha hr => ?_⟩
    · simp only [ReprText.eval, mkInt, if_neg (not_le.2 h4), Option.getD_some]
      rcases h5 with rfl | rfl <;> rfl
    · exact hrefl (.int ⟨lo, hi, p, b, t, nm, cast⟩) a r ha hr
  | cat c =>
    obtain ⟨t, e1, e2⟩ := eval_short (A := exact) (el := el) (str := str) (castStr := castStr) (wrap := wrap) hc
      (h7 c rfl).1 (h7 c rfl).2 lp
    exact ⟨t, _, e1, e2, fun a r ha hr => hrefl (.cat c) a r ha hr⟩

/-- `Real(1, 8, "log-uniform", base=2, name="x")`, of which base and name are not shown, and a normalized
`Categorical`.
Meets the hypotheses of `C104_same_partial`. -/
example : Constructed (.real ⟨1, 8, .logUniform, 2, .identity, some "x", id⟩ : Dim ℝ) ∧
    Constructed (.cat ⟨[.str "a", .str "b"], none, .normalize, none, fun _ => "", fun s => .ok (.str s)⟩ : Dim ℝ) := by
  constructor
  · norm_num [Constructed]
  · simp [Constructed]

/-- **C104 (spaces).** A space of at most 31 such dimensions is rebuilt. -/
theorem C104_space_partial [LinearOrder F] (A : Arith F) (el : Nat) (str : Val F → String)
    (castStr : String → Except PyErr (Val F)) (wrap : ℤ → ℤ) (dims : List (Dim F))
    (h : ∀ d ∈ dims, ReprPlain A wrap str castStr d ∧ Constructed d) (h31 : dims.length ≤ 31) (lp : Bool) :
    ∃ t, Space.repr lp dims = .ok t ∧ evalSpace A el str castStr wrap t = .ok dims := by
  have key : ∀ ds : List (Dim F), (∀ d ∈ ds, ReprPlain A wrap str castStr d ∧ Constructed d) →
      ∃ ts, mapE (Dim.repr lp) ds = .ok ts ∧ evalSpace A el str castStr wrap (ts.map some) = .ok ds := by
    intro ds
    induction ds with
    | nil => intro _; exact ⟨[], rfl, rfl⟩
    | cons d ds ih =>
      intro h
      obtain ⟨ts, e1, e2⟩ := ih fun x hx => h x (by simp [hx])
      obtain ⟨t, e3, e4⟩ := C104_same_partial A el str castStr wrap d (h d (by simp)).1 (h d (by simp)).2 lp
      refine ⟨t :: ts, by simp only [mapE, e1, e3], ?_⟩
      unfold evalSpace at e2 ⊢
      simp only [List.map_cons, mapE, e4, e2]
  obtain ⟨ts, e1, e2⟩ := key dims h
  refine ⟨ts.map some, ?_, e2⟩
  unfold Space.repr
  rw [if_neg (by omega), e1, ok_bind]

/-- `Real(-5, 10)`, `Integer(1, 8, "log-uniform", transform="normalize")`, `Categorical(["a", "b"], prior=[0.25, 0.75])`. -/
example : ∀ d ∈ ([.real ⟨-5, 10, .uniform, 10, .identity, none, id⟩, .int ⟨1, 8, .logUniform, 10, .normalize, none, id⟩,
      .cat ⟨[.str "a", .str "b"], some [1/4, 3/4], .onehot, none, fun _ => "", fun s => .ok (.str s)⟩] : List (Dim ℚ)),
    ReprPlain ratArith id (fun _ => "") (fun s => .ok (.str s)) d ∧ Constructed d := by
  intro d hd
  simp only [List.mem_cons, List.not_mem_nil, or_false] at hd
  rcases hd with rfl | rfl | rfl
  · exact ⟨⟨rfl, rfl, rfl⟩, by norm_num [Constructed]⟩
  · exact ⟨⟨rfl, rfl, rfl⟩, by norm_num [Constructed]⟩
  · exact ⟨⟨by simp, by rintro p ⟨⟩; simp, rfl, rfl, rfl, rfl⟩, by simp [Constructed]⟩

/-- **C104 refuted.** The base of the logarithm is not shown: `Real(1, 8, "log-uniform", base=2)` is rebuilt with base
10, and the encoded values differ (those of the original are logarithms to base 2). -/
theorem C104_refuted_base : ∃ t,
    (Dim.real ⟨1, 8, .logUniform, 2, .identity, none, id⟩ : Dim ℝ).repr true = .ok t ∧
    ∃ d', t.eval exact 0 (fun _ => "") (fun s => .ok (.str s)) id = .ok d' ∧
      (Dim.real ⟨1, 8, .logUniform, 2, .identity, none, id⟩ : Dim ℝ).transform exact [.num 2] = .ok [[.num 1]] ∧
      d'.transform exact [.num 2] = .ok [[.num (Real.logb 10 2)]] ∧ Real.logb 10 2 ≠ 1 := by
  refine ⟨_, rfl, .real ⟨1, 8, .logUniform, 10, .identity, none, id⟩, ?_, ?_, ?_, ?_⟩
  · have h : ¬ (8 : ℝ) ≤ 1 := by norm_num
    simp only [ReprText.eval, mkReal, if_neg h, Option.getD_some]
    simp [exact]
  · have h : (Dim.real ⟨1, 8, .logUniform, 2, .identity, none, id⟩ : Dim ℝ).transform exact [.num 2] =
        .ok [[.num (Real.logb 10 2 / Real.logb 10 2)]] := rfl
    rw [h, div_self]
    exact (Real.logb_pos (by norm_num) (by norm_num)).ne'
  · have h : (Dim.real ⟨1, 8, .logUniform, 10, .identity, none, id⟩ : Dim ℝ).transform exact [.num 2] =
        .ok [[.num (Real.logb 10 2 / Real.logb 10 10)]] := rfl
    rw [h, Real.logb_self_eq_one (by norm_num), div_one]
  · intro h
    have := (Real.logb_lt_logb (b := 10) (x := 2) (y := 10) (by norm_num) (by norm_num) (by norm_num))
    rw [Real.logb_self_eq_one (by norm_num)] at this
    linarith

/-- **C104 refuted.** Eight categories are abbreviated: the evaluated text has seven, one of them the object
`Ellipsis`. -/
theorem C104_refuted_many_categories : ∃ t, (Dim.cat ⟨(List.range 8).map fun i => .num (i : ℚ), none, .onehot, none,
      fun _ => "", fun s => .ok (.str s)⟩).repr true = .ok t ∧
    t.eval ratArith 0 (fun _ => "") (fun s => .ok (.str s)) id = .ok (.cat ⟨[.num 0, .num 1, .num 2, .obj 0, .num 5,
      .num 6, .num 7], none, .onehot, none, fun _ => "", fun s => .ok (.str s)⟩) :=
  ⟨_, rfl, rfl⟩

/-- **C104 refuted.** `repr` raises `TypeError` if the prior has more than seven entries and is a tuple or an array
(space.py:673). -/
theorem C104_refuted_raises : (Dim.cat ⟨(List.range 8).map fun i => .num (i : ℚ), some (List.replicate 8 (1/8)), .onehot,
      none, fun _ => "", fun s => .ok (.str s)⟩).repr false = .error .typeError := rfl

/-- **C104 refuted.** A space of 32 dimensions is abbreviated, and the text cannot be evaluated. -/
theorem C104_refuted_many_dimensions : ∃ t, Space.repr true
      (List.replicate 32 (.real ⟨0, 1, .uniform, 10, .identity, none, id⟩ : Dim ℚ)) = .ok t ∧
    evalSpace ratArith 0 (fun _ => "") (fun s => .ok (.str s)) id t = .error .valueError := by
  refine ⟨_, rfl, rfl⟩

end Skopt

import Verif.Props.Naming

/-!
# C10 – which specification becomes which kind of dimension
-/

namespace Skopt

variable {F : Type}

/-- A Python integer; truth values are Python integers. -/
inductive PyInt : Lit F → Prop
  | int (a : ℤ) : PyInt (.int a)
  | bool (b : Bool) : PyInt (.bool b)

/-- An integer of Python or numpy that is not a truth value. -/
inductive ProperInt : Lit F → Prop
  | int (a : ℤ) : ProperInt (.int a)
  | npint (a : ℤ) : ProperInt (.npint a)

/-- A number of Python or numpy that is not a truth value. -/
inductive ProperNum : Lit F → Prop
  | int {v : Lit F} : ProperInt v → ProperNum v
  | float (x : F) : ProperNum (.float x)
  | npfloat (x : F) : ProperNum (.npfloat x)

/-- A string or a truth value. -/
inductive StrOrBool : Lit F → Prop
  | str (s : String) : StrOrBool (.str s)
  | bool (b : Bool) : StrOrBool (.bool b)
  | npbool (b : Bool) : StrOrBool (.npbool b)

/-- The bounds of a specification with a prior: the name of the prior, and an integer base or none. -/
def WithPrior (spec : List (Lit F)) (a b : Lit F) : Prop :=
  (∃ p, (p = "uniform" ∨ p = "log-uniform") ∧ spec = [a, b, .str p]) ∨
  ∃ c, PyInt c ∧ spec = [a, b, .str "log-uniform", c]

/-- The specifications taken for an `Integer`. -/
def SaysInteger (spec : List (Lit F)) : Prop :=
  ∃ a b, (spec = [a, b] ∧ ProperInt a ∧ ProperInt b) ∨ (WithPrior spec a b ∧ (PyInt a ∨ PyInt b))

/-- The specifications taken for a `Real`. -/
def SaysReal (spec : List (Lit F)) : Prop :=
  ∃ a b,
    (spec = [a, b] ∧ (ProperNum a ∨ ProperNum b) ∧ ¬ (ProperInt a ∧ ProperInt b) ∧ ¬ StrOrBool a ∧
      ¬ StrOrBool b) ∨
    (WithPrior spec a b ∧ ¬ PyInt a ∧ ¬ PyInt b ∧ ((∃ x, a = .float x) ∨ ∃ x, b = .float x))

theorem isInt_iff (v : Lit F) : v.isInt = true ↔ PyInt v := by
  constructor
  · intro h; cases v <;> simp [Lit.isInt] at h <;> constructor
  · rintro (_ | _) <;> rfl

theorem isFloatOrInt_iff (v : Lit F) : v.isFloatOrInt = true ↔ PyInt v ∨ ∃ x, v = .float x := by
  constructor
  · intro h
    cases v <;> simp [Lit.isFloatOrInt] at h
    · exact .inl (.int _)
    · exact .inr ⟨_, rfl⟩
    · exact .inl (.bool _)
  · rintro ((_ | _) | ⟨x, rfl⟩) <;> rfl

theorem isStrOrBool_iff (v : Lit F) : v.isStrOrBool = true ↔ StrOrBool v := by
  constructor
  · intro h; cases v <;> simp [Lit.isStrOrBool] at h <;> constructor
  · rintro (_ | _ | _) <;> rfl

theorem isIntegral_iff {v : Lit F} (hv : ¬ StrOrBool v) : v.isIntegral = true ↔ ProperInt v := by
  constructor
  · intro h
    cases v <;> simp [Lit.isIntegral] at h
    · exact .int _
    · exact absurd (.bool _) hv
    · exact .npint _
  · rintro (_ | _) <;> rfl

theorem isReal_iff {v : Lit F} (hv : ¬ StrOrBool v) : v.isReal = true ↔ ProperNum v := by
  constructor
  · intro h
    cases v <;> simp [Lit.isReal] at h
    · exact .int (.int _)
    · exact .float _
    · exact absurd (.bool _) hv
    · exact .int (.npint _)
    · exact .npfloat _
  · rintro ((_ | _) | _ | _) <;> rfl

theorem isPrior_iff (v : Lit F) :
    v.isPrior = true ↔ ∃ p, (p = "uniform" ∨ p = "log-uniform") ∧ v = .str p := by
  constructor
  · intro h
    cases v <;> simp [Lit.isPrior] at h
    exact ⟨_, h, rfl⟩
  · rintro ⟨p, rfl | rfl, rfl⟩ <;> rfl

theorem isLogUniform_iff (v : Lit F) : v.isLogUniform = true ↔ v = .str "log-uniform" := by
  constructor
  · intro h
    cases v <;> simp [Lit.isLogUniform] at h
    rw [h]
  · rintro rfl; rfl

/-- **C10 (exactly).** Which specifications become an `Integer`, which a `Real`; all others that are not
rejected are lists of categories. -/
theorem C10_kinds_partial (spec : List (Lit F)) :
    (checkDimension spec = .ok .integer ↔ SaysInteger spec) ∧
    (checkDimension spec = .ok .real ↔ SaysReal spec) ∧
    (checkDimension spec = .ok .categorical ↔
      ¬ SaysInteger spec ∧ ¬ SaysReal spec ∧ spec ≠ [] ∧ ¬ ∃ i j, spec = [.other i, .other j]) := by
  have key : (checkDimension spec = .ok .integer ↔ SaysInteger spec) ∧
      (checkDimension spec = .ok .real ↔ SaysReal spec) := by
    match spec with
    | [] => simp [checkDimension, SaysInteger, SaysReal, WithPrior]
    | [_] => simp [checkDimension, SaysInteger, SaysReal, WithPrior]
    | [a, b] =>
      simp only [checkDimension, SaysInteger, SaysReal, WithPrior, List.cons.injEq, and_true, reduceCtorEq,
        and_false, exists_false, or_false, false_and]
      have c1 : (a.isStrOrBool || b.isStrOrBool) = true ↔ StrOrBool a ∨ StrOrBool b := by
        rw [Bool.or_eq_true, isStrOrBool_iff, isStrOrBool_iff]
      by_cases ha : StrOrBool a
      · rw [if_pos (c1.2 (.inl ha))]
        refine ⟨⟨fun h => by simp at h, ?_⟩, ⟨fun h => by simp at h, ?_⟩⟩
        · rintro ⟨_, _, ⟨rfl, rfl⟩, h, -⟩; cases h <;> cases ha
        · rintro ⟨_, _, ⟨rfl, rfl⟩, -, -, h, -⟩; exact absurd ha h
      by_cases hb : StrOrBool b
      · rw [if_pos (c1.2 (.inr hb))]
        refine ⟨⟨fun h => by simp at h, ?_⟩, ⟨fun h => by simp at h, ?_⟩⟩
        · rintro ⟨_, _, ⟨rfl, rfl⟩, -, h⟩; cases h <;> cases hb
        · rintro ⟨_, _, ⟨rfl, rfl⟩, -, -, -, h⟩; exact absurd hb h
      rw [if_neg (fun h => (c1.1 h).elim ha hb)]
      have c2 : (a.isIntegral && b.isIntegral) = true ↔ ProperInt a ∧ ProperInt b := by
        rw [Bool.and_eq_true, isIntegral_iff ha, isIntegral_iff hb]
      have c3 : (a.isReal || b.isReal) = true ↔ ProperNum a ∨ ProperNum b := by
        rw [Bool.or_eq_true, isReal_iff ha, isReal_iff hb]
      by_cases hi : ProperInt a ∧ ProperInt b
      · rw [if_pos (c2.2 hi)]
        refine ⟨⟨fun _ => ⟨a, b, ⟨rfl, rfl⟩, hi⟩, fun _ => rfl⟩, ⟨fun h => by simp at h, ?_⟩⟩
        rintro ⟨_, _, ⟨rfl, rfl⟩, -, h, -⟩; exact absurd hi h
      · rw [if_neg (fun h => hi (c2.1 h))]
        refine ⟨⟨fun h => by split at h <;> simp at h, ?_⟩, ⟨fun h => ?_, ?_⟩⟩
        · rintro ⟨_, _, ⟨rfl, rfl⟩, h⟩; exact absurd h hi
        · split at h
          · next hr => exact ⟨a, b, ⟨rfl, rfl⟩, c3.1 hr, hi, ha, hb⟩
          · simp at h
        · rintro ⟨_, _, ⟨rfl, rfl⟩, h, -⟩; rw [if_pos (c3.2 h)]
    | [a, b, p] =>
      simp only [checkDimension]
      have c1 : ((a.isInt || b.isInt) && p.isPrior) = true ↔
          (PyInt a ∨ PyInt b) ∧ ∃ q, (q = "uniform" ∨ q = "log-uniform") ∧ p = .str q := by
        rw [Bool.and_eq_true, Bool.or_eq_true, isInt_iff, isInt_iff, isPrior_iff]
      have c2 : ((a.isFloatOrInt || b.isFloatOrInt) && p.isPrior) = true ↔
          ((PyInt a ∨ ∃ x, a = .float x) ∨ PyInt b ∨ ∃ x, b = .float x) ∧
            ∃ q, (q = "uniform" ∨ q = "log-uniform") ∧ p = .str q := by
        rw [Bool.and_eq_true, Bool.or_eq_true, isFloatOrInt_iff, isFloatOrInt_iff, isPrior_iff]
      have hw : ∀ x y, WithPrior [a, b, p] x y ↔
          (a = x ∧ b = y) ∧ ∃ q, (q = "uniform" ∨ q = "log-uniform") ∧ p = .str q := by
        intro x y
        simp only [WithPrior, List.cons.injEq, and_true, reduceCtorEq, and_false, exists_false, or_false]
        constructor
        · rintro ⟨q, hq, h1, h2, h3⟩; exact ⟨⟨h1, h2⟩, q, hq, h3⟩
        · rintro ⟨⟨h1, h2⟩, q, hq, h3⟩; exact ⟨q, hq, h1, h2, h3⟩
      simp only [SaysInteger, SaysReal, hw, List.cons.injEq, reduceCtorEq, and_false, false_and, false_or]
      by_cases hp : ∃ q, (q = "uniform" ∨ q = "log-uniform") ∧ p = .str q
      · simp only [hp, and_true] at c1 c2 ⊢
        by_cases hi : PyInt a ∨ PyInt b
        · rw [if_pos (c1.2 hi)]
          refine ⟨⟨fun _ => ⟨a, b, ⟨rfl, rfl⟩, hi⟩, fun _ => rfl⟩, ⟨fun h => by simp at h, ?_⟩⟩
          rintro ⟨_, _, ⟨rfl, rfl⟩, h1, h2, -⟩; exact absurd hi (by tauto)
        · rw [if_neg (fun h => hi (c1.1 h))]
          refine ⟨⟨fun h => by split at h <;> simp at h, ?_⟩, ⟨fun h => ?_, ?_⟩⟩
          · rintro ⟨_, _, ⟨rfl, rfl⟩, h⟩; exact absurd h hi
          · split at h
            · next h2 => exact ⟨a, b, ⟨rfl, rfl⟩, by have := c2.1 h2; tauto⟩
            · simp at h
          · rintro ⟨_, _, ⟨rfl, rfl⟩, -, -, h⟩; rw [if_pos (c2.2 (by tauto))]
      · rw [if_neg (fun h => hp (c1.1 h).2), if_neg (fun h => hp (c2.1 h).2)]; simp [hp]
    | [a, b, p, c] =>
      simp only [checkDimension]
      have c1 : ((a.isInt || b.isInt) && p.isLogUniform && c.isInt) = true ↔
          (PyInt a ∨ PyInt b) ∧ p = .str "log-uniform" ∧ PyInt c := by
        rw [Bool.and_eq_true, Bool.and_eq_true, Bool.or_eq_true, isInt_iff, isInt_iff, isInt_iff,
          isLogUniform_iff, and_assoc]
      have c2 : ((a.isFloatOrInt || b.isFloatOrInt) && p.isLogUniform && c.isInt) = true ↔
          ((PyInt a ∨ ∃ x, a = .float x) ∨ PyInt b ∨ ∃ x, b = .float x) ∧
            p = .str "log-uniform" ∧ PyInt c := by
        rw [Bool.and_eq_true, Bool.and_eq_true, Bool.or_eq_true, isFloatOrInt_iff, isFloatOrInt_iff, isInt_iff,
          isLogUniform_iff, and_assoc]
      have hw : ∀ x y, WithPrior [a, b, p, c] x y ↔ (a = x ∧ b = y) ∧ p = .str "log-uniform" ∧ PyInt c := by
        intro x y
        simp only [WithPrior, List.cons.injEq, reduceCtorEq, and_false, exists_false, false_or, and_true]
        constructor
        · rintro ⟨q, hq, h1, h2, h3, rfl⟩; exact ⟨⟨h1, h2⟩, h3, hq⟩
        · rintro ⟨⟨h1, h2⟩, h3, hq⟩; exact ⟨c, hq, h1, h2, h3, rfl⟩
      simp only [SaysInteger, SaysReal, hw, List.cons.injEq, reduceCtorEq, and_false, false_and, false_or]
      by_cases hp : p = .str "log-uniform" ∧ PyInt c
      · simp only [hp, and_true] at c1 c2 ⊢
        by_cases hi : PyInt a ∨ PyInt b
        · rw [if_pos (c1.2 hi)]
          refine ⟨⟨fun _ => ⟨a, b, ⟨rfl, rfl⟩, hi⟩, fun _ => rfl⟩, ⟨fun h => by simp at h, ?_⟩⟩
          rintro ⟨_, _, ⟨rfl, rfl⟩, h1, h2, -⟩; exact absurd hi (by tauto)
        · rw [if_neg (fun h => hi (c1.1 h))]
          refine ⟨⟨fun h => by split at h <;> simp at h, ?_⟩, ⟨fun h => ?_, ?_⟩⟩
          · rintro ⟨_, _, ⟨rfl, rfl⟩, h⟩; exact absurd h hi
          · split at h
            · next h2 => exact ⟨a, b, ⟨rfl, rfl⟩, by have := c2.1 h2; tauto⟩
            · simp at h
          · rintro ⟨_, _, ⟨rfl, rfl⟩, -, -, h⟩; rw [if_pos (c2.2 (by tauto))]
      · rw [if_neg (fun h => hp (c1.1 h).2), if_neg (fun h => hp (c2.1 h).2)]; simp [hp]
    | _ :: _ :: _ :: _ :: _ :: _ => simp [checkDimension, SaysInteger, SaysReal, WithPrior]
  refine ⟨key.1, key.2, ?_⟩
  rw [← key.1, ← key.2]
  have hr := (C10_check_dimension_partial spec).2
  cases h : checkDimension spec with
  | error e =>
    have := (hr e).1 h
    constructor
    · intro h; cases h
    · rintro ⟨-, -, h1, h2⟩
      rcases this.2 with h | h
      · exact absurd h h1
      · exact absurd h h2
  | ok k =>
    have h1 : spec ≠ [] := fun h' => by
      have := (hr .valueError).2 ⟨rfl, .inl h'⟩; rw [h] at this; cases this
    have h2 : ¬ ∃ i j, spec = [.other i, .other j] := fun h' => by
      have := (hr .valueError).2 ⟨rfl, .inr h'⟩; rw [h] at this; cases this
    cases k <;> simp [h1, h2]

/-- An `Integer`, a `Real` and categories. -/
example : SaysInteger [Lit.bool true, .float (5/2 : ℚ), .str "log-uniform", .int 2] ∧
    SaysReal [Lit.npint 1, .npfloat (5/2 : ℚ)] ∧
    checkDimension (F := ℚ) [.npint 1, .npint 5, .str "uniform"] = .ok .categorical ∧
    ¬ SaysReal (F := ℚ) [.npint 1, .npint 5, .str "uniform"] := by
  refine ⟨⟨_, _, .inr ⟨.inr ⟨_, .int 2, rfl⟩, .inl (.bool _)⟩⟩,
    ⟨_, _, .inl ⟨rfl, .inl (.int (.npint 1)), ?_, ?_, ?_⟩⟩, rfl,
    ((C10_kinds_partial _).2.2.1 rfl).2.1⟩
  · rintro ⟨-, h⟩; cases h
  · intro h; cases h
  · intro h; cases h

end Skopt

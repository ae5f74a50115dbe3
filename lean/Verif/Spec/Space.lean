import Verif.Model.Space
import Mathlib.Order.Monotone.Defs
import Mathlib.Data.List.Forall2

/-!
# Specification vocabulary for search spaces

Only the data of the dimensions is used here, none of the model's functions.
-/

namespace Skopt

variable {F : Type}

/-- `v` is a legal value of dimension `d`: a number between the bounds (an integer, for `Integer`),
or one of the categories. -/
def Legal [LinearOrder F] (A : Arith F) : Dim F → Val F → Prop
  | .real d, v => ∃ x : F, v = .num x ∧ d.low ≤ x ∧ x ≤ d.high
  | .int d, v => ∃ k : ℤ, v = .num (A.ofInt k) ∧ d.low ≤ A.ofInt k ∧ A.ofInt k ≤ d.high
  | .cat d, v => v ∈ d.cats

/-- A point of the space: one legal value per dimension, in order. -/
def InSpace [LinearOrder F] (A : Arith F) (dims : List (Dim F)) (p : Point F) : Prop :=
  List.Forall₂ (Legal A) dims p

/-- `v` lies inside dimension `d` as far as the code checks: a number between the bounds (not
necessarily an integer for `Integer`), or one of the categories. -/
def Within [LinearOrder F] : Dim F → Val F → Prop
  | .real d, v => ∃ x : F, v = .num x ∧ d.low ≤ x ∧ x ≤ d.high
  | .int d, v => ∃ x : F, v = .num x ∧ d.low ≤ x ∧ x ≤ d.high
  | .cat d, v => v ∈ d.cats

/-- The categories do not mix strings with numbers and contain no nested sequences. -/
def Homogeneous (cats : List (Val F)) : Prop :=
  (∀ v ∈ cats, v.isSeq = false) ∧
  ((∀ v ∈ cats, v.isStr = false) ∨ (∀ v ∈ cats, v.isNum = false))

/-- A dimension whose constructor arguments make sense: `low < high` (checked by the code),
`dtype` conversions that keep the bounds, integer bounds for `Integer`, distinct and type-homogeneous
categories. -/
def ValidDim [LinearOrder F] (A : Arith F) : Dim F → Prop
  | .real d => d.low < d.high ∧ (d.transform = .identity ∨ d.transform = .normalize) ∧
      ∀ x, d.low ≤ x → x ≤ d.high → d.low ≤ d.cast x ∧ d.cast x ≤ d.high
  | .int d => ∃ l h : ℤ, l < h ∧ d.low = A.ofInt l ∧ d.high = A.ofInt h ∧
      A.round d.low = l ∧ A.round d.high = h ∧
      (d.transform = .identity ∨ d.transform = .normalize) ∧
      ∀ k, l ≤ k → k ≤ h → d.wrap k = k
  | .cat d => d.cats ≠ [] ∧ d.cats.Nodup ∧ Homogeneous d.cats

/-- The categorical transforms whose inverse decodes numbers to categories. -/
def Decoding : Dim F → Prop
  | .cat d => d.transform = .onehot ∨ d.transform = .label ∨ d.transform = .normalize
  | _ => True

/-- Rounding and int → float conversion preserve order (true of IEEE arithmetic). -/
structure OrderlyRounding [LinearOrder F] (A : Arith F) : Prop where
  round_mono : Monotone A.round
  ofInt_mono : Monotone A.ofInt

/-- Conditions under which the transform of a dimension has an inverse at all: a log prior needs
positive bounds and a base above one (the code accepts other values), and the `string` transform
needs categories whose type reads its own `str` back. -/
def Invertible [LinearOrder F] (zero one : F) : Dim F → Prop
  | .real d => d.prior = .logUniform → zero < d.low ∧ one < d.base
  | .int d => d.prior = .logUniform → zero < d.low ∧ one < d.base
  | .cat d => d.transform = .string → ∀ v ∈ d.cats, d.castStr (d.str v) = .ok v

/-- The value survives the conversion to the dimension's `dtype` (always true for the default
dtypes). -/
def Representable : Dim F → Val F → Prop
  | .real d, .num x => d.cast x = x
  | _, _ => True

/-- The transformed column of the dimension contains no strings. -/
def YieldsNoStr : Dim F → Prop
  | .cat d => d.transform ≠ .string ∧ (d.transform = .identity → ∀ v ∈ d.cats, v.isStr = false)
  | _ => True

/-- The transformed column of the dimension contains no numbers. -/
def YieldsNoNum : Dim F → Prop
  | .cat d => d.transform = .string ∨ (d.transform = .identity ∧ ∀ v ∈ d.cats, v.isNum = false)
  | _ => False

/-- Laws of arithmetic that hold for real numbers and for every correctly rounded floating point
arithmetic (rounding is monotone and exact results are not changed) as long as nothing overflows;
`log10` is assumed monotone and exact at 10. -/
structure MonoArith [LinearOrder F] (A : Arith F) : Prop where
  ofInt_mono : Monotone A.ofInt
  sub_mono : ∀ {a b : F} (c : F), a ≤ b → A.sub a c ≤ A.sub b c
  sub_self : ∀ a : F, A.sub a a = A.ofInt 0
  div_mono : ∀ {a b c : F}, A.ofInt 0 < c → a ≤ b → A.div a c ≤ A.div b c
  div_self : ∀ {c : F}, A.ofInt 0 < c → A.div c c = A.ofInt 1
  zero_div : ∀ {c : F}, A.ofInt 0 < c → A.div (A.ofInt 0) c = A.ofInt 0
  div_one : ∀ a : F, A.div a (A.ofInt 1) = a
  mul_zero : ∀ a : F, A.mul a (A.ofInt 0) = A.ofInt 0
  log10_mono : ∀ {a b : F}, A.ofInt 0 < a → a ≤ b → A.log10 a ≤ A.log10 b
  log10_pos : ∀ {a : F}, A.ofInt 1 < a → A.ofInt 0 < A.log10 a
  log10_ten : A.log10 (A.ofInt 10) = A.ofInt 1

/-- The dimensions for which `transformed_bounds` really bounds the transformed values. -/
def GoodBounds (A : Arith F) : Dim F → Prop
  | .real d => d.transform = .normalize ∨ d.prior = .uniform ∨ d.base = A.ofInt 10
  | .int d => d.transform = .normalize ∨ d.prior = .uniform
  | .cat d => d.transform = .onehot ∨ d.transform = .normalize

end Skopt

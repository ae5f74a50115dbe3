import Verif.Spec.Optimizer
import Verif.Spec.Space
import Verif.Model.Sampler
import Verif.Model.Minimize
import Verif.Model.Exact

/-!
# Changing the units of a search space: specification

The two spaces describe the same parameters in other words: other names, metres instead of feet, another
spelling of the categories, another base of the logarithm.  A point is carried from one to the other
component by component.
-/

namespace Skopt

variable {F M R G : Type}

/-! ### Mapping points, states and outcomes -/

/-- Apply the `i`-th map to the `i`-th component. -/
def relabel : List (Val F → Val F) → Point F → Point F
  | f :: fs, v :: vs => f v :: relabel fs vs
  | _, vs => vs

/-- Apply the maps to a recorded entry. -/
def relabelVal (fs : List (Val F → Val F)) : Val F → Val F
  | .seq p => .seq (relabel fs p)
  | v => v

/-- The result with all points mapped. -/
def Result.relabel (fs : List (Val F → Val F)) (r : Result F M) : Result F M :=
  { r with x := relabelVal fs r.x, xIters := r.xIters.map (relabelVal fs) }

/-- The outcome with all points mapped. -/
def Out.relabel (fs : List (Val F → Val F)) : Out F M → Out F M
  | .point p => .point (Skopt.relabel fs p)
  | .points ps => .points (ps.map (Skopt.relabel fs))
  | .result r => .result (r.relabel fs)
  | .none => .none

/-- The call with all points mapped. -/
def Call.relabel (fs : List (Val F → Val F)) : Call F → Call F
  | .one p y fit => .one (Skopt.relabel fs p) y fit
  | .batch obs fit => .batch (obs.map fun o => (Skopt.relabel fs o.1, o.2)) fit
  | c => c

/-- The event with its points mapped. -/
def Event.relabel (fs : List (Val F → Val F)) : Event F M → Event F M
  | .eval x => .eval (relabelVal fs x)
  | .call i r d => .call i (r.relabel fs) d

/-- The starting points of the two runs: none, or the same list of points. -/
inductive SameStarts (fs : List (Val F → Val F)) : X0 F → X0 F → Prop
  | none : SameStarts fs .none .none
  | points (ps : List (Point F)) :
    SameStarts fs (.list (ps.map .seq)) (.list ((ps.map (relabel fs)).map .seq))

/-! ### Changes of units -/

/-- Apply a function to the numbers. -/
def onNum (g : F → F) : Val F → Val F
  | .num x => .num (g x)
  | v => v

/-- The dimension under another name. -/
def Dim.rename (nm : Option String) : Dim F → Dim F
  | .real d => .real { d with name := nm }
  | .int d => .int { d with name := nm }
  | .cat d => .cat { d with name := nm }

/-- A renaming of categories that keeps numbers numbers and strings strings, and two categories apart. -/
structure Renaming (f : Val F → Val F) : Prop where
  injective : Function.Injective f
  isSeq : ∀ v, (f v).isSeq = v.isSeq
  isStr : ∀ v, (f v).isStr = v.isStr
  isNum : ∀ v, (f v).isNum = v.isNum
  isObj : ∀ v, (f v).isObj = v.isObj

/-- `d'` describes the same parameter as `d`, a value `v` of `d` being called `f v` in `d'`. -/
inductive UnitChange : Dim ℝ → Dim ℝ → (Val ℝ → Val ℝ) → Prop
  /-- another name for the dimension -/
  | name {d : Dim ℝ} (nm : Option String) (hv : ValidDim exact d) (hd : Decoding d) :
      UnitChange d (d.rename nm) id
  /-- another linear unit and another zero for a normalized `Real` (feet, degrees Celsius); the base of the
  unused logarithm may change too -/
  | linear {lo hi : ℝ} (a c b b' : ℝ) (nm : Option String) (hlh : lo < hi) (ha : 0 < a) :
      UnitChange (.real ⟨lo, hi, .uniform, b, .normalize, nm, id⟩)
        (.real ⟨a * lo + c, a * hi + c, .uniform, b', .normalize, nm, id⟩) (onNum fun x => a * x + c)
  /-- another unit, power and base of the logarithm for a normalized log-uniform `Real` (learning rate in
  percent, variance instead of standard deviation) -/
  | power {lo hi : ℝ} (a c : ℝ) {b b' : ℝ} (nm : Option String) (hlo : 0 < lo) (hlh : lo < hi) (ha : 0 < a)
      (hc : 0 < c) (hb : 1 < b) (hb' : 1 < b') :
      UnitChange (.real ⟨lo, hi, .logUniform, b, .normalize, nm, id⟩)
        (.real ⟨c * lo ^ a, c * hi ^ a, .logUniform, b', .normalize, nm, id⟩)
        (onNum fun x => if 0 < x then c * x ^ a else x)
  /-- another zero for a normalized `Integer`, an even number away -/
  | shift {l h : ℤ} (k : ℤ) (b b' : ℝ) (nm : Option String) (hlh : l < h) :
      UnitChange (.int ⟨(l : ℝ), (h : ℝ), .uniform, b, .normalize, nm, id⟩)
        (.int ⟨((l + 2 * k : ℤ) : ℝ), ((h + 2 * k : ℤ) : ℝ), .uniform, b', .normalize, nm, id⟩)
        (onNum fun x => x + (2 * k : ℤ))
  /-- another base of the logarithm for a normalized log-uniform `Integer` -/
  | base {l h : ℤ} {b b' : ℝ} (nm : Option String) (hl : 0 < l) (hlh : l < h) (hb : 1 < b) (hb' : 1 < b') :
      UnitChange (.int ⟨(l : ℝ), (h : ℝ), .logUniform, b, .normalize, nm, id⟩)
        (.int ⟨(l : ℝ), (h : ℝ), .logUniform, b', .normalize, nm, id⟩) id
  /-- other words for one-hot encoded categories -/
  | onehot {cats : List (Val ℝ)} {f : Val ℝ → Val ℝ} (pr : Option (List ℝ)) (nm : Option String)
      (str str' : Val ℝ → String) (cs cs' : String → Except PyErr (Val ℝ)) (hf : Renaming f)
      (hne : cats ≠ []) (hnd : cats.Nodup) (hh : Homogeneous cats) :
      UnitChange (.cat ⟨cats, pr, .onehot, nm, str, cs⟩) (.cat ⟨cats.map f, pr, .onehot, nm, str', cs'⟩) f
  /-- other words for normalized categories, in the same alphabetical order -/
  | normalized {cats : List (Val ℝ)} {f : Val ℝ → Val ℝ} (pr : Option (List ℝ)) (nm : Option String)
      (str str' : Val ℝ → String) (cs cs' : String → Except PyErr (Val ℝ)) (hf : Renaming f)
      (hle : ∀ a ∈ cats, ∀ b ∈ cats, valLe (f a) (f b) = valLe a b)
      (hne : cats ≠ []) (hnd : cats.Nodup) (hh : Homogeneous cats) :
      UnitChange (.cat ⟨cats, pr, .normalize, nm, str, cs⟩)
        (.cat ⟨cats.map f, pr, .normalize, nm, str', cs'⟩) f
  /-- one change after another -/
  | trans {d d' d'' : Dim ℝ} {f g : Val ℝ → Val ℝ} (h : UnitChange d d' f) (h' : UnitChange d' d'' g) :
      UnitChange d d'' (g ∘ f)

/-- Dimension by dimension. -/
inductive UnitChanges : List (Dim ℝ) → List (Dim ℝ) → List (Val ℝ → Val ℝ) → Prop
  | nil : UnitChanges [] [] []
  | cons {d d' f ds ds' fs} (h : UnitChange d d' f) (hs : UnitChanges ds ds' fs) :
      UnitChanges (d :: ds) (d' :: ds') (f :: fs)

/-! ### Sessions -/

/-- Build an optimizer and make the calls in order: the error of the constructor, or the outcomes of the
calls. -/
def session [LinearOrder F] (A : Arith F) (W : World F M R G) (dims : List (Dim F)) (gen : Option G)
    (cfg : Config) (rng : R) (calls : List (Call F)) : Except PyErr (List (Except PyErr (Out F M))) :=
  match (Opt.init A W ⟨dims, gen⟩ cfg rng : Shared F G × Except PyErr (Opt F M R)) with
  | (_, .error e) => .error e
  | (sh, .ok s) => .ok (runOps A W sh s (calls.map Call.toOp)).2.2

/-- What scipy draws for the dimensions depends only on the distributions they are asked to sample from, and
there is one list of draws per dimension. -/
structure UnitFree [LinearOrder F] (A : Arith F) (W : World F M R G) : Prop where
  draws : ∀ r (ds ds' : List (Dim F)) n, ds.map (Dim.sampler A) = ds'.map (Dim.sampler A) →
    W.draws r ds n = W.draws r ds' n
  width : ∀ r (ds : List (Dim F)) n, (W.draws r ds n).2.length = ds.length

/-- An initial point generator gives the same design on both spaces, carried over, with points inside the
space. -/
def SameDesigns [LinearOrder F] (W : World F M R G) (dims dims' : List (Dim F)) (fs : List (Val F → Val F)) :
    Prop :=
  ∀ g n r, ∃ g' ps, W.generate g dims n r = (g', dims, ps) ∧
    W.generate g dims' n r = (g', dims', ps.map (List.map (relabel fs))) ∧
    ∀ qs, ps = .ok qs → ∀ p ∈ qs, List.Forall₂ Within dims p

/-- The dimension as the surrogate sees it: a Gaussian process normalizes it. -/
def Dim.usedBy (gp : Bool) (d : Dim F) : Dim F :=
  if gp then match d with
    | .real d => .real { d with transform := .normalize }
    | .int d => .int { d with transform := .normalize }
    | .cat d => .cat { d with transform := .normalize }
  else d

end Skopt

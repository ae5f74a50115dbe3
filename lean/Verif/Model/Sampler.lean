import Verif.Model.Space

/-!
# The frozen scipy distribution that a dimension samples from

Only its arguments: what scipy draws from it is a parameter of the model.
-/

namespace Skopt

variable {F : Type}

/-- `self._rvs`: `_uniform_inclusive(loc, scale)`, `randint(low, high)` or `rv_discrete` over the positions of
the categories with the given weights (`none` stands for equal weights, space.py:616-620).
(skopt/space/space.py:205-209, 302-324, 490-511, 653-659) -/
inductive Sampler (F : Type) where
  | uniform (loc scale : F)
  | randint (low high : F)
  | discrete (n : Nat) (weights : Option (List F))

/-- `self._rvs` as set by `set_transformer`: `Real` space.py:302-324, `Integer` 490-511, `Categorical` 653-659. -/
def Dim.sampler (A : Arith F) : Dim F → Sampler F
  | .real d =>
    let lg : F → F := fun x => A.div (A.log10 x) (A.log10 d.base)
    match d.transform, d.prior with
    | .normalize, _ => .uniform (A.ofInt 0) (A.ofInt 1)
    | _, .uniform => .uniform d.low (A.sub d.high d.low)
    | _, .logUniform => .uniform (lg d.low) (A.sub (lg d.high) (lg d.low))
  | .int d =>
    let lg : F → F := fun x => A.div (A.log10 x) (A.log10 d.base)
    match d.transform, d.prior with
    | .normalize, _ => .uniform (A.ofInt 0) (A.ofInt 1)
    | _, .uniform => .randint d.low (A.add d.high (A.ofInt 1))
    | _, .logUniform => .uniform (lg d.low) (A.sub (lg d.high) (lg d.low))
  | .cat c => match c.transform with
    | .normalize => .uniform (A.ofInt 0) (A.ofInt 1)
    | _ => .discrete c.cats.length c.prior

end Skopt

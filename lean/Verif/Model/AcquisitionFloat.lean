import Verif.Basic

/-!
# LCB, PI and EI of one candidate, in any arithmetic: skopt/acquisition.py:129-146, 71-72, 212-216, 295-303

`Model/Acquisition.lean` has the same functions over the real numbers, for all candidates at once.
-/

namespace Skopt

variable {F : Type}

/-- `gaussian_lcb` at one row, acquisition.py:143-146: `none` stands for `kappa == "inf"`; `-std` is written as `0 - std`. -/
def lcbAt (A : Arith F) (kappa : Option F) (mu std : F) : F :=
  match kappa with
  | none => A.sub (A.ofInt 0) std
  | some k => A.sub mu (A.mul k std)

/-- `gaussian_pi` at one row, acquisition.py:212-216; `cdf` is `scipy.stats.norm.cdf`. -/
def piAt [LinearOrder F] (A : Arith F) (cdf : F → F) (yOpt xi mu std : F) : F :=
  if A.ofInt 0 < std then cdf (A.div (A.sub (A.sub yOpt xi) mu) std) else A.ofInt 0

/-- `gaussian_ei` at one row, acquisition.py:295-303; `cdf` and `pdf` are those of `scipy.stats.norm`. -/
def eiAt [LinearOrder F] (A : Arith F) (cdf pdf : F → F) (yOpt xi mu std : F) : F :=
  if A.ofInt 0 < std then
    let improve := A.sub (A.sub yOpt xi) mu
    let scaled := A.div improve std
    A.add (A.mul improve (cdf scaled)) (A.mul std (pdf scaled))
  else A.ofInt 0

/-- `np.exp(-mu + 0.5*std**2)` at one row, acquisition.py:71-72: `mu` and `std` are the prediction of the time model; `-mu` is
written as `0 - mu`, and `exp` is `np.exp`. -/
def rateAt (A : Arith F) (exp : F → F) (mu std : F) : F :=
  exp (A.add (A.sub (A.ofInt 0) mu) (A.mul A.half (A.mul std std)))

/-- `acq_vals *= inv_t` at one row, acquisition.py:71-72: `acq` is the negated EI or PI. -/
def perSecondAt (A : Arith F) (exp : F → F) (acq mu std : F) : F :=
  A.mul acq (rateAt A exp mu std)

end Skopt

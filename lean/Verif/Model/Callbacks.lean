import Verif.Model.Minimize
import Mathlib.Data.List.Sort

/-!
# The early stoppers: `/repo/skopt/callbacks.py`

Values are `Flt F` (a number or NaN).  A criterion answers `some true`, `some false` or `none`.
`CheckpointSaver`, `VerboseCallback`'s printing and `TimerCallback` are in `Model/Reporting.lean`;
`DeadlineStopper` is modelled over the sequence of its clock readings.
-/

namespace Skopt

variable {F M : Type}

/-- `a - b` on values that may be NaN (numpy float subtraction), callbacks.py:216, 238. -/
def Flt.sub (A : Arith F) : Flt F → Flt F → Flt F
  | .fin x, .fin y => .fin (A.sub x y)
  | _, _ => .nan

/-- `a < d`; false for NaN, callbacks.py:216. -/
def Flt.ltF [LinearOrder F] : Flt F → F → Bool
  | .fin x, d => decide (x < d)
  | .nan, _ => false

/-- `a <= d`; false for NaN, callbacks.py:238, 284. -/
def Flt.leF [LinearOrder F] : Flt F → F → Bool
  | .fin x, d => decide (x ≤ d)
  | .nan, _ => false

/-- The order used by `np.sort`: numbers ascending, NaN last, callbacks.py:211. -/
def Flt.sortLe [LinearOrder F] : Flt F → Flt F → Bool
  | _, .nan => true
  | .nan, .fin _ => false
  | .fin x, .fin y => decide (x ≤ y)

/-- `np.minimum` of two values; NaN wins, callbacks.py:237. -/
def Flt.minimum [LinearOrder F] : Flt F → Flt F → Flt F
  | .fin x, .fin y => .fin (if y < x then y else x)
  | _, _ => .nan

/-- The running minimum starting from `m`, callbacks.py:237. -/
def cumminFrom [LinearOrder F] (m : Flt F) : List (Flt F) → List (Flt F)
  | [] => [m]
  | v :: vs => m :: cumminFrom (Flt.minimum m v) vs

/-- `np.minimum.accumulate(func_vals)`, callbacks.py:237. -/
def cummin [LinearOrder F] : List (Flt F) → List (Flt F)
  | [] => []
  | v :: vs => cumminFrom v vs

/-- `DeltaXStopper._criterion`, callbacks.py:189-195; `dims` is `result.space`.  Points that are not
sequences cannot reach this code (the optimizer refuses them); they are answered with `TypeError`. -/
def deltaX [LinearOrder F] (A : Arith F) (dims : List (Dim F)) (delta : F) (xIters : List (Val F)) :
    Except PyErr (Option Bool) :=
  if 2 ≤ xIters.length then do
    let a ← pyGetI xIters (-2)
    let b ← pyGetI xIters (-1)
    match a, b with
    | .seq p, .seq q => do
      let d ← Space.distance A dims p q
      .ok (some (decide (d < delta)))
    | _, _ => .error .typeError
  else .ok none

/-- `DeltaYStopper._criterion`, callbacks.py:209-219; which sorting algorithm is used does not matter
(equal values are indistinguishable). -/
def deltaY [LinearOrder F] (A : Arith F) (delta : F) (nBest : ℤ) (funcVals : List (Flt F)) :
    Except PyErr (Option Bool) :=
  if nBest ≤ funcVals.length then do
    let sorted := funcVals.insertionSort fun a b => Flt.sortLe a b = true
    let worst ← pyGetI sorted (nBest - 1)
    let best ← pyGet sorted 0
    .ok (some (Flt.ltF (Flt.sub A worst best) delta))
  else .ok none

/-- `abs(threshold)` of the constructor, callbacks.py:230. -/
def pyAbs [LinearOrder F] (A : Arith F) (x : F) : F :=
  if x < A.ofInt 0 then A.sub (A.ofInt 0) x else x

/-- `HollowIterationsStopper`, callbacks.py:227-238 (constructor and criterion). -/
def hollow [LinearOrder F] (A : Arith F) (n : ℤ) (threshold : F) (funcVals : List (Flt F)) :
    Except PyErr (Option Bool) :=
  if (funcVals.length : ℤ) ≤ n then .ok (some false)
  else do
    let before ← pyGetI (cummin funcVals) (-n - 1)
    let now ← pyGetI (cummin funcVals) (-1)
    .ok (some (Flt.leF (Flt.sub A before now) (pyAbs A threshold)))

/-- `ThresholdStopper._criterion`, callbacks.py:283-284. -/
def threshold [LinearOrder F] (thr : F) (funcVals : List (Flt F)) : Except PyErr (Option Bool) :=
  .ok (some ((funcVals.map fun v => Flt.leF v thr).any id))

/-- An `EarlyStopper` as a callback: the criterion applied to the last result,
callbacks.py:144-156 (`__call__`). -/
def stopperCallback (crit : Result F M → Except PyErr (Option Bool)) : Callback F M := fun hist =>
  match hist.getLast? with
  | none => .ok none
  | some r => crit r

/-- State of a `DeadlineStopper`: `_time` and `iter_time`, callbacks.py:256-260. -/
structure Deadline (F : Type) where
  time : F
  iterTime : List F

/-- `DeadlineStopper.__init__` at clock reading `t`, callbacks.py:256-260. -/
def Deadline.init (t : F) : Deadline F := ⟨t, []⟩

/-- `np.sum(iter_time)`; numpy's pairwise summation is simplified to left-to-right, callbacks.py:268. -/
def sumL (A : Arith F) (l : List F) : F := l.foldl A.add (A.ofInt 0)

/-- `np.max(iter_time)` of a non-empty list, callbacks.py:269. -/
def maxL [LinearOrder F] : List F → Except PyErr F
  | [] => .error .valueError
  | x :: xs => .ok (xs.foldl max x)

/-- `DeadlineStopper._criterion`, callbacks.py:262-271, with the two clock readings `t₁`, `t₂` it
takes. -/
def Deadline.criterion [LinearOrder F] (A : Arith F) (total : F) (d : Deadline F) (t₁ t₂ : F)
    (xIters : List (Val F)) : Deadline F × Except PyErr (Option Bool) :=
  let d' : Deadline F := ⟨t₂, d.iterTime ++ [A.sub t₁ d.time]⟩
  (d', if xIters = [] then .ok none
    else do
      let m ← maxL d'.iterTime
      .ok (some (decide (A.sub total (sumL A d'.iterTime) ≤ m))))

/-- One stopper used for a whole run: the answers given at successive calls, each with its two clock
readings and the points of the result it sees, callbacks.py:262-271. -/
def Deadline.answers [LinearOrder F] (A : Arith F) (total : F) :
    Deadline F → List (F × F × List (Val F)) → List (Except PyErr (Option Bool))
  | _, [] => []
  | d, (t₁, t₂, xs) :: rest =>
    let r := d.criterion A total t₁ t₂ xs
    r.2 :: Deadline.answers A total r.1 rest

end Skopt

import Verif.Basic

/-!
# The common vertical axis of the panels on the diagonal (skopt/plots.py)
-/

namespace Skopt

variable {F : Type} [LinearOrder F]

/-- `np.min` of a sequence without NaN.  (plots.py:889) -/
def npMinOf : List F → Except PyErr F
  | [] => .error .valueError
  | x :: xs => .ok (xs.foldl min x)

/-- `np.max` of a sequence without NaN.  (plots.py:890) -/
def npMaxOf : List F → Except PyErr F
  | [] => .error .valueError
  | x :: xs => .ok (xs.foldl max x)

/-- `_get_ylim_diagonal`, plots.py:860-892.  `ylim` are the limits which the drawing library has chosen for the panels on
the diagonal (`get_ylim`); `zip(*[])` cannot be unpacked into two names.  The case of a single panel (plots.py:882-884)
is the list with one entry. -/
def ylimDiagonal (ylim : List (F × F)) : Except PyErr (F × F) := do
  let (lo, hi) ← match ylim with
    | [] => Except.error PyErr.valueError
    | l => Except.ok (l.map Prod.fst, l.map Prod.snd)
  let low ← npMinOf lo
  let high ← npMaxOf hi
  .ok (low, high)

/-- The vertical limits of the panels on the diagonal after `_format_scatter_plot_axes`: `ax_.set_ylim(*diagonal_ylim)`
for each of them.  (plots.py:365, 432) -/
def diagonalLimits (ylim : List (F × F)) : Except PyErr (List (F × F)) := do
  let d ← ylimDiagonal ylim
  .ok (ylim.map fun _ => d)

end Skopt

import Verif.Model.Misc
import Mathlib.Analysis.Real.Sqrt
/-!
# The paired t-test of the analysers: `alipy/utils/interface.py`, lines 264-318

Numbers are real numbers. `scipy.stats.ttest_rel` is modelled by its formula; the survival function of Student's distribution is a parameter. `NaN`
and the infinities, which come from divisions by zero, are values of their own. Arrays hold no `NaN`.
-/
namespace Alipy.TTest
open Alipy

/-- The arguments: an array of one dimension, or one of two with `c` columns (`c > 0`). interface.py:304-311. -/
inductive Arr where
  | vec (l : List ℝ)
  | mat (c : Nat) (rows : List (List ℝ))

/-- `np.ravel`. interface.py:308-309. -/
def Arr.ravel : Arr → List ℝ
  | .vec l => l
  | .mat _ rows => rows.flatten

/-- `len`. interface.py:312. -/
def Arr.len : Arr → Nat
  | .vec l => l.length
  | .mat _ rows => rows.length

/-- A statistic: `0/0`, plus or minus infinity, or a number. interface.py:316. -/
inductive Stat where
  | nan
  | inf
  | num (t : ℝ)

/-- `np.mean`. interface.py:316. -/
noncomputable def mean (d : List ℝ) : ℝ := d.sum / d.length

/-- `np.var(d, ddof=1)`. interface.py:316. -/
noncomputable def var (d : List ℝ) : ℝ := (d.map (fun x => (x - mean d) ^ 2)).sum / ((d.length : ℝ) - 1)

/-- The statistic of `scipy.stats.ttest_rel` for the differences `d`: `dm / np.sqrt(v / n)`; `v` is `0/0` for a single pair. interface.py:316. -/
noncomputable def stat (d : List ℝ) : Stat :=
  if d.length ≤ 1 then .nan
  else if var d = 0 then (if mean d = 0 then .nan else .inf)
  else .num (mean d / √(var d / d.length))

/-- The p-value of `scipy.stats.ttest_rel`: twice the survival function of Student's distribution at `|t|`; `none` is `NaN`. interface.py:316. -/
noncomputable def pvalue (sf : Nat → ℝ → ℝ) (d : List ℝ) : Option ℝ :=
  match stat d with
  | .nan => none
  | .inf => some 0
  | .num t => some (2 * sf (d.length - 1) |t|)

open Classical in
/-- interface.py:317: `int(pvalue <= alpha)`; `NaN <= alpha` is false. -/
noncomputable def verdict (alpha : ℝ) : Option ℝ → Int
  | none => 0
  | some p => if p ≤ alpha then 1 else 0

/-- interface.py:314-318: `ttest_rel` of two arrays of one dimension. -/
noncomputable def run (sf : Nat → ℝ → ℝ) (alpha : ℝ) (a b : List ℝ) : Except PyErr Int :=
  if a.length ≠ b.length then .error .valueError
  else .ok (verdict alpha (pvalue sf (List.zipWith (fun x y => x - y) a b)))

/-- `paired_ttest`, interface.py:264-318. A second argument of two dimensions beside a first of one is not ravelled; the difference is then broadcast to
a matrix, and `int` of the array of p-values is a `TypeError` unless there is only one. -/
noncomputable def pairedTtest (sf : Nat → ℝ → ℝ) (a b : Arr) (alpha : ℝ) : Except PyErr Int :=
  match a with
  | .vec l =>
    if l.length ≠ b.len then .error .assertionError
    else
      match b with
      | .vec l' => run sf alpha l l'
      | .mat c rows =>
        if c = 1 ∧ rows.length = 1 then .ok 0
        else if c = rows.length ∨ c = 1 ∨ rows.length = 1 then .error .typeError
        else .error .valueError
  | .mat c rows =>
    if rows.length = 1 ∨ c = 1 then
      if rows.length ≠ b.len then .error .assertionError else run sf alpha rows.flatten b.ravel
    else .error .genericException

end Alipy.TTest

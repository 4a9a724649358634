import Verif.Model.Py
import Mathlib.Algebra.Order.Field.Rat
/-!
# Scaling: `alipy/data_manipulate/datapreprocess.py`

A matrix is the list of its rows; an entry `none` is NaN; numbers are exact rationals. Sparse input (TypeError) is not modelled.
-/
namespace Alipy

/-- Column `j`. datapreprocess.py:74-75. -/
def column (X : List (List (Option ℚ))) (j : Nat) : List (Option ℚ) := X.map (fun r => r.getD j none)

/-- `np.nanmin` of a column: `none` if there is no number. datapreprocess.py:74. -/
def nanmin : List (Option ℚ) → Option ℚ
  | [] => none
  | none :: l => nanmin l
  | some x :: l => match nanmin l with | none => some x | some m => some (min x m)

/-- `np.nanmax` of a column. datapreprocess.py:75. -/
def nanmax : List (Option ℚ) → Option ℚ
  | [] => none
  | none :: l => nanmax l
  | some x :: l => match nanmax l with | none => some x | some m => some (max x m)

/-- `_handle_zeros_in_scale`, datapreprocess.py:17-32 (one entry). -/
def handleZero (s : ℚ) : ℚ := if s = 0 then 1 else s

/-- datapreprocess.py:74-80 for one entry `x` of a column. -/
def minmaxEntry (a b : ℚ) (col : List (Option ℚ)) (x : Option ℚ) : Option ℚ :=
  match nanmin col, nanmax col, x with
  | some lo, some hi, some v => some ((v - lo) / handleZero (hi - lo) * (b - a) + a)
  | _, _, _ => none

/-- `minmax_scale`, datapreprocess.py:35-81. A matrix without rows makes `np.nanmin` raise `ValueError`. -/
def minmaxScale (X : List (List (Option ℚ))) (a b : ℚ) : Except PyErr (List (List (Option ℚ))) :=
  if b ≤ a then .error .valueError
  else if X.isEmpty then .error .valueError
  else .ok (X.map (fun r => r.mapIdx (fun j x => minmaxEntry a b (column X j) x)))

/-- `X.mean(axis=0)` of a column of numbers. datapreprocess.py:113. -/
def mean (c : List ℚ) : ℚ := c.sum / c.length

/-- `X.var(axis=0)` of a column of numbers. datapreprocess.py:114. -/
def variance (c : List ℚ) : ℚ := mean (c.map (fun x => (x - mean c) * (x - mean c)))

/-- `StandardScale`, datapreprocess.py:113-115, one column; a division by zero gives NaN or an infinity, represented by `none`. -/
def standardColumn (c : List ℚ) : List (Option ℚ) :=
  c.map (fun x => if variance c = 0 then none else some ((x - mean c) / variance c))

end Alipy

import Verif.Model.Split
import Verif.Model.Sort
/-!
# Metrics: `alipy/metrics/performance.py`

Labels are integers, scores and weights exact rationals (no NaN or infinity). Arrays have one or two dimensions; a two-dimensional one
carries its number of columns. Arguments are `np.ndarray`s.
-/
namespace Alipy

/-- A target array. performance.py:64-69. -/
inductive Tgt where
  | vec (l : List Int)
  | mat (cols : Nat) (rows : List (List Int))

namespace Tgt
/-- `len(y)`. performance.py:50. -/
def len : Tgt → Nat
  | vec l => l.length
  | mat _ rows => rows.length
/-- `np.ravel(y)`. performance.py:177-178. -/
def ravel : Tgt → List Int
  | vec l => l
  | mat _ rows => rows.flatten
end Tgt

inductive TType where
  | binary | multilabel | multiclass
  deriving DecidableEq, Repr

/-- `type_of_target`, performance.py:64-75. `'unknown'` is unreachable. -/
def typeOfTarget (y : Tgt) : Except PyErr TType :=
  if numUnique y.ravel ≤ 2 then
    match y with
    | .vec _ => .ok .binary
    | .mat c rows => if rows.isEmpty then .error .indexError else if 1 < c then .ok .multilabel else .ok .binary
  else .ok .multiclass

/-- The common type of two targets, performance.py:160-169. -/
def joinType : TType → TType → Except PyErr TType
  | .binary, .binary => .ok .binary
  | .multiclass, .multiclass => .ok .multiclass
  | .binary, .multiclass => .ok .multiclass
  | .multiclass, .binary => .ok .multiclass
  | .multilabel, .multilabel => .ok .multilabel
  | _, _ => .error .valueError

/-- `_check_targets`, performance.py:129-189: only the type is returned here, the conversion (ravel, or sparse matrix) is done by the
callers below. That a binary pair may be renamed to multiclass (line 182) makes no difference to any caller. -/
def checkTargets (a b : Tgt) : Except PyErr TType :=
  if a.len ≠ b.len then .error .valueError
  else
    match typeOfTarget a, typeOfTarget b with
    | .error e, _ => .error e
    | .ok _, .error e => .error e
    | .ok s, .ok t => joinType s t

/-- `np.average(values, weights=w)`; `none` is NaN. The lengths have been checked. performance.py:219, 595, 668. -/
def npAverage (xs : List ℚ) (w : Option (List ℚ)) : Except PyErr (Option ℚ) :=
  match w with
  | none => if xs.isEmpty then .ok none else .ok (some (xs.sum / xs.length))
  | some w => if w.sum = 0 then .error .zeroDivisionError else .ok (some ((List.zipWith (fun x v => x * v) xs w).sum / w.sum))

/-- `check_consistent_length` with an optional weight array. performance.py:53-61. -/
def weightsFit (n : Nat) (w : Option (List ℚ)) : Bool :=
  match w with
  | none => true
  | some w => w.length = n

/-- A truth value as a number. performance.py:216-219. -/
def ofBool (b : Bool) : ℚ := if b then 1 else 0

/-- performance.py:211 and 218-219, the case of label vectors. -/
def accuracyFlat (a b : List Int) (w : Option (List ℚ)) : Except PyErr (Option ℚ) :=
  if a.length ≠ b.length ∨ weightsFit a.length w = false then .error .valueError
  else npAverage (List.zipWith (fun x y => ofBool (decide (x = y))) a b) w

/-- `accuracy_score`, performance.py:192-219. For multi-label data a row counts if the sparse difference has no entry in it. -/
def accuracyScore (a b : Tgt) (w : Option (List ℚ)) : Except PyErr (Option ℚ) :=
  match checkTargets a b with
  | .error e => .error e
  | .ok .multilabel =>
    match a, b with
    | .mat c rows, .mat c' rows' =>
      if weightsFit rows.length w = false then .error .valueError
      else if c ≠ c' then .error .valueError
      else npAverage (List.zipWith (fun r s => ofBool (decide (r = s))) rows rows') w
    | _, _ => .error .valueError
  | .ok _ => accuracyFlat a.ravel b.ravel w

/-- `zero_one_loss`, performance.py:222-261. -/
def zeroOneLoss (a b : Tgt) (normalize : Bool) (w : Option (List ℚ)) : Except PyErr (Option ℚ) :=
  match accuracyScore a b w with
  | .error e => .error e
  | .ok s =>
    if normalize then .ok (s.map (fun x => 1 - x))
    else
      match w with
      | some w => .ok (s.map (fun x => w.sum - x))
      | none => .ok (s.map (fun x => a.len - x))

/-- The number of positions at which two arrays differ, `np.sum(y_true != y_pred)`, for two arrays of the same number of dimensions; a
column and a vector are broadcast against each other. Other mixtures are not modelled (an error here). performance.py:523 and 526. -/
def neCount : Tgt → Tgt → Except PyErr Nat
  | .vec a, .vec b => .ok ((a.zip b).countP (fun p => p.1 ≠ p.2))
  | .mat c a, .mat c' b => if c = c' then .ok ((a.flatten.zip b.flatten).countP (fun p => p.1 ≠ p.2)) else .error .valueError
  | .mat 1 a, .vec b => .ok ((a.flatten.map (fun x => b.countP (fun y => x ≠ y))).sum)
  | .vec a, .mat 1 b => .ok ((b.flatten.map (fun x => a.countP (fun y => y ≠ x))).sum)
  | _, _ => .error .valueError

/-- `hamming_loss`, performance.py:492-528. -/
def hammingLoss (a b : Tgt) : Except PyErr (Option ℚ) :=
  match checkTargets a b with
  | .error e => .error e
  | .ok t =>
    match neCount a b with
    | .error e => .error e
    | .ok d =>
      match t, a with
      | .multilabel, .mat c rows => .ok (some (d / (rows.length * c : Nat)))
      | _, a => if a.len = 0 then .ok none else .ok (some (d / a.len))

/-! ## ROC -/

/-- The classes accepted without `pos_label`, performance.py:335-341. -/
def binaryClasses (y : List Int) : Bool :=
  let all (p : Int → Bool) := y.all p
  !y.isEmpty && (all (fun c => c = 0 || c = 1) || all (fun c => c = -1 || c = 1))

/-- `get_fps_tps_thresholds`, performance.py:333-359: for every score in descending order as threshold, the number of negatives and of
positives with at least that score. -/
def fpsTps (y : List Int) (s : List ℚ) (pos : Option Int) : Except PyErr (List (Nat × Nat)) :=
  if y.length ≠ s.length then .error .valueError
  else if pos = none ∧ binaryClasses y = false then .error .valueError
  else
    let ds := (sortBy (fun p q => decide (p.2 ≤ q.2)) ((y.map (fun c => decide (c = pos.getD 1))).zip s)).reverse
    .ok (ds.map (fun t => (ds.countP (fun p => !p.1 && decide (t.2 ≤ p.2)), ds.countP (fun p => p.1 && decide (t.2 ≤ p.2)))))

/-- `roc_curve`, performance.py:441-462, the points (false positive rate, true positive rate). -/
def rocCurve (y : List Int) (s : List ℚ) (pos : Option Int) : Except PyErr (List (ℚ × ℚ)) :=
  match fpsTps y s pos with
  | .error e => .error e
  | .ok [] => .error .indexError
  | .ok (p :: ps) =>
    let pts := if p.1 ≠ 0 ∨ p.2 ≠ 0 then (0, 0) :: p :: ps else p :: ps
    let last := pts.getLastD (0, 0)
    if last.1 = 0 then .error .valueError
    else if last.2 = 0 then .error .valueError
    else .ok (pts.map (fun q => ((q.1 : ℚ) / last.1, (q.2 : ℚ) / last.2)))

/-- `np.trapz` of the points. performance.py:120. -/
def trapz : List (ℚ × ℚ) → ℚ
  | a :: b :: l => (b.1 - a.1) * (a.2 + b.2) / 2 + trapz (b :: l)
  | _ => 0

/-- `_auc` with `reorder=True`, performance.py:99-126: `np.lexsort((y, x))` sorts by `x`, then `y`. -/
def auc (pts : List (ℚ × ℚ)) : Except PyErr ℚ :=
  if pts.length < 2 then .error .valueError
  else .ok (trapz (sortBy (fun p q => decide (p.1 < q.1 ∨ (p.1 = q.1 ∧ p.2 ≤ q.2))) pts))

/-- `roc_auc_score`, performance.py:465-489. -/
def rocAucScore (y : List Int) (s : List ℚ) (pos : Option Int) : Except PyErr ℚ :=
  match rocCurve y s pos with
  | .error e => .error e
  | .ok pts => auc pts

/-! ## Ranking loss -/

/-- `np.unique`: ascending without repetition. performance.py:644. -/
def uniqueSorted (s : List ℚ) : List ℚ := (sortBy (fun a b => decide (a ≤ b)) s).eraseDups

/-- `np.bincount(unique_inverse[rows])`: how many of `xs` have each of the unique scores. performance.py:646-650. -/
def binCount (u xs : List ℚ) : List Nat := u.map (fun v => xs.countP (fun x => x = v))

/-- `cumsum`. performance.py:657. -/
def cumsum : Nat → List Nat → List Nat
  | _, [] => []
  | acc, x :: xs => (acc + x) :: cumsum (acc + x) xs

/-- The scores of the labels whose entry in `y_true` is stored in the sparse matrix (is not zero). performance.py:639 and 647. -/
def relevantScores (y : List Int) (s : List ℚ) : List ℚ := ((y.zip s).filter (fun p => decide (p.1 ≠ 0))).map Prod.snd

/-- performance.py:644-658: the loss of one sample before division. -/
def rankingCount (y : List Int) (s : List ℚ) : Nat :=
  let u := uniqueSorted s
  let t := binCount u (relevantScores y s)
  let a := binCount u s
  (List.zipWith (fun x z => x * z) (cumsum 0 t) (List.zipWith (fun x z => x - z) a t)).sum

/-- performance.py:660-666, one sample. -/
def rankingLossRow (y : List Int) (s : List ℚ) : ℚ :=
  let p := (relevantScores y s).length
  if p = 0 ∨ p = s.length then 0 else (rankingCount y s : ℚ) / ((s.length - p : Nat) * p : Nat)

/-- `label_ranking_loss`, performance.py:598-668, `y_true` and `y_score` two-dimensional. -/
def labelRankingLoss (cols : Nat) (y : List (List Int)) (s : List (List ℚ)) (w : Option (List ℚ)) : Except PyErr (Option ℚ) :=
  if y.length ≠ s.length ∨ weightsFit y.length w = false then .error .valueError
  else
    match typeOfTarget (.mat cols y) with
    | .error e => .error e
    | .ok .multilabel =>
      if s.any (fun r => decide (r.length ≠ cols)) then .error .valueError
      else npAverage (List.zipWith rankingLossRow y s) w
    | .ok _ => .error .valueError

end Alipy

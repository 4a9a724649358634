import Verif.Model.Metrics
import Mathlib.Order.WithBot
/-!
# More metrics: `alipy/metrics/performance.py`

`one_error`, `coverage_error`, `label_ranking_average_precision_score`, `micro_auc_score`, `average_precision_score` and
`precision_recall_curve`. As in `Verif.Model.Metrics` labels are integers and scores exact rationals. The rows of a two-dimensional
array are lists which are paired position by position; that they have the same length is a hypothesis of the theorems (NumPy raises or
broadcasts otherwise).
-/
namespace Alipy.RankMetrics

/-- The types accepted by `label_ranking_average_precision_score`, `micro_auc_score` and `average_precision_score`,
performance.py:692-701, 800-808, 872-880: lengths, shapes, and at most two label values. -/
def checkScores (cols : Nat) (y : List (List Int)) (scols : Nat) (s : List (List ℚ)) (w : Option (List ℚ)) : Except PyErr Unit :=
  if y.length ≠ s.length ∨ weightsFit y.length w = false then .error .valueError
  else if cols ≠ scols then .error .valueError
  else
    match typeOfTarget (.mat cols y) with
    | .error e => .error e
    | .ok .multiclass => .error .valueError
    | .ok _ => .ok ()

/-! ## `one_error` -/

/-- performance.py:556, one sample: `np.sum(y_true - y_pred) == 0`. -/
def sameSum (y : List Int) (p : List ℚ) : Bool := decide ((List.zipWith (fun (a : Int) (b : ℚ) => (a : ℚ) - b) y p).sum = 0)

/-- `one_error`, performance.py:531-558, two-dimensional `y_true`. The weights are only checked for their length. -/
def oneError (cols : Nat) (y : List (List Int)) (p : List (List ℚ)) (w : Option (List ℚ)) : Except PyErr ℚ :=
  if y.length ≠ p.length ∨ weightsFit y.length w = false then .error .valueError
  else
    match typeOfTarget (.mat cols y) with
    | .error e => .error e
    | .ok .multilabel => .ok (((List.zipWith sameSum y p).countP id : Nat) / (y.length : ℚ))
    | .ok _ => .error .valueError

/-! ## `coverage_error` -/

/-- performance.py:591-594, one sample: the masked minimum over the relevant labels, and the number of scores that are not less; a row
without relevant labels is masked and filled with 0. -/
def coverageRow (y : List Int) (s : List ℚ) : Nat :=
  match relevantScores y s with
  | [] => 0
  | r :: rs => s.countP (fun x => decide (rs.foldl min r ≤ x))

/-- `coverage_error`, performance.py:561-595. -/
def coverageError (cols : Nat) (y : List (List Int)) (s : List (List ℚ)) (w : Option (List ℚ)) : Except PyErr (Option ℚ) :=
  if y.length ≠ s.length ∨ weightsFit y.length w = false then .error .valueError
  else
    match typeOfTarget (.mat cols y) with
    | .error e => .error e
    | .ok .multilabel => npAverage (List.zipWith (fun r t => (coverageRow r t : ℚ)) y s) w
    | .ok _ => .error .valueError

/-! ## `label_ranking_average_precision_score` -/

/-- `scipy.stats.rankdata(x, 'max')`: the number of entries that are not greater. performance.py:719-720. -/
def rankMax (xs : List ℚ) : List Nat := xs.map (fun x => xs.countP (fun z => decide (z ≤ x)))

/-- performance.py:718-721, one sample: `rankdata(-scores)[relevant]`, `rankdata(-scores[relevant])` and the mean of the quotients. -/
def rankedPrecision (y : List Int) (s : List ℚ) : ℚ :=
  let neg := s.map (fun x => -x)
  let rank := ((y.zip (rankMax neg)).filter (fun p => decide (p.1 ≠ 0))).map Prod.snd
  let L := rankMax (((y.zip neg).filter (fun p => decide (p.1 ≠ 0))).map Prod.snd)
  (List.zipWith (fun (a b : Nat) => (a : ℚ) / b) L rank).sum / L.length

/-- performance.py:710-724, what one sample adds to `out`; `wi` is its weight if weights are given. -/
def lrapTerm (cols : Nat) (wi : Option ℚ) (y : List Int) (s : List ℚ) : ℚ :=
  let p := (y.filter (fun c => decide (c ≠ 0))).length
  if p = 0 ∨ p = cols then 1
  else
    match wi with
    | none => rankedPrecision y s
    | some v => rankedPrecision y s * v

/-- The loop over the samples, performance.py:708-724. -/
def lrapSum (cols : Nat) : Option (List ℚ) → List (List Int) → List (List ℚ) → ℚ
  | none, y :: ys, s :: ss => lrapTerm cols none y s + lrapSum cols none ys ss
  | some (v :: ws), y :: ys, s :: ss => lrapTerm cols (some v) y s + lrapSum cols (some ws) ys ss
  | _, _, _ => 0

/-- `label_ranking_average_precision_score`, performance.py:671-731. `none` is the result of a division by a zero sum of weights (NaN or
infinite). -/
def lrapScore (cols : Nat) (y : List (List Int)) (scols : Nat) (s : List (List ℚ)) (w : Option (List ℚ)) : Except PyErr (Option ℚ) :=
  match checkScores cols y scols s w with
  | .error e => .error e
  | .ok () =>
    match w with
    | none => .ok (some (lrapSum cols none y s / y.length))
    | some l => if l.sum = 0 then .ok none else .ok (some (lrapSum cols (some l) y s / l.sum))

/-! ## `micro_auc_score` -/

/-- Column `j` of an array. performance.py:817-826. -/
def column {α : Type} (d : α) (rows : List (List α)) (j : Nat) : List α := rows.map (fun r => r.getD j d)

/-- performance.py:821-826, the scores of the samples whose label is 1 (`true`) or not (`false`). -/
def classScores (b : Bool) (y : List Int) (s : List ℚ) : List ℚ :=
  ((y.zip s).filter (fun p => decide (p.1 = 1) == b)).map Prod.snd

/-- performance.py:833-840, one class: pairs in the right order divided by the number of pairs. -/
def classAuc (y : List Int) (s : List ℚ) : Except PyErr ℚ :=
  let pos := classScores true y s
  let neg := classScores false y s
  if pos.length * neg.length = 0 then .error .zeroDivisionError
  else .ok (((pos.map (fun p => neg.countP (fun q => decide (p > q)))).sum : Nat) / ((pos.length * neg.length : Nat) : ℚ))

/-- The sum over the classes, performance.py:832-840. -/
def aucSum (y : List (List Int)) (s : List (List ℚ)) : List Nat → Except PyErr ℚ
  | [] => .ok 0
  | j :: js =>
    match classAuc (column 0 y j) (column 0 s j) with
    | .error e => .error e
    | .ok a =>
      match aucSum y s js with
      | .error e => .error e
      | .ok b => .ok (a + b)

/-- `micro_auc_score`, performance.py:779-841. -/
def microAuc (cols : Nat) (y : List (List Int)) (scols : Nat) (s : List (List ℚ)) (w : Option (List ℚ)) : Except PyErr ℚ :=
  match checkScores cols y scols s w with
  | .error e => .error e
  | .ok () =>
    match aucSum y s (List.range scols) with
    | .error e => .error e
    | .ok a => if scols = 0 then .error .zeroDivisionError else .ok (a / scols)

/-! ## `average_precision_score` -/

/-- performance.py:761-766, the inner loop of `sort`: the first smallest entry below infinity, or the default position. -/
def scanMin (temp : List (WithTop ℚ)) (i : Nat) : WithTop ℚ × Nat :=
  (List.range temp.length).foldl (fun (m : WithTop ℚ × Nat) j => if temp.getD j ⊤ < m.1 then (temp.getD j ⊤, j) else m) (⊤, i)

/-- `sort`, performance.py:755-770, the positions: rounds `i`, `i+1`, …, the entry found is replaced by infinity. -/
def sortLoop : List Nat → List (WithTop ℚ) → List Nat
  | [], _ => []
  | i :: is, temp => (scanMin temp i).2 :: sortLoop is (temp.set (scanMin temp i).2 ⊤)

/-- `sort(x)[1]`. performance.py:755-770. -/
def selectionSort (x : List ℚ) : List Nat := sortLoop (List.range x.length) (x.map (fun v : ℚ => (v : WithTop ℚ)))

/-- `findIndex`, performance.py:773-776; `none` is Python's `None`. -/
def findIndex (a : Nat) : List Nat → Option Nat
  | [] => none
  | b :: l => if a = b then some 0 else (findIndex a l).map (· + 1)

/-- performance.py:902-911, one sample. `loc` is never `None` for the positions of `index`, see `C65`; the default 0 is not used. -/
def samplePrecision (cols : Nat) (y : List Int) (s : List ℚ) : ℚ :=
  let index := selectionSort s
  let labels := (List.range y.length).filter (fun j => decide (y.getD j 0 = 1))
  let locs := labels.map (fun a => (findIndex a index).getD 0)
  let indicator := locs.foldl (fun (ind : List ℚ) loc => ind.set loc 1) (List.replicate cols 0)
  (locs.map (fun loc => (indicator.drop loc).sum / ((cols - loc : Nat) : ℚ))).sum / labels.length

/-- Is the sample used, performance.py:891: its label sum is neither 0 nor the number of classes. -/
def isMixed (cols : Nat) (y : List Int) : Bool := decide (y.sum ≠ cols) && decide (y.sum ≠ 0)

/-- `average_precision_score`, performance.py:844-912. A sample that is used but has no label 1 (possible for labels other than 0 and 1)
gives a NaN in the code and 0 here; the theorems are about labels 0 and 1. -/
def averagePrecision (cols : Nat) (y : List (List Int)) (scols : Nat) (s : List (List ℚ)) (w : Option (List ℚ)) : Except PyErr ℚ :=
  match checkScores cols y scols s w with
  | .error e => .error e
  | .ok () =>
    .ok ((((y.zip s).filter (fun p => isMixed scols p.1)).map (fun p => samplePrecision scols p.1 p.2)).sum / (s.length : ℚ))

/-! ## `precision_recall_curve` -/

/-- The thresholds returned by `get_fps_tps_thresholds`, performance.py:345-346: the scores in descending order. -/
def thresholds (y : List Int) (s : List ℚ) (pos : Option Int) : List ℚ :=
  (sortBy (fun (p q : Bool × ℚ) => decide (p.2 ≤ q.2)) ((y.map (fun c => decide (c = pos.getD 1))).zip s)).reverse.map Prod.snd

/-- `a.searchsorted(v)` for an ascending array: the number of smaller entries at the front. performance.py:400. -/
def searchSorted (v : Nat) : List Nat → Nat
  | [] => 0
  | x :: l => if v ≤ x then 0 else searchSorted v l + 1

/-- `l[k::-1]`: from position `k` backwards. performance.py:401-402. -/
def backFrom {α : Type} (k : Nat) (l : List α) : List α := (l.take (k + 1)).reverse

/-- `precision_recall_curve`, performance.py:395-402: precision, recall and thresholds. A division of 0 by 0 in the precision is replaced
by 0 (line 398), as Lean's division does; in the recall (no positive sample) it is NaN, `none`. -/
def precisionRecallCurve (y : List Int) (s : List ℚ) (pos : Option Int) : Except PyErr (List ℚ × List (Option ℚ) × List ℚ) :=
  match fpsTps y s pos with
  | .error e => .error e
  | .ok ft =>
    match (ft.map Prod.snd).getLast? with
    | none => .error .indexError
    | some total =>
      let precision := ft.map (fun q => (q.2 : ℚ) / ((q.2 + q.1 : Nat) : ℚ))
      let recall := ft.map (fun q => if total = 0 then none else some ((q.2 : ℚ) / total))
      let last := searchSorted total (ft.map Prod.snd)
      .ok (backFrom last precision ++ [1], backFrom last recall ++ [some 0], backFrom last (thresholds y s pos))

end Alipy.RankMetrics

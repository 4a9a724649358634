import Verif.Model.Misc
import Verif.Model.Sort
import Mathlib.Algebra.Order.Field.Basic
/-!
# Instance selection: `alipy/query_strategy/query_labels.py`

Indexes have an arbitrary type. Numbers are elements of an ordered field `K`; logarithm and `np.argsort` are parameters. Predictions are
`np.ndarray`s.
-/
namespace Alipy.Select
open Alipy

variable {α K : Type}

/-- How a set of indexes is passed: as a Python list, a numpy array, or an index collection. query_labels.py:139-140, 289-293. -/
inductive Coll (α : Type) where
  | list (l : List α) | array (l : List α) | coll (l : List α)

/-- `np.asarray(unlabel_index)`, also `[i for i in unlabel_index]`. query_labels.py:140 and 320. -/
def Coll.items : Coll α → List α
  | list l | array l | coll l => l

/-- `list(unlabel_index.index)`: `list.index` is a method and not iterable; an array has no such attribute. query_labels.py:292 and 322. -/
def Coll.index : Coll α → Except PyErr (List α)
  | list _ => .error .typeError
  | array _ => .error .attributeError
  | coll l => .ok l

/-- The frame shared by the strategies that score every unlabelled index (query_labels.py:138-142, 191-195, 403-409, 463-467, 676-682,
1742-1748): the assertion, the short cut, and the choice of positions by `choose` out of the scores. -/
def frame (u : Coll α) (batch : Int) (choose : Except PyErr (List Nat)) : Except PyErr (List α) :=
  if batch ≤ 0 then .error .assertionError
  else if (u.items.length : Int) ≤ batch then .ok u.items
  else
    match choose with
    | .error e => .error e
    | .ok ps => pickAll u.items (ps.map (fun i : Nat => (i : Int)))

/-- Selection of the largest scores: `unlabel_index[nlargestarg(score, batch_size)]`. query_labels.py:439, 473, 1781-1785. -/
def byLargest (argsort : List K → List Nat) (u : Coll α) (scores : List K) (batch : Int) : Except PyErr (List α) :=
  frame u batch (nlargestarg (argsort scores) batch)

/-- Selection of the smallest scores: `unlabel_index[nsmallestarg(score, batch_size)]`. query_labels.py:165, 209, 713. -/
def bySmallest (argsort : List K → List Nat) (u : Coll α) (scores : List K) (batch : Int) : Except PyErr (List α) :=
  frame u batch (nsmallestarg (argsort scores) batch)

inductive Measure where
  | leastConfident | margin | entropy | distance
  deriving DecidableEq, Repr

/-- A prediction array: one- or two-dimensional; the latter carries its number of columns. query_labels.py:197-198. -/
inductive Pred (K : Type) where
  | vec (l : List K)
  | mat (cols : Nat) (rows : List (List K))

section
variable [Field K] [LinearOrder K]

/-- The `k`-th smallest entry of a row: `np.partition(row, k)[k]`. query_labels.py:224-225 and 230-231. -/
def kth (row : List K) (k : Nat) : K := (sortBy (fun a b => decide (a ≤ b)) row).getD k 0

/-- query_labels.py:224-225 -/
def marginScore (c : Nat) (row : List K) : K := kth row (c - 2) - kth row (c - 1)

/-- query_labels.py:230-231 -/
def leastScore (c : Nat) (row : List K) : K := 1 - kth row (c - 1)

/-- query_labels.py:217: non-positive entries become `1e-06`. -/
def clip (row : List K) : List K := row.map (fun v => if v ≤ 0 then 1 / 1000000 else v)

/-- query_labels.py:218 (and 254, 1936), one row. -/
def entropyScore (log : K → K) (row : List K) : K := -((row.map (fun v => v * log (v + 1 / 1000000000))).sum)

/-- `QueryInstanceUncertainty.select_by_prediction_mat`, query_labels.py:171-232; `Exception` for arrays of the wrong shape. -/
def uncertainty (log : K → K) (argsort : List K → List Nat) (m : Measure) (u : Coll α) (predict : Pred K) (batch : Int) :
    Except PyErr (List α) :=
  match m, predict with
  | .distance, .vec l => bySmallest argsort u (l.map abs) batch
  | .distance, .mat c rows => if c = 1 then bySmallest argsort u (rows.flatten.map abs) batch else frame u batch (.error .genericException)
  | _, .vec _ => frame u batch (.error .genericException)
  | m, .mat c rows =>
    if c = 1 then frame u batch (.error .genericException)
    else
      match m with
      | .entropy => byLargest argsort u (rows.map (fun r => entropyScore log (clip r))) batch
      | .margin => byLargest argsort u (rows.map (marginScore c)) batch
      | _ => byLargest argsort u (rows.map (leastScore c)) batch

/-- The caller's prediction matrix after `select_by_prediction_mat`: `pv = np.asarray(predict)` (query_labels.py:197) shares its memory, and line 217 assigns
to it. -/
def predictAfter (m : Measure) (u : Coll α) (predict : Pred K) (batch : Int) : Pred K :=
  if batch ≤ 0 ∨ (u.items.length : Int) ≤ batch then predict
  else
    match m, predict with
    | .entropy, .mat c rows => if c = 1 then .mat c rows else .mat c (rows.map clip)
    | _, p => p

/-- `QueryInstanceQBC.calc_vote_entropy` for class outputs (query_labels.py:544-552), one example: the votes of the committee. -/
def voteEntropy (log : K → K) (votes : List Int) : K :=
  -((votes.eraseDups.map (fun key => (votes.count key : K) / votes.length *
      log (((votes.count key : K) + 1 / 1000000000) / votes.length))).sum)

/-- `QueryInstanceQBC.select_by_prediction_mat` with vote entropy, query_labels.py:441-473; `predict` holds one list of class labels for
every member of the committee, all of the same length. The exceptions of `_check_committee_results` other than the one for fewer than
two members do not occur. -/
def qbc (log : K → K) (argsort : List K → List Nat) (u : Coll α) (predict : List (List Int)) (batch : Int) : Except PyErr (List α) :=
  frame u batch (
    if predict.length ≤ 1 then .error .valueError
    else nlargestarg (argsort ((List.range (predict.headD []).length).map (fun i => voteEntropy log (predict.map (fun r => r.getD i 0))))) batch)

/-- `QueryInstanceDensityWeighted.select`, query_labels.py:1922-1958: `pat` are the uncertainty scores, `div` the powers of the mean
distances. There is no short cut for a small pool; `batch_size > 0` is asserted by `nlargestarg`. -/
def densityWeighted (argsort : List K → List Nat) (u : Coll α) (pat div : List K) (batch : Int) : Except PyErr (List α) :=
  if pat.length ≠ div.length ∨ div.length ≠ u.items.length then .error .assertionError
  else
    match nlargestarg (argsort (List.zipWith (fun x y => x * y) pat div)) batch with
    | .error e => .error e
    | .ok ps => pickAll u.items (ps.map (fun i : Nat => (i : Int)))

end

/-- `QueryInstanceRandom.select` (also `QueryRandom.select`), query_labels.py:299-323. -/
def random (shuffle : List Int → List Int) (u : Coll α) (batch : Int) : Except PyErr (List α) :=
  if (u.items.length : Int) ≤ batch then .ok u.items
  else
    match randperm shuffle (.int ((u.items.length : Int) - 1)) (.int batch) with
    | .error e => .error e
    | .ok perm =>
      match u.index with
      | .error e => .error e
      | .ok l => pickAll l perm

end Alipy.Select

import Verif.Model.Select
import Verif.Model.Split
/-!
# Strategies that work on the positions of a training set: graph density, expected error reduction, QUIRE, LAL

`alipy/query_strategy/query_labels.py`. Numbers are elements of an ordered field `K`.
-/
namespace Alipy.Select
open Alipy

variable {α K : Type}

/-- `[np.where(train_idx == i)[0][0] for i in ..]` (query_labels.py:836-837, 990-993): the first position of every index; an index that
is not in `train_idx` raises. -/
def positions [DecidableEq α] (train : List α) : List α → Except PyErr (List Nat)
  | [] => .ok []
  | x :: xs => if x ∈ train then (positions train xs).map (fun ps => train.idxOf x :: ps) else .error .indexError

section
variable [Field K] [LinearOrder K]

/-- `np.argmax` of a vector: the first position of the largest entry. query_labels.py:999. -/
def argmaxPos (d : List K) : Nat := d.findIdx (fun v => d.all (fun w => decide (w ≤ v)))

/-- `min(d)` of a vector. query_labels.py:996. -/
def lowest : List K → K
  | [] => 0
  | a :: l => l.foldl min a

/-- `d[is] = v`. query_labels.py:996. -/
def setAll (d : List K) (is : List Nat) (v : K) : List K := d.mapIdx (fun i w => if i ∈ is then v else w)

/-- `d[is] = d[is] - v`. query_labels.py:1002. -/
def subAll (d : List K) (is : List Nat) (v : K) : List K := d.mapIdx (fun i w => if i ∈ is then w - v else w)

/-- `d[is] = min(d) - 1`. query_labels.py:996, 1005 and 1007. -/
def markLow (d : List K) (is : List Nat) : List K := setAll d is (lowest d - 1)

/-- The loop of `QueryInstanceGraphDensity.select`, query_labels.py:998-1008. `nbrs p` are the positions with a positive weight in row
`p` of the graph, `lab` the positions of the labelled examples, `arr` is `selected_arr`, `b` is `batch` (a Python set, here in order of
insertion). The first argument bounds the number of iterations; `none`: the bound is reached. The object's densities are part of the
result, they persist. -/
def densityLoop [DecidableEq α] (nbrs : Nat → List Nat) (train u : List α) (lab : List Nat) (batch : Nat) :
    Nat → List K → List Nat → List α → Option (Except PyErr (List K × List α))
  | 0, d, _, b => if b.length < batch then none else some (.ok (d, b))
  | fuel + 1, d, arr, b =>
    if b.length < batch then
      match train[argmaxPos d]? with
      | none => some (.error .indexError)
      | some x =>
        if x ∈ u then
          densityLoop nbrs train u lab batch fuel
            (markLow (markLow (subAll d (nbrs (argmaxPos d)) (d.getD (argmaxPos d) 0)) lab) (arr ++ [argmaxPos d]))
            (arr ++ [argmaxPos d]) (if x ∈ b then b else b ++ [x])
        else some (.error .assertionError)
    else some (.ok (d, b))

/-- `QueryInstanceGraphDensity.select`, query_labels.py:959-1008; `d` are the densities of the object before the call. -/
def graphDensity [DecidableEq α] (nbrs : Nat → List Nat) (train : List α) (fuel : Nat) (d : List K) (l : List α) (u : Coll α) (batch : Int) :
    Option (Except PyErr (List K × List α)) :=
  if batch ≤ 0 then some (.error .assertionError)
  else if (u.items.length : Int) ≤ batch then some (.ok (d, u.items))
  else
    match positions train l with
    | .error e => some (.error e)
    | .ok lab => densityLoop nbrs train u.items lab batch.toNat fuel (markLow d lab) [] []

/-- The inner loop of `QueryExpectedErrorReduction.select` (query_labels.py:705-711) for one example: `row` is its row of `pv`, `loss y`
the loss of the model trained with label `y` for it. The class label is used as a column. -/
def eerScore (row : List K) (loss : Int → K) : List Int → Except PyErr K
  | [] => .ok 0
  | y :: ys =>
    match pyAt row y with
    | none => .error .indexError
    | some p => (eerScore row loss ys).map (fun s => p * loss y + s)

/-- The outer loop, query_labels.py:698-711: `i` counts the examples. -/
def eerScores (classes : List Int) (loss : Nat → Int → K) : Nat → List (List K) → Except PyErr (List K)
  | _, [] => .ok []
  | i, row :: rows =>
    match eerScore row (loss i) classes with
    | .error e => .error e
    | .ok s => (eerScores classes loss (i + 1) rows).map (fun r => s :: r)

/-- `QueryExpectedErrorReduction.select`, query_labels.py:653-713; `classes = np.unique(y)`, `pv` is the prediction for the unlabelled
examples and `loss i y` the loss on the rest after adding example `i` with label `y`. -/
def eer (argsort : List K → List Nat) (u : Coll α) (classes : List Int) (pv : List (List K)) (loss : Nat → Int → K) (batch : Int) :
    Except PyErr (List α) :=
  frame u batch (
    match eerScores classes loss 0 pv with
    | .error e => .error e
    | .ok scores => nsmallestarg (argsort scores) batch)

/-- `QueryInstanceLAL.select`, query_labels.py:1736-1786: `pred` is the prediction of the selector, `none` if it is not trained. -/
def lal (argsort : List K → List Nat) (u : Coll α) (pred : Option (List K)) (batch : Int) : Except PyErr (List α) :=
  match pred with
  | none => .error .valueError
  | some p => byLargest argsort u p batch

/-- A floating point number: a proper one, or an infinity or NaN not smaller than `np.inf`. query_labels.py:877-880. -/
inductive Ev (K : Type) where
  | fin (x : K) | notLess

/-- The search of `QueryInstanceQUIRE.select`, query_labels.py:843-844, 857-882: `(query_index, min_eva)`, `none` for `-1` and `inf`. -/
def quireLoop (eva : Nat → Ev K) : List Nat → Option (Nat × K) → Option (Nat × K)
  | [], best => best
  | p :: ps, best =>
    match eva p, best with
    | .notLess, best => quireLoop eva ps best
    | .fin e, none => quireLoop eva ps (some (p, e))
    | .fin e, some (q, m) => if e < m then quireLoop eva ps (some (p, e)) else quireLoop eva ps (some (q, m))

/-- `QueryInstanceQUIRE.select`, query_labels.py:812-883, for a given evaluation of the positions. Position `-1` is the last one. -/
def quire [DecidableEq α] (train : List α) (l u : List α) (eva : Nat → Ev K) : Except PyErr (List α) :=
  if u.length ≤ 1 then .ok u
  else
    match positions train l with
    | .error e => .error e
    | .ok _ =>
      match positions train u with
      | .error e => .error e
      | .ok ps =>
        match quireLoop eva ps none with
        | some (p, _) => (match train[p]? with | some x => .ok [x] | none => .error .indexError)
        | none => (match train.getLast? with | some x => .ok [x] | none => .error .indexError)

end
end Alipy.Select

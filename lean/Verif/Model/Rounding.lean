import Verif.Model.Select
import Verif.Model.Metrics
/-!
# Rounding: some computations as they are done in floating point

`rnd` is the rounding of an exact result to a floating point number. Addition, subtraction, multiplication and division of floating point
numbers give the rounded exact result (IEEE 754); comparisons, maxima and negation are exact. `np.sum` adds in an order of its own
(pairwise), which is a parameter.
-/
namespace Alipy.Rounding
open Alipy Alipy.Select

variable {α K : Type}

/-- An order of adding up one or more numbers. query_labels.py:218. -/
inductive Tree (K : Type) where
  | leaf (x : K)
  | node (l r : Tree K)

/-- The numbers added. query_labels.py:218. -/
def Tree.leaves : Tree K → List K
  | .leaf x => [x]
  | .node l r => l.leaves ++ r.leaves

section
variable [Field K] [LinearOrder K]

/-- The computed sum. query_labels.py:218. -/
def Tree.sum (rnd : K → K) : Tree K → K
  | .leaf x => x
  | .node l r => rnd (l.sum rnd + r.sum rnd)

/-- query_labels.py:230-231, as computed. -/
def least (rnd : K → K) (c : Nat) (row : List K) : K := rnd (1 - kth row (c - 1))

/-- query_labels.py:224-225, as computed. -/
def margin (rnd : K → K) (c : Nat) (row : List K) : K := rnd (kth row (c - 2) - kth row (c - 1))

/-- query_labels.py:217-218, one row, as computed: `-np.sum(vec * np.log(vec+1e-9))`; `log` is the computed logarithm and `tiny` the floating
point number written `1e-9`. -/
def entropy (rnd log : K → K) (tiny : K) (tree : List K → Tree K) (row : List K) : K :=
  -((tree (row.map (fun v => rnd (v * log (rnd (v + tiny)))))).sum rnd)

/-- `QueryInstanceUncertainty.select_by_prediction_mat` for matrices with at least two columns, query_labels.py:191-232, as computed. -/
def uncertainty (rnd log : K → K) (tiny : K) (tree : List K → Tree K) (argsort : List K → List Nat) (m : Measure) (u : Coll α) (c : Nat)
    (rows : List (List K)) (batch : Int) : Except PyErr (List α) :=
  match m with
  | .entropy => byLargest argsort u (rows.map (fun r => entropy rnd log tiny tree (clip r))) batch
  | .margin => byLargest argsort u (rows.map (margin rnd c)) batch
  | _ => byLargest argsort u (rows.map (least rnd c)) batch

/-- stopping_criteria.py:126, as computed, and line 102: has the fraction `value` been queried, of `n` examples when `k` have been queried? -/
def percentReached (rnd : K → K) (value : K) (n k : Nat) : Bool := decide (value ≤ rnd ((k : K) / n))

/-- `self.cost_inall` after costs have been added one by one, state_io.py:115, 350. -/
def costInAll (rnd : K → K) (costs : List K) : K := costs.foldl (fun acc c => rnd (acc + c)) 0

/-- stopping_criteria.py:94: has the cost limit been reached? -/
def costReached (rnd : K → K) (value : K) (costs : List K) : Bool := decide (value ≤ costInAll rnd costs)

end

/-- performance.py:216-219 without weights, as computed: `np.average` of truth values is their sum divided by their number. -/
def accuracy (rnd : ℚ → ℚ) (tree : List ℚ → Tree ℚ) (a b : List Int) : ℚ :=
  rnd ((tree (List.zipWith (fun x y => ofBool (decide (x = y))) a b)).sum rnd / a.length)

/-- al_split.py:114 (also 139, 240, 253, 266, 283), the size of the training set, as computed; `t` is the test ratio. -/
def trainSize (rnd : ℚ → ℚ) (t : ℚ) (n : Nat) : Int := pyRound (rnd (rnd (1 - t) * n))

/-- al_split.py:118 (also 141, 269, 286) and index_collections.py:225: a fraction of a set, as computed. -/
def fractionSize (rnd : ℚ → ℚ) (rate : ℚ) (n : Nat) : Int := pyRound (rnd (rate * n))

end Alipy.Rounding

import Verif.Model.Select
/-!
# Disagreement of a committee and density weighting: `alipy/query_strategy/query_labels.py`, lines 475-595 and 1891-1958

Committee predictions are given for every member (no `None` in the list). Logarithm, the power function and `np.argsort` are parameters.
-/
namespace Alipy.Select
open Alipy

variable {α K : Type} [Field K] [LinearOrder K]

/-- `calc_vote_entropy` for one example with one 0/1 output per label and member (query_labels.py:535-542): `votes` holds the rows of
the members. -/
def voteEntropyMat (log : K → K) (labels : Nat) (votes : List (List Nat)) : K :=
  -(((List.range labels).map (fun l =>
      let vote : Nat := (votes.map (fun r => r.getD l 0)).sum
      if vote ≠ 0 then (vote : K) / votes.length * log (((vote : K) + 1 / 1000000000) / votes.length) else 0)).sum)

/-- query_labels.py:530-532: `np.unique` of all predictions has to be `{0, 1}`. -/
def zeroOne (predict : List (List (List Nat))) : Bool :=
  predict.flatten.flatten.all (fun v => v == 0 || v == 1) && predict.flatten.flatten.contains 0 && predict.flatten.flatten.contains 1

/-- `QueryInstanceQBC.select_by_prediction_mat` with vote entropy and 2D outputs; `n` examples, `labels` labels. query_labels.py:441-473 and 527-553. -/
def qbcMat (log : K → K) (argsort : List K → List Nat) (u : Coll α) (n labels : Nat) (predict : List (List (List Nat))) (batch : Int) :
    Except PyErr (List α) :=
  frame u batch (
    if predict.length ≤ 1 then .error .valueError
    else if !zeroOne predict then .error .valueError
    else nlargestarg (argsort ((List.range n).map (fun i => voteEntropyMat log labels (predict.map (fun m => m.getD i []))))) batch)

/-- `calc_avg_KL_divergence` for one example (query_labels.py:583-591): the distributions predicted by the members. -/
def klScore (log : K → K) (labels : Nat) (inst : List (List K)) : K :=
  ((List.range labels).map (fun lab =>
    let consensus := (inst.map (fun r => r.getD lab 0)).sum / inst.length + 1 / 1000000000
    (inst.map (fun r => r.getD lab 0 * log ((r.getD lab 0 + 1 / 1000000000) / consensus))).sum)).sum

/-- `QueryInstanceQBC.select_by_prediction_mat` with the KL divergence (query_labels.py:441-473). -/
def qbcKL (log : K → K) (argsort : List K → List Nat) (u : Coll α) (n labels : Nat) (predict : List (List (List K))) (batch : Int) :
    Except PyErr (List α) :=
  frame u batch (
    if predict.length ≤ 1 then .error .valueError
    else nlargestarg (argsort ((List.range n).map (fun i => klScore log labels (predict.map (fun m => m.getD i []))))) batch)

/-- query_labels.py:1933-1949: the uncertainty term of density weighting, one row of `c` probabilities. -/
def densityPat (log : K → K) (m : Measure) (c : Nat) (row : List K) : K :=
  match m with
  | .entropy => entropyScore log row
  | .margin => marginScore c row
  | _ => leastScore c row

/-- query_labels.py:1952-1954: the mean of every column of the (symmetric) distance matrix, to the power `beta`. -/
def densityDiv (pow : K → K) (dis : List (List K)) : List K :=
  (List.range dis.length).map (fun j => pow ((dis.map (fun r => r.getD j 0)).sum / dis.length))

/-- `QueryInstanceDensityWeighted.select` with `proba_prediction`, query_labels.py:1922-1958; `dis` is the matrix of pairwise distances
of the unlabelled examples and `pow x = x ** beta`. -/
def densitySelect (log pow : K → K) (argsort : List K → List Nat) (m : Measure) (u : Coll α) (c : Nat) (rows dis : List (List K)) (batch : Int) :
    Except PyErr (List α) :=
  densityWeighted argsort u (rows.map (densityPat log m c)) (densityDiv pow dis) batch

end Alipy.Select

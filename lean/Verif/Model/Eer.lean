import Verif.Model.Select
import Verif.Model.Split
import Mathlib.Analysis.SpecialFunctions.Log.Basic
import Mathlib.Algebra.Order.Monoid.WithTop
import Mathlib.Data.List.Dedup
import Mathlib.Data.List.Sort
/-!
# The whole of `QueryExpectedErrorReduction`: `alipy/query_strategy/query_labels.py`, lines 600-713

`Verif.Model.Pool` has the selection for arbitrary losses; here the losses are those that are computed from the retrained models. A floating point number is a real number or NaN (`⊤`: numpy sorts NaN
to the end, and an operation with NaN gives NaN). The model is given by two functions: `fit` of the training examples with their labels, in order, and `predict`, the probabilities of an example. The
infinities do not occur: a logarithm of zero is multiplied by that zero, which makes NaN.
-/
namespace Alipy.Eer
open Alipy Alipy.Select

variable {α μ : Type}

/-- `- p * np.log(p)`, line 650: NaN for zero (and for negative numbers). -/
noncomputable def term (p : ℝ) : WithTop ℝ := if p ≤ 0 then ⊤ else ((-(p * Real.log p) : ℝ) : WithTop ℝ)

/-- `log_loss`, lines 634-651. -/
noncomputable def logLoss (prob : List (List ℝ)) : WithTop ℝ := prob.foldl (fun acc row => row.foldl (fun acc p => acc + term p) acc) 0

/-- The product with a number, line 710. -/
noncomputable def scale (p : ℝ) (l : WithTop ℝ) : WithTop ℝ := l.map (fun v => p * v)

/-- The inner loop, lines 705-711, for one example `x`: `row` is its row of `pv`, `lab` the labelled examples with their labels, `rest` the other unlabelled ones. The label is used as a column. -/
noncomputable def score (fit : List (α × Int) → μ) (predict : μ → α → List ℝ) (lab : List (α × Int)) (rest : List α) (row : List ℝ) (x : α) : List Int → Except PyErr (WithTop ℝ)
  | [] => .ok 0
  | y :: ys =>
    match pyAt row y with
    | none => .error .indexError
    | some p => (score fit predict lab rest row x ys).map (fun s => scale p (logLoss (rest.map (predict (fit (lab ++ [(x, y)]))))) + s)

/-- The outer loop, lines 698-711, over the positions `ps` of `unlabel_index`; `model` is the model before the query. -/
noncomputable def scores (fit : List (α × Int) → μ) (predict : μ → α → List ℝ) (model : μ) (lab : List (α × Int)) (u : List α) (classes : List Int) : List Nat → Except PyErr (List (WithTop ℝ))
  | [] => .ok []
  | i :: ps =>
    match u[i]? with
    | none => .error .indexError
    | some x =>
      match score fit predict lab (u.eraseIdx i) (predict model x) x classes with
      | .error e => .error e
      | .ok s => (scores fit predict model lab u classes ps).map (fun r => s :: r)

/-- `np.unique(self.y)`, line 694. -/
def classes (y : List Int) : List Int := y.dedup.insertionSort (· ≤ ·)

/-- `select`, lines 653-713; `model` is the model that is passed (or else trained with the labelled examples), `y` all labels. The check of the prediction is that of lines 66-71. -/
noncomputable def select (argsort : List (WithTop ℝ) → List Nat) (fit : List (α × Int) → μ) (predict : μ → α → List ℝ) (model : Option μ) (lab : List (α × Int)) (y : List Int) (u : Coll α) (batch : Int) :
    Except PyErr (List α) :=
  let m := model.getD (fit lab)
  frame u batch (
    if (u.items.map (predict m)).any (fun r => r.length == 1) then .error .genericException
    else match scores fit predict m lab u.items (classes y) (List.range u.items.length) with
      | .error e => .error e
      | .ok s => nsmallestarg (argsort s) batch)

end Alipy.Eer

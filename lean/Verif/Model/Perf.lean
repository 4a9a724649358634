import Verif.Model.Metrics
import Verif.Model.RankingMetrics
/-!
# `ToolBox.calc_performance_metric` and the performance recorded by `AlExperiment`

toolbox.py:416-445, al_experiment.py:382-383 and 413-414. Labels are integers and scores rationals, as in the models of the metrics.
-/
namespace Alipy.Perf
open Alipy

/-- The metrics with a name in the list of toolbox.py:434-435. -/
inductive Name where
  | accuracy | rocAuc | fpsTps | hamming | oneError | coverage | f1 | rankingLoss | lrap
  deriving DecidableEq, Repr

/-- toolbox.py:434-437; any other name is refused. -/
def parse : String → Except PyErr Name
  | "accuracy_score" => .ok .accuracy
  | "roc_auc_score" => .ok .rocAuc
  | "get_fps_tps_thresholds" => .ok .fpsTps
  | "hamming_loss" => .ok .hamming
  | "one_error" => .ok .oneError
  | "coverage_error" => .ok .coverage
  | "f1_score" => .ok .f1
  | "label_ranking_loss" => .ok .rankingLoss
  | "label_ranking_average_precision_score" => .ok .lrap
  | _ => .error .notImplementedError

/-- The array of predictions: labels, or scores in one or two dimensions (with the number of columns). toolbox.py:416. -/
inductive Pred where
  | labels (t : Tgt)
  | scores (l : List ℚ)
  | table (cols : Nat) (rows : List (List ℚ))

/-- What is returned: a number (`none`: NaN), or the points of the curve. toolbox.py:442 and 445. -/
inductive Value where
  | num (q : Option ℚ)
  | points (l : List (Nat × Nat))
  deriving DecidableEq, Repr

/-- `y_pred[:, 0]`, toolbox.py:444: an `IndexError` for one dimension or without columns. Labels are numbers, too. -/
def firstColumn : Pred → Except PyErr (List ℚ)
  | .labels (.vec _) => .error .indexError
  | .labels (.mat c rows) => if c = 0 then .error .indexError else .ok (rows.map (fun r => (r.headD 0 : ℚ)))
  | .scores _ => .error .indexError
  | .table c rows => if c = 0 then .error .indexError else .ok (rows.map (fun r => r.headD 0))

/-- The numbers of a prediction with two dimensions. toolbox.py:442. -/
def Pred.rows : Pred → Option (List (List ℚ))
  | .labels (.mat _ rows) => some (rows.map (fun r => r.map (fun (x : Int) => (x : ℚ))))
  | .table _ rows => some rows
  | _ => none

/-- `accuracy_score` and `hamming_loss` with scores instead of labels are not modelled further than: `_check_targets` looks at the number of
values only; such calls are an error here. performance.py:210 and 517. -/
def onLabels (f : Tgt → Except PyErr (Option ℚ)) : Pred → Except PyErr Value
  | .labels t => (f t).map Value.num
  | _ => .error .valueError

/-- performance.py:587-591 with scores of one dimension: the lengths, the type of the targets, then the mask of `y_true` does not fit. -/
def coverageVec (y : Tgt) (s : List ℚ) : Except PyErr (Option ℚ) :=
  if y.len ≠ s.length then .error .valueError
  else
    match typeOfTarget y with
    | .error e => .error e
    | .ok .multilabel => .error .genericException
    | .ok _ => .error .valueError

/-- performance.py:628-635 with scores of one dimension. -/
def rankingLossVec (y : Tgt) (s : List ℚ) : Except PyErr (Option ℚ) :=
  if y.len ≠ s.length then .error .valueError
  else
    match typeOfTarget y with
    | .error e => .error e
    | .ok _ => .error .valueError

/-- performance.py:692-701 with scores of one dimension. -/
def lrapVec (y : Tgt) (s : List ℚ) : Except PyErr (Option ℚ) :=
  if y.len ≠ s.length then .error .valueError
  else
    match y with
    | .mat _ _ => .error .valueError
    | .vec _ =>
      match typeOfTarget y with
      | .error e => .error e
      | .ok _ => .error .valueError

/-- `roc_auc_score` and `get_fps_tps_thresholds` for true labels of one dimension (others are not modelled: an error). performance.py:298 and 465. -/
def onVector {β : Type} (f : List Int → Except PyErr β) : Tgt → Except PyErr β
  | .vec y => f y
  | .mat _ _ => .error .valueError

/-- The call of the metric with keyword `y_score`, toolbox.py:445; `pos` is the keyword `pos_label`. -/
def withScore (n : Name) (y : Tgt) (s : List ℚ) (pos : Option Int) : Except PyErr Value :=
  match n with
  | .rocAuc => (onVector (fun y => rocAucScore y s pos) y).map (fun q => .num (some q))
  | .fpsTps => (onVector (fun y => Alipy.fpsTps y s pos) y).map Value.points
  | .coverage => (coverageVec y s).map Value.num
  | .rankingLoss => (rankingLossVec y s).map Value.num
  | _ => (lrapVec y s).map Value.num

/-- `calc_performance_metric(y_true, y_pred, performance_metric, pos_label=..., sample_weight=...)`, toolbox.py:434-445. `f1` is sklearn's
`f1_score`. The parameter names of the metrics (`'y_pred' in metric_para.parameters`): performance.py:192, 298, 465, 492, 531, 561, 598, 671. -/
def calcPerformance (f1 : Tgt → Pred → Except PyErr Value) (y : Tgt) (p : Pred) (name : String) (pos : Option Int) (w : Option (List ℚ)) :
    Except PyErr Value :=
  match parse name with
  | .error e => .error e
  | .ok .accuracy => onLabels (fun t => accuracyScore y t w) p
  | .ok .hamming => onLabels (fun t => hammingLoss y t) p
  | .ok .f1 => f1 y p
  | .ok .oneError =>
    match y, p.rows with
    | .mat c rows, some r => (RankMetrics.oneError c rows r w).map (fun q => .num (some q))
    | _, _ => .error .valueError
  | .ok n =>
    match firstColumn p with
    | .error e => .error e
    | .ok s => withScore n y s pos

/-- The performance recorded by `AlExperiment` with `roc_auc_score`, al_experiment.py:369, 383, 411 and 414: of the labels that the model
predicts. -/
def experimentAuc (y pred : List Int) : Except PyErr ℚ := rocAucScore y (pred.map (fun (c : Int) => (c : ℚ))) none

end Alipy.Perf

import Verif.Model.Perf
import Verif.Spec.Metrics
/-! What is expected of computed performances. -/
namespace Alipy.Spec

/-- Two columns of class probabilities, as `predict_proba` returns them: the class with the greater label is the second one. -/
def probaTable (p : List ℚ) : Perf.Pred := .table 2 (p.map (fun v => [1 - v, v]))

/-- The part of the examples with true label `c` for which `c` is predicted. -/
def recallOf (c : Int) (y pred : List Int) : ℚ :=
  ((y.zip pred).countP (fun q => decide (q.1 = c ∧ q.2 = c)) : ℚ) / (y.countP (fun x => decide (x = c)) : ℚ)

end Alipy.Spec

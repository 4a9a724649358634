import Verif.Model.Experiment

/-! # What a round of an `AlExperiment` reads from the labels: `alipy/experiment/al_experiment.py` lines 361-421 -/
namespace Alipy.Causal
open Alipy Exper

/-- The parts of an experiment that are fixed before any label is read. `fit` gets the labelled indexes with their labels (`self._y[Lcollection.index]`, lines 368 and
410), `metric` the labels of the test examples and the model (`self._performance_metric(self._y[test_id], pred)`, lines 383 and 414), `ask` is the query strategy: it gets
the model and the labels of the labelled examples (C88: the strategies read no others). -/
structure Study (β μ : Type) where
  fit : List (Val × β) → Except PyErr μ
  test : Nat → List Val
  metric : Nat → List β → μ → Obj (List Val)
  ask : Nat → Nat → μ → List (Val × β) → IC → IC → Except PyErr (List Val)
  clock : Nat → Nat → ℚ

/-- The indexes with their labels. al_experiment.py lines 368 and 410. -/
def withLabels {β : Type} (y : Key → β) (l : List Val) : List (Val × β) := l.map fun v => (v, y v.key)

/-- The experiment with labels `y`, as the rounds of Model/Experiment.lean see it (al_experiment.py lines 361-421). -/
def Study.env {β μ : Type} (S : Study β μ) (y : Key → β) : Env μ where
  train l := S.fit (withLabels y l)
  perf k m := S.metric k ((S.test k).map fun v => y v.key) m
  strat k i m L U := S.ask k i m (withLabels y L.inner) L U
  clock := S.clock

/-- A round alone after `n` steps (lines 361-421), with the model it has made. -/
def after {μ : Type} (env : Env μ) (k : Nat) (r : Round) : Nat → Option μ × Round
  | 0 => (none, r)
  | n + 1 => step env k (after env k r n).1 (after env k r n).2

end Alipy.Causal

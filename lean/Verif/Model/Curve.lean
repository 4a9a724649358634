import Verif.Model.Experiment
import Verif.Model.Analyser

/-! # From an experiment to its learning curve: `AlExperiment.get_experiment_result` (al_experiment.py lines 424-435) handed to
`ExperimentAnalyser.add_method` and `plot_learning_curves` (experiment_analyser.py lines 322-500)

The rounds are those of Model/Experiment.lean, the analyser that of Model/Analyser.lean; here is what the analyser reads from the `StateIO` object of a round. Performances that are no
numbers are not modelled. -/
namespace Alipy.Exper
open Alipy

/-- A performance that is a number (as the metrics return it), al_experiment.py lines 383 and 414. -/
def number : Obj (List Val) → Option ℚ
  | .arr [x] => some x
  | _ => none

/-- `state.get_value('performance')` of a recorded state, experiment_analyser.py lines 187-191. -/
def performance (e : Entry (List Val)) : Option ℚ :=
  match StateIO.entryGet e "performance" with
  | .ok o => number o
  | .error _ => none

/-- The `StateIO` object of a round as the analyser reads it (experiment_analyser.py lines 183-192 and 281-288): the initial point (al_experiment.py line 387) and the performances. -/
def fold (r : Round) : Option (Analyser.Fold ℚ) :=
  match r.init.bind number, r.s.saver.states.mapM performance with
  | some p, some ps => some ⟨some p, ps⟩
  | _, _ => none

/-- `get_experiment_result`, al_experiment.py lines 424-435: the `StateIO` objects in the order of the rounds. -/
def results (rs : List Round) : Option (Analyser.Results ℚ) := (rs.mapM fold).map .states

end Alipy.Exper

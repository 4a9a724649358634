import Verif.Model.Session
/-! What it means that two programs have made the same run. -/
namespace Alipy.Spec

/-- Two states record the same query: selected indexes and performance. -/
structure SameRecord (e e' : Entry (List Val)) : Prop where
  select : StateIO.entryGet e "select_index" = StateIO.entryGet e' "select_index"
  perf : StateIO.entryGet e "performance" = StateIO.entryGet e' "performance"

/-- The experiment has ended like the script: with the same sets, the same queries in the same order, the same number of queried examples, and
the stopping criterion at the same point. -/
structure SamePlace {ρ : Type} (l : LoopState) (s : Session ρ) : Prop where
  labelled : l.L = s.L
  unlabelled : l.U = s.U
  stop : l.stop = s.stop
  start : l.saver.initL = s.saver.initL ∧ l.saver.initU = s.saver.initU
  count : l.saver.numq = s.saver.numq
  queries : List.Forall₂ SameRecord l.saver.states s.saver.states

end Alipy.Spec

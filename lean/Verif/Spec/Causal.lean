import Verif.Model.Causal

/-! Spec for what the queries of an experiment may depend on. -/
namespace Alipy.Spec
open Alipy Exper

/-- Two recorded queries are the same except for the performance. -/
def SameQuery (e e' : Entry (List Val)) : Prop :=
  ∃ sel p p', e = .st (State.new icOps (.inr sel) p none none) ∧ e' = .st (State.new icOps (.inr sel) p' none none)

/-- Two rounds have done the same, except for the performances measured: the same steps, index sets, queries, stopping information, and exception if any. -/
structure SameTrace (r r' : Round) : Prop where
  pc : r.pc = r'.pc
  i : r.i = r'.i
  L : r.s.L = r'.s.L
  U : r.s.U = r'.s.U
  stop : r.s.stop = r'.s.stop
  sel : r.sel = r'.sel
  err : r.err = r'.err
  started : r.init.isSome = r'.init.isSome
  queries : List.Forall₂ SameQuery r.s.saver.states r'.s.saver.states
  totals : r.s.saver.cost = r'.s.saver.cost ∧ r.s.saver.numq = r'.s.saver.numq ∧ r.s.saver.batch = r'.s.saver.batch
  initial : r.s.saver.initL = r'.s.saver.initL ∧ r.s.saver.initU = r'.s.saver.initU

/-- The two label vectors agree on the given indexes. -/
def AgreeOn {β : Type} (y y' : Key → β) (l : List Val) : Prop := ∀ v ∈ l, y v.key = y' v.key

/-- A strategy that selects from the unlabelled examples. -/
def FromUnlabelled {β μ : Type} (S : Causal.Study β μ) : Prop := ∀ k i m l L U sel, S.ask k i m l L U = .ok sel → ∀ v ∈ sel, v.key ∈ U.inner.map Val.key

end Alipy.Spec

import Verif.Model.Session
import Verif.Spec.Workspace
import Verif.Spec.Stopping
import Mathlib.Data.List.Dedup
/-! Notions used to state what a whole active-learning session does. -/
namespace Alipy.Spec

/-- The price of asking for example `n`: its cost if costs were given, otherwise 1. -/
def price (cost : Option (List ℚ)) (n : Nat) : ℚ :=
  match cost with
  | none => 1
  | some cs => cs.getD n 0

/-- The training data `(labels, indexes)` is the true labelling of the examples `ns`, in this order. -/
def TrueData {β : Type} (y : List β) (ns : List Nat) (labels : List β) (indexes : List Key) : Prop :=
  indexes = ns.map (fun n : Nat => Key.num n) ∧ List.Forall₂ (fun (n : Nat) b => y[n]? = some b) ns labels

/-- The index `n` as an element of a list or array. -/
def item (np : Bool) (n : Nat) : Val := ⟨np, .int n⟩

/-- What is assumed of the strategy: from a non-empty unlabelled set (without repetitions) it returns a non-empty list of its members,
none of them twice. -/
def GoodChoice {ρ : Type} (strat : Nat → Session ρ → Except PyErr (List Val)) : Prop :=
  ∀ i s, s.U.inner ≠ [] → (s.U.inner.map Val.key).Nodup → ∃ sel, strat i s = .ok sel ∧ sel ≠ [] ∧
    (∀ v ∈ sel, v.key ∈ s.U.inner.map Val.key) ∧
    (sel.map Val.key).Nodup

/-- The state `e` records the batch `ns`: the selected indexes and their prices. -/
def RecordsBatch (cost : Option (List ℚ)) (e : Entry (List Val)) (ns : List Nat) : Prop :=
  ∃ st sel, e = .st st ∧ st.getValue "select_index" = .ok (.sel sel) ∧ sel.map Val.key = ns.map (fun n : Nat => Key.num n) ∧
    st.getValue "cost" = .ok (.arr (ns.map (price cost)))

/-- What is left of the pool `us` after the batches `qs`. -/
def remaining (us : List Nat) (qs : List (List Nat)) : List Nat := us.dedup.filter (fun n => decide (n ∉ qs.flatten))

/-- What was spent on the batches `qs`. -/
def spentOn (cost : Option (List ℚ)) (qs : List (List Nat)) : ℚ := (qs.flatten.map (price cost)).sum

/-- What a user expects of a finished session that started with the labelled examples `ls` and the unlabelled examples `us`, asked for
the batches `qs` in this order, and ended with the objects `r`; `training` and `spent` are what the repository returns as training
data and as total cost, `y` the true labels, `cost` the prices, `v` the bound of the stopping criterion. -/
structure SessionOutcome {ρ β : Type} (y : List β) (cost : Option (List ℚ)) (ls us : List Nat) (clock : Nat → ℚ) (stop : Stop) (v : ℚ)
    (r : Session ρ) (training : Except PyErr (List β × List Key)) (spent : ℚ) (qs : List (List Nat)) : Prop where
  /-- no example is asked for twice, or although its label is known -/
  once : (ls ++ qs.flatten).Nodup
  /-- all examples asked for were unlabelled ones, and no batch was empty -/
  pool : ∀ n ∈ qs.flatten, n ∈ us
  batches : ∀ ns ∈ qs, ns ≠ []
  /-- the labelled set holds the initial and the queried examples, the unlabelled set the others, each once -/
  labelled : (r.L.inner.map Val.key).Perm ((ls ++ qs.flatten).map (fun n : Nat => Key.num n))
  unlabelled : (r.U.inner.map Val.key).Perm ((remaining us qs).map (fun n : Nat => Key.num n))
  /-- the repository holds exactly the labelled examples, with their true labels -/
  data : ∃ labels indexes, training = .ok (labels, indexes) ∧ TrueData y (ls ++ qs.flatten) labels indexes
  /-- repository and saver agree on what was spent: the prices of the queried examples -/
  repoCost : spent = spentOn cost qs
  saverCost : r.saver.cost = spentOn cost qs
  saverCount : r.saver.numq = qs.flatten.length
  /-- the saver recorded every batch with its prices, and its workspace is the current one -/
  recorded : List.Forall₂ (RecordsBatch cost) r.saver.states qs
  workspace : StateIO.getWorkspace icOps r.saver none = .ok (r.L, r.U)
  /-- stopped with a reason -/
  stopped : remaining us qs = [] ∨ BoundReached stop.crit v qs.length (spentOn cost qs) us.dedup.length (remaining us qs).length
    (clock qs.length - stop.startTime)
  /-- and not later than necessary: before each of the queries there were unlabelled examples and the bound was not reached -/
  inTime : ∀ k : Nat, k < qs.length → remaining us (qs.take k) ≠ [] ∧
    ¬ BoundReached stop.crit v k (spentOn cost (qs.take k)) us.dedup.length (remaining us (qs.take k)).length (clock k - stop.startTime)

end Alipy.Spec

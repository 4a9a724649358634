import Verif.Model.Oracle
/-! Notions used to state the oracle properties: a log of what the oracle was told, and the most recent entry for a key.
From the model only the record type of one entry of knowledge and the syntax of index tuples are used. -/
namespace Alipy.Spec

/-- `a` is the last entry of `log` whose key is `k`. -/
def MostRecent {α κ : Type} (log : List α) (key : α → κ) (k : κ) (a : α) : Prop :=
  ∃ pre post, log = pre ++ a :: post ∧ key a = k ∧ ∀ b ∈ post, key b ≠ k

/-- `log` is the list of entries given by parallel argument lists, an absent list giving absent components. -/
def Reads {χ β : Type} (log : List (Oracle.Entry χ β)) (labels : List β) (indexes : List Key) (examples : Option (List χ))
    (cost : Option (List ℚ)) : Prop :=
  log.map Oracle.Entry.label = labels ∧ log.map Oracle.Entry.index = indexes ∧
  (match examples with | none => ∀ e ∈ log, e.ex = none | some xs => log.map Oracle.Entry.ex = xs.map some) ∧
  (match cost with | none => ∀ e ∈ log, e.cost = none | some cs => log.map Oracle.Entry.cost = cs.map some)

/-- The label positions an index tuple asks for, in order. -/
def positions (w : Nat) : Ix → List Nat
  | .all _ => List.range w
  | .pair _ (.scal l) => [l.toNat]
  | .pair _ (.iter _ ls) => ls.map Int.toNat
  | _ => []

/-- One fact told to a multi-label oracle: the labels of an instance and, possibly, their costs. -/
structure Fact (β : Type) where
  index : Int
  row : List β
  cost : Option (List ℚ)
  deriving DecidableEq, Repr

end Alipy.Spec

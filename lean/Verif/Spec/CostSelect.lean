import Mathlib.Order.Basic
import Mathlib.Logic.Relation
import Mathlib.Algebra.BigOperators.Group.Finset.Basic
import Mathlib.Algebra.Field.Defs
import Mathlib.Data.List.Basic
/-!
# Sorting the entries of a column; informativeness in a label hierarchy
-/
namespace Alipy.Spec

/-- `l` lists the positions `0 .. n-1` in an order in which `f` ascends. -/
def Sorts {V : Type} [LE V] (n : Nat) (f : Nat → V) (l : List Nat) : Prop := l.Perm (List.range n) ∧ l.Pairwise (fun a b => f a ≤ f b)

/-- The costs of the `c` classes given by the argument: 1 each if there is none. -/
def CostsOf (c : Nat) (cost : Option (List Int)) (costs : List Int) : Prop :=
  (cost = none ∧ costs = List.replicate c 1) ∨ (cost = some costs ∧ costs.length = c)

open Classical in
/-- The documented informativeness of label `j`: its uncertainty, and the uncertainties of its ancestors if it is predicted positive, of its descendants if it
is predicted negative. -/
noncomputable def hierInfo {K : Type} [Field K] (c : Nat) (parent : Nat → Nat → Prop) (u : Nat → K) (flag : Int) (j : Nat) : K :=
  (if flag = 1 then ∑ a ∈ (Finset.range c).filter (fun a => Relation.TransGen parent a j), u a else 0) +
  (if flag = -1 then ∑ d ∈ (Finset.range c).filter (fun d => Relation.TransGen parent j d), u d else 0) + u j

end Alipy.Spec

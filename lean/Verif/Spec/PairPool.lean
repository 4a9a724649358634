import Verif.Model.MultiLabelSelect
import Verif.Spec.MultiLabel

/-! What a pool argument of the pair-selecting strategies means (documentation of `select`): a collection holds its pairs, a list of
index tuples denotes what its members denote, an integer `k` denotes the pair at position `k` of the label matrix in column-major
order. Only the syntax `PairArg` is taken from the model. -/
namespace Alipy.Spec
open Alipy.MLSelect

/-- The pair `p` is offered by the argument, for a label matrix with `n` rows and `L` columns. -/
def Offered (n L : Nat) (a : PairArg) (p : Int × Int) : Prop :=
  match a with
  | .coll c => (p.1, Second.scal p.2) ∈ c.inner
  | .tuples items => ∃ ix, Item.tup ix ∈ items ∧ Denotes L ix p
  | .flat ks => 0 ≤ p.1 ∧ p.1 < n ∧ 0 ≤ p.2 ∧ p.2 < L ∧ p.1 + p.2 * n ∈ ks

/-- Number of `j < L` with a property. -/
noncomputable def countBelow (L : Nat) (P : Nat → Prop) : Nat :=
  open Classical in ((List.range L).filter (fun j => decide (P j))).length

/-- Informativeness of an instance in AUDI: the difference between the number of predicted labels (those scored above the dummy label,
column `L`) and the average number `avg` of relevant labels, per unknown label. -/
noncomputable def inconsistency {K : Type} [Field K] [LinearOrder K] (L : Nat) (score : Nat → K) (avg eps : K) (unknown : Nat → Prop) : K :=
  |((countBelow L (fun j => score L < score j) : K) - avg) / max (countBelow L unknown : K) eps|

end Alipy.Spec

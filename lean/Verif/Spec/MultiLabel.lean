import Verif.Model.MultiLabelTools

/-! What the index tuples of the multi-label setting mean (documentation of `MultiLabelIndexCollection`).
Only the *syntax* `Ix` of index tuples is taken from the model. -/
namespace Alipy.Spec

/-- `(e,)` denotes all labels of `e`, `(e,l)` one pair, `(e,[l1,..])` the listed labels. -/
def Denotes (L : Int) (ix : Ix) (p : Int × Int) : Prop :=
  match ix with
  | .all e => p.1 = e ∧ 0 ≤ p.2 ∧ p.2 < L
  | .pair e (.scal l) => p = (e, l)
  | .pair e (.iter _ ls) => p.1 = e ∧ p.2 ∈ ls
  | .nil => False
  | .longer _ _ => False

/-- A list of index tuples denotes what its members denote. -/
def DenotesAny (L : Int) (ixs : List Ix) (p : Int × Int) : Prop := ∃ ix ∈ ixs, Denotes L ix p

/-- A documented index: length 1 or 2, labels within the label set. -/
def Legal (L : Int) (ix : Ix) : Prop :=
  match ix with
  | .all _ => True
  | .pair _ (.scal l) => 0 ≤ l ∧ l < L
  | .pair _ (.iter _ ls) => ∀ l ∈ ls, 0 ≤ l ∧ l < L
  | .nil => False
  | .longer _ _ => False

/-- The instance an index speaks about. -/
def inst (ix : Ix) : Option Int :=
  match ix with
  | .all e => some e
  | .pair e _ => some e
  | .longer e _ => some e
  | .nil => none

end Alipy.Spec

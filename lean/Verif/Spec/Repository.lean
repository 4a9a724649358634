import Verif.Model.Repository
/-! Notions used to state the repository properties: a table of rows. -/
namespace Alipy.Spec

/-- One row of knowledge: an index, its label and, in a repository with examples, its example. -/
structure Row (κ β χ : Type) where
  index : κ
  label : β
  ex : Option χ
  deriving DecidableEq, Repr

/-- No two rows with the same index, no two rows with the same example. -/
def NoClash {κ β χ : Type} (rows : List (Row κ β χ)) : Prop :=
  rows.Pairwise (fun r s => r.index ≠ s.index ∧ ∀ x, r.ex = some x → s.ex ≠ some x)

/-- A row as kept by a repository with or without examples. -/
def keep {κ β χ : Type} (withEx : Bool) (r : Row κ β χ) : Row κ β χ := if withEx then r else { r with ex := none }

/-- `rows` is what parallel argument lists say, an absent list giving absent components. -/
def RowsOf {κ β χ : Type} (rows : List (Row κ β χ)) (labels : List β) (indexes : List κ) (examples : Option (List χ)) : Prop :=
  rows.map Row.label = labels ∧ rows.map Row.index = indexes ∧
  (∀ xs, examples = some xs → rows.map Row.ex = xs.map some) ∧ (examples = none → ∀ r ∈ rows, r.ex = none)

end Alipy.Spec

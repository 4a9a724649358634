import Mathlib.Data.List.Basic
import Mathlib.Data.List.Perm.Basic

/-! Listing the labels of a multi-label problem in another order: `perm` lists the old label at each new position. -/
namespace Alipy.Spec

/-- `perm` lists each of the labels `0 … L - 1` once. -/
def LabelOrder (L : Nat) (perm : List Nat) : Prop := perm.Perm (List.range L)

/-- The old label at the new position `k`. -/
def oldLabel (perm : List Nat) (k : Nat) : Nat := perm.getD k 0

/-- A row with its entries in the new order. -/
def reorderRow {α : Type} (d : α) (perm : List Nat) (r : List α) : List α := perm.map (fun j => r.getD j d)

/-- The label matrix with its columns in the new order. -/
def reorderColumns (perm : List Nat) (Y : List (List Int)) : List (List Int) := Y.map (reorderRow 0 perm)

end Alipy.Spec

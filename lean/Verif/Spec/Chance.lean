import Mathlib.Algebra.Order.Field.Rat
import Mathlib.Algebra.BigOperators.Group.Finset.Basic
import Mathlib.GroupTheory.Perm.Basic
import Mathlib.Data.Fintype.Perm
import Mathlib.Data.List.OfFn

/-! # What it means to guess -/
namespace Alipy.Spec

/-- The first `n` entries of a list in the order given by a permutation. -/
def shuffle {α : Type} (n : Nat) (d : α) (l : List α) (σ : Equiv.Perm (Fin n)) : List α := List.ofFn (fun i : Fin n => l.getD (σ i) d)

/-- The mean over all `n!` orders. -/
def averageOver (n : Nat) (f : Equiv.Perm (Fin n) → ℚ) : ℚ := (∑ σ, f σ) / n.factorial

end Alipy.Spec

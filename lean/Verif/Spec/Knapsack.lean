import Mathlib.Algebra.Order.Field.Basic
import Mathlib.Algebra.BigOperators.Group.List.Basic
/-!
# Selections of items
-/
namespace Alipy.Spec

/-- The sum of the entries selected. -/
def sumOf {M : Type} [AddMonoid M] : List Bool → List M → M
  | true :: s, x :: l => x + sumOf s l
  | false :: s, _ :: l => sumOf s l
  | _, _ => 0

end Alipy.Spec

import Mathlib.Data.Real.Basic
import Mathlib.Algebra.BigOperators.Group.Finset.Defs
import Mathlib.Data.Fintype.Basic
/-!
# Distances of examples
-/
namespace Alipy.Spec

/-- The squared Euclidean distance. -/
def sqDist {φ : Type} [Fintype φ] (x y : φ → ℝ) : ℝ := ∑ f, (x f - y f) ^ 2

end Alipy.Spec

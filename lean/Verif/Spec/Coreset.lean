import Mathlib.Algebra.Order.Field.Basic
/-!
# Covering a pool with balls
-/
namespace Alipy.Spec

/-- A pseudo-metric. -/
structure PseudoMetric {α K : Type} [Field K] [LinearOrder K] (D : α → α → K) : Prop where
  self : ∀ x, D x x = 0
  nonneg : ∀ x y, 0 ≤ D x y
  symm : ∀ x y, D x y = D y x
  triangle : ∀ x y z, D x z ≤ D x y + D y z

/-- Every member of `pool` is within distance `r` of one of `centres`. -/
def Covers {α K : Type} [LE K] (D : α → α → K) (pool centres : List α) (r : K) : Prop := ∀ x ∈ pool, ∃ c ∈ centres, D x c ≤ r

end Alipy.Spec

import Mathlib.Algebra.Order.Field.Basic
/-! # What is known about a collection that is made of two parts -/
namespace Alipy.Spec

variable {K : Type} [Field K]

/-- The mean of `n₁` values with the mean `m₁` and `n₂` values with the mean `m₂`. -/
def pooledMean (n₁ : Nat) (m₁ : K) (n₂ : Nat) (m₂ : K) : K := (n₁ * m₁ + n₂ * m₂) / (n₁ + n₂)

/-- Their variance: the mean of the variances, and what is due to the distance of the means. -/
def pooledVariance (n₁ : Nat) (m₁ v₁ : K) (n₂ : Nat) (m₂ v₂ : K) : K := pooledMean n₁ v₁ n₂ v₂ + n₁ * n₂ / (n₁ + n₂) ^ 2 * (m₁ - m₂) ^ 2

/-- At every place where one of the curves has a point, all three have one, and the third is the mean of the other two, weighted with the numbers of folds. -/
def PooledCurve (n₁ n₂ : Nat) (c₁ c₂ c : List (K × K)) : Prop :=
  (∀ x, (x ∈ c.map Prod.fst ↔ x ∈ c₁.map Prod.fst) ∧ (x ∈ c.map Prod.fst ↔ x ∈ c₂.map Prod.fst)) ∧
    ∀ x v v₁ v₂, (x, v) ∈ c → (x, v₁) ∈ c₁ → (x, v₂) ∈ c₂ → v = pooledMean n₁ v₁ n₂ v₂

end Alipy.Spec

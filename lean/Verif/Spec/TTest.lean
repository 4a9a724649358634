import Mathlib.Analysis.Real.Sqrt
import Mathlib.Algebra.BigOperators.Fin
/-!
# The paired t-test
-/
namespace Alipy.Spec

/-- `m` and `v` are the mean and the sample variance of the differences of matched pairs. -/
def MeanVariance (pairs : List (ℝ × ℝ)) (m v : ℝ) : Prop :=
  m * pairs.length = ∑ i : Fin pairs.length, (pairs[i].1 - pairs[i].2) ∧
  v * ((pairs.length : ℝ) - 1) = ∑ i : Fin pairs.length, ((pairs[i].1 - pairs[i].2) - m) ^ 2

/-- What is known of the survival functions `sf k` of Student's distributions with `k` degrees of freedom. -/
structure IsStudent (sf : Nat → ℝ → ℝ) : Prop where
  nonneg : ∀ k t, 0 ≤ sf k t
  decreasing : ∀ k s t, 1 ≤ k → s ≤ t → sf k t ≤ sf k s

/-- With two degrees of freedom the distribution is an elementary function. -/
def IsStudentTwo (sf : Nat → ℝ → ℝ) : Prop := ∀ t, sf 2 t = 1 / 2 - t / (2 * √(2 + t ^ 2))

end Alipy.Spec

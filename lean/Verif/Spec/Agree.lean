import Mathlib.Data.Real.Basic
/-! What is expected of uncertainty measures: the listing of classes and examples, and two classes. -/
namespace Alipy.Spec

/-- The two class probabilities of an example, both possible. -/
def TwoClasses (r : List ℝ) : Prop := ∃ p, 0 < p ∧ p < 1 ∧ r = [p, 1 - p]

/-- The probability of the predicted class. -/
def confidence (r : List ℝ) : ℝ := r.foldl max 0

end Alipy.Spec

import Mathlib.Analysis.SpecialFunctions.Log.NegMulLog
/-!
# The expected future uncertainty of a query
-/
namespace Alipy.Spec

/-- The entropy of a distribution. -/
noncomputable def shannon (row : List ℝ) : ℝ := (row.map fun p => -(p * Real.log p)).sum

/-- The sum of the entropies of the predictions for the other unlabelled examples, after training with `x` labelled `y`. -/
noncomputable def futureEntropy {α μ : Type} [DecidableEq α] (fit : List (α × Int) → μ) (predict : μ → α → List ℝ) (lab : List (α × Int)) (pool : List α) (x : α) (y : Int) : ℝ :=
  ((pool.filter fun z => decide (z ≠ x)).map fun z => shannon (predict (fit (lab ++ [(x, y)])) z)).sum

/-- Its expectation, if `x` has class `k` with the probability that the present model predicts. -/
noncomputable def risk {α μ : Type} [DecidableEq α] (fit : List (α × Int) → μ) (predict : μ → α → List ℝ) (model : μ) (lab : List (α × Int)) (pool : List α) (c : ℕ) (x : α) : ℝ :=
  ((List.range c).map fun k => (predict model x).getD k 0 * futureEntropy fit predict lab pool x k).sum

/-- A prediction for `c` classes, none of which is excluded. -/
def Positive (c : ℕ) (row : List ℝ) : Prop := row.length = c ∧ ∀ p ∈ row, 0 < p

end Alipy.Spec

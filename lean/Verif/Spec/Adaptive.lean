import Mathlib.Data.Real.Basic
import Mathlib.Order.Bounds.Basic
import Mathlib.Analysis.SpecialFunctions.Pow.Real

/-! # What Adaptive (Li and Guo 2013) measures -/
namespace Alipy.Adaptive.Spec

/-- The separation margin of an example with the real values `r`: from the largest negative value to the smallest positive one. -/
def Margin (r : List ℝ) (m : ℝ) : Prop := ∃ p q, IsLeast {v | v ∈ r ∧ 0 < v} p ∧ IsGreatest {v | v ∈ r ∧ v < 0} q ∧ m = p - q

/-- The uncertainty: the inverse of the margin; 0 if not both signs occur. -/
def Uncertainty (r : List ℝ) (u : ℝ) : Prop := (∃ m, 0 < m ∧ Margin r m ∧ u = 1 / m) ∨ (((∀ v ∈ r, v ≤ 0) ∨ ∀ v ∈ r, 0 ≤ v) ∧ u = 0)

/-- The number of labels of a row (labels 0 and 1, or -1 and 1). -/
def size (r : List Int) : Nat := r.countP (fun v => decide (0 < v))

/-- The average number of labels. -/
noncomputable def averageSize (Y : List (List Int)) : ℝ := (((Y.map size).sum : Nat) : ℝ) / Y.length

/-- The error of an example with the real values `r`: the hinge losses of its worst positive and of its worst negative label. -/
def Hinge (r : List ℝ) (e : ℝ) : Prop :=
  ∃ p n, IsGreatest ({0} ∪ {x | ∃ v ∈ r, 0 ≤ v ∧ x = 1 - v}) p ∧ IsGreatest ({0} ∪ {x | ∃ v ∈ r, v ≤ 0 ∧ x = 1 + v}) n ∧ e = p + n

/-- The estimated error of a model over the pool. -/
def TotalErr (real : List (List ℝ)) (e : ℝ) : Prop := ∃ es : List ℝ, List.Forall₂ Hinge real es ∧ e = es.sum

/-- `k` is one of the best for the trade-off `b`: the product of the powers of the two measures is largest. -/
def BestFor (b : ℝ) (u c : List ℝ) (k : Nat) : Prop :=
  k < u.length ∧ ∀ j < u.length, u.getD j 0 ^ b * c.getD j 0 ^ (1 - b) ≤ u.getD k 0 ^ b * c.getD k 0 ^ (1 - b)

end Alipy.Adaptive.Spec

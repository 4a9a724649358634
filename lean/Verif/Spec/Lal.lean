import Mathlib.Data.Real.Basic
import Mathlib.Algebra.BigOperators.Group.List.Basic
/-!
# What the features of LAL are meant to be
-/
namespace Alipy.Spec

/-- `m` is the mean of the numbers. -/
def IsMean (l : List ℝ) (m : ℝ) : Prop := m * l.length = l.sum

/-- `s` is the standard deviation of the numbers. -/
def IsDeviation (l : List ℝ) (s : ℝ) : Prop := 0 ≤ s ∧ ∃ m, IsMean l m ∧ s ^ 2 * l.length = (l.map (fun x => (x - m) ^ 2)).sum

/-- What LAL's regressor wants to know of an unlabelled example and of the state of learning: `probs` are the predictions of the trees for the example. -/
structure LalRow (probs : List ℝ) (known : List Int) (positive : Int) (oob : ℝ) (others : List (List ℝ)) (depths : List Nat) (row : List ℝ) : Prop where
  length : row.length = 8
  average : IsMean probs (row.getD 0 0)
  spread : IsDeviation probs (row.getD 1 0)
  share : row.getD 2 0 * known.length = known.count positive
  score : row.getD 3 0 = oob
  variance : ∃ spreads, List.Forall₂ IsDeviation others spreads ∧ IsMean spreads (row.getD 5 0)
  depth : IsMean (depths.map (fun d : Nat => (d : ℝ))) (row.getD 6 0)
  labelled : row.getD 7 0 = known.length

end Alipy.Spec

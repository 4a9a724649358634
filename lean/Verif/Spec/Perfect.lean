import Verif.Spec.RankingMetrics
/-!
# Perfect predictions
-/
namespace Alipy.Spec

/-- Every score of the first list is above every score of the second. -/
def Above (rel irr : List ℚ) : Prop := ∀ r ∈ rel, ∀ q ∈ irr, q < r

/-- Scores of the irrelevant labels of sample `i`. -/
def irrScores (y : List (List Int)) (s : List (List ℚ)) (i : Nat) : List ℚ :=
  scoresWith (fun c => decide (c = 0)) (y.getD i []) (s.getD i [])

/-- Every sample that counts ranks its relevant labels above the others. -/
def Perfect (w : Option (List ℚ)) (y : List (List Int)) (s : List (List ℚ)) : Prop :=
  ∀ i < y.length, 0 < weight w i → Above (relScores y s i) (irrScores y s i)

/-- The weights: one for every sample, none negative, not all zero. -/
structure Weights (n : Nat) (w : Option (List ℚ)) : Prop where
  fit : FitWeights n w
  nonneg : ∀ i < n, 0 ≤ weight w i
  pos : ∃ i < n, 0 < weight w i

end Alipy.Spec

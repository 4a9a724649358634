import Verif.Spec.Metrics
/-!
# What the ranking metrics are meant to be

A sample is given by the scores of its labels, `all`, and those of its relevant labels, `rel`.
-/
namespace Alipy.Spec

/-- How many labels are at least as good as score `t`. -/
def reach (all : List ℚ) (t : ℚ) : Nat := all.countP (fun x => decide (t ≤ x))

/-- `d` is how far one must go through the ranking to cover all relevant labels, tied labels getting the worst rank of the tie: the
largest rank of a relevant label, and 0 if there is none. -/
def IsCoverage (rel all : List ℚ) (d : Nat) : Prop :=
  (∀ r ∈ rel, reach all r ≤ d) ∧ (rel = [] ∧ d = 0 ∨ ∃ r ∈ rel, reach all r = d)

/-- The precision at threshold `t`: the fraction of relevant labels among the labels with at least that score. -/
def precisionAt (rel all : List ℚ) (t : ℚ) : ℚ := (reach rel t : ℚ) / reach all t

/-- The recall at threshold `t`. -/
def recallAt (rel : List ℚ) (t : ℚ) : ℚ := (reach rel t : ℚ) / rel.length

/-- The average precision of a sample: the precision averaged over the relevant labels, each one being the threshold once. A sample
without relevant labels has average precision 1 by convention. -/
def avgPrecision (rel all : List ℚ) : ℚ :=
  if rel = [] then 1 else (rel.map (precisionAt rel all)).sum / rel.length

/-- The weighted mean. -/
def mean (n : Nat) (w : Nat → ℚ) (f : Nat → ℚ) : ℚ := (∑ i ∈ Finset.range n, w i * f i) / ∑ i ∈ Finset.range n, w i

/-- Scores of the relevant labels of sample `i`. -/
def relScores (y : List (List Int)) (s : List (List ℚ)) (i : Nat) : List ℚ :=
  scoresWith (fun c => decide (c = 1)) (y.getD i []) (s.getD i [])

/-- All entries are 0 or 1. -/
def ZeroOne (y : List (List Int)) : Prop := ∀ r ∈ y, ∀ c ∈ r, c = 0 ∨ c = 1

/-- A non-empty set of samples with 0/1 labels and scores, one for each of `c` labels. -/
structure Scored (c : Nat) (y : List (List Int)) (s : List (List ℚ)) : Prop where
  ne : y ≠ []
  len : y.length = s.length
  yrow : ∀ r ∈ y, r.length = c
  srow : ∀ r ∈ s, r.length = c
  zo : ZeroOne y

/-- No relevant label, or all of them. -/
def Degenerate (c : Nat) (y : List (List Int)) (s : List (List ℚ)) (i : Nat) : Prop :=
  (relScores y s i).length = 0 ∨ (relScores y s i).length = c

instance (c : Nat) (y : List (List Int)) (s : List (List ℚ)) : DecidablePred (Degenerate c y s) :=
  fun _ => inferInstanceAs (Decidable (_ ∨ _))

/-- The average precision of sample `i`. -/
def samplePrecision (y : List (List Int)) (s : List (List ℚ)) (i : Nat) : ℚ := avgPrecision (relScores y s i) (s.getD i [])

/-- The labels and the scores of class `j` over all samples. -/
def classLabels (y : List (List Int)) (j : Nat) : List Int := y.map (fun r => r.getD j 0)
def classScores (s : List (List ℚ)) (j : Nat) : List ℚ := s.map (fun r => r.getD j 0)

end Alipy.Spec

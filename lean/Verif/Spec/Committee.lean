import Mathlib.Analysis.SpecialFunctions.Log.NegMulLog
import Mathlib.Algebra.BigOperators.Group.Finset.Basic
/-!
# What disagreement of a committee is meant to be
-/
namespace Alipy.Spec
open Finset

/-- The entropy of the distribution of votes: every class has its share of the votes. -/
noncomputable def voteEntropy (votes : List Int) : ℝ :=
  ∑ c ∈ votes.toFinset, Real.negMulLog ((votes.count c : ℝ) / votes.length)

/-- The same with one 0/1 output per label and member. -/
noncomputable def voteEntropyMat (labels : Nat) (votes : List (List Nat)) : ℝ :=
  ∑ l ∈ range labels, Real.negMulLog ((((votes.map (fun r => r.getD l 0)).sum : Nat) : ℝ) / votes.length)

/-- Kullback-Leibler divergence of two distributions over `n` classes. -/
noncomputable def kl (n : Nat) (p q : Nat → ℝ) : ℝ := ∑ l ∈ range n, p l * Real.log (p l / q l)

/-- The mean prediction of a committee. -/
noncomputable def consensus (inst : List (List ℝ)) (l : Nat) : ℝ := (inst.map (fun r => r.getD l 0)).sum / inst.length

/-- The average divergence of the members from their mean prediction. -/
noncomputable def avgKL (n : Nat) (inst : List (List ℝ)) : ℝ :=
  (inst.map (fun r => kl n (fun l => r.getD l 0) (consensus inst))).sum / inst.length

end Alipy.Spec

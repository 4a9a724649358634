import Verif.Model.LabelRanking

/-! # What a label ranking is meant to do -/
namespace Alipy.LR
variable {K : Type} [Field K] [LinearOrder K] {D d : Nat}

/-- The value a column `b` gives to the example `x` in the model with the matrix `V`: the inner product of `b` and `V x`. -/
def value (b : Fin D → K) (V : Fin D → Fin d → K) (x : Fin d → K) : K := ∑ a, b a * ∑ k, V a k * x k

/-- `v` is the score of label `c`: the largest value of its columns. -/
def IsScore (numSub : Nat) (B : Nat → Fin D → K) (V : Fin D → Fin d → K) (x : Fin d → K) (c : Nat) (v : K) : Prop :=
  (∃ j < numSub, v = value (B (c * numSub + j)) V x) ∧ ∀ j < numSub, value (B (c * numSub + j)) V x ≤ v

/-- By how much column `own` is valued higher than column `other`. -/
def margin (s : St D d K) (x : Fin d → K) (own other : Nat) : K := value (s.B own) s.V x - value (s.B other) s.V x

/-- The averages of the state are the means of the models in the list. -/
def MeanOf (s : St D d K) (models : List ((Nat → Fin D → K) × (Fin D → Fin d → K))) : Prop :=
  s.Anum = models.length ∧ (∀ k a, s.AB k a = (models.map (fun m => m.1 k a)).sum) ∧ ∀ a k, s.AV a k = (models.map (fun m => m.2 a k)).sum

end Alipy.LR

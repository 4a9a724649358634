import Mathlib.Data.List.Basic
/-!
# What a majority vote is meant to be
-/
namespace Alipy.Spec

/-- `l` is the winner of the vote: no label was given more often, and among equally frequent labels it was given first. -/
def Winner {β : Type} [DecidableEq β] (labels : List β) (l : β) : Prop :=
  l ∈ labels ∧ ∀ x ∈ labels, labels.count x ≤ labels.count l ∧
    (x ≠ l → labels.count x = labels.count l → labels.idxOf l < labels.idxOf x)

/-- The sum of the weights of the voters for `l`. -/
def weightOf {β K : Type} [DecidableEq β] [Add K] [Zero K] (labels : List β) (w : List K) (l : β) : K :=
  (((labels.zip w).filter (fun p => p.1 = l)).map Prod.snd).sum

end Alipy.Spec

import Verif.Model.Stopping
/-! The documented stopping bounds (docstring of `StoppingCriteria`). Only the names of the criteria come from the model. -/
namespace Alipy.Spec

/-- The bound `v` of a criterion is reached: `n` queries made, `cost` spent, `u` of initially `u0` examples still unlabelled,
`elapsed` time since the start. -/
def BoundReached (c : Criterion) (v : ℚ) (n : Nat) (cost : ℚ) (u0 u : Nat) (elapsed : ℚ) : Prop :=
  match c with
  | .none => False
  | .numOfQueries => v ≤ n
  | .costLimit => v ≤ cost
  | .percentOfUnlabel => v ≤ ((u0 : ℚ) - u) / u0
  | .timeLimit => v ≤ elapsed

end Alipy.Spec

import Mathlib.Analysis.SpecificLimits.Basic
import Mathlib.SetTheory.Cardinal.Finite
/-! What it means that a loop that draws until it is content ends: every draw brings about every outcome with the same probability,
independently of the other draws. -/
namespace Alipy.Spec

/-- The fraction of the sequences of `m` draws with which nothing has been returned: the probability that `m` draws are not enough. -/
noncomputable def fractionLeft {α : Type} (returned : List α → Prop) (m : Nat) : ℝ :=
  (Nat.card {s : Fin m → α // ¬ returned (List.ofFn s)} : ℝ) / (Nat.card (Fin m → α) : ℝ)

/-- The probability that nothing has been returned vanishes as the number of draws grows: with probability one something is returned. -/
def SurelyReturns {α : Type} (returned : List α → Prop) : Prop := Filter.Tendsto (fractionLeft returned) Filter.atTop (nhds 0)

end Alipy.Spec

import Mathlib.Algebra.Order.Field.Basic
import Mathlib.Algebra.BigOperators.Group.Finset.Basic
/-!
# What MMC is meant to maximise
-/
namespace Alipy.Spec

/-- The expected number of wrong labels if the labels in `S`, and only those, are predicted. -/
def expectedErrors {K : Type} [Field K] (n : Nat) (proba : Nat → K) (S : List Nat) : K :=
  ∑ j ∈ Finset.range n, if j ∈ S then 1 - proba j else proba j

/-- `S` are `k` of the `n` labels, and no other one is more probable. -/
def MostProbable {K : Type} [LE K] (n : Nat) (proba : Nat → K) (k : Nat) (S : List Nat) : Prop :=
  S.Nodup ∧ S.length = k ∧ (∀ j ∈ S, j < n) ∧ ∀ j ∈ S, ∀ i < n, i ∉ S → proba i ≤ proba j

end Alipy.Spec

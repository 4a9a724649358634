import Verif.Spec.Sampling
/-!
# What a split is
-/
namespace Alipy.Spec

/-- `a` and `b` are disjoint, have no repetitions and together have exactly the elements of `whole`. -/
def Partition {α : Type} (a b whole : List α) : Prop :=
  a.Nodup ∧ b.Nodup ∧ (∀ x ∈ a, x ∉ b) ∧ ∀ x, x ∈ whole ↔ x ∈ a ∨ x ∈ b

/-- The pairs of an instance of `train` with each of `L` columns. -/
def IsPairOf (train : List Int) (L : Nat) (p : Int × Int) : Prop := p.1 ∈ train ∧ 0 ≤ p.2 ∧ p.2 < L

/-- `a` and `b` are disjoint lists without repetition whose elements are exactly those with `P`. -/
def PartitionOf {α : Type} (a b : List α) (P : α → Prop) : Prop :=
  a.Nodup ∧ b.Nodup ∧ (∀ x ∈ a, x ∉ b) ∧ ∀ x, P x ↔ x ∈ a ∨ x ∈ b

end Alipy.Spec

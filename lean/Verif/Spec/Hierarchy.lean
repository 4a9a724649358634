import Mathlib.Logic.Relation
/-!
# Label hierarchies

`parent a b`: `a` is the parent of `b`.
-/
namespace Alipy.Spec

/-- A set of positive labels respects the hierarchy: the parent of a positive label is positive. -/
def Consistent (parent : Int → Int → Prop) (z : Int → Prop) : Prop := ∀ a b, parent a b → z b → z a

/-- The value of label `l` follows from the value `v` of label `j`: all label sets that respect the hierarchy and in which `j` has that value agree
on `l`. -/
def FollowsFrom (parent : Int → Int → Prop) (j : Int) (v : Bool) (l : Int) : Prop :=
  ∀ z z' : Int → Prop, Consistent parent z → Consistent parent z' → (z j ↔ v = true) → (z' j ↔ v = true) → (z l ↔ z' l)

/-- No label is its own ancestor. -/
def Acyclic (parent : Int → Int → Prop) : Prop := ∀ a, ¬ Relation.TransGen parent a a

end Alipy.Spec

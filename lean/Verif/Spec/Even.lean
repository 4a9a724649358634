import Mathlib.Data.Real.Basic
import Mathlib.Data.List.Perm.Basic
import Mathlib.Logic.Relation
/-!
# Evener predictions (C133)
-/
namespace Alipy.Spec

/-- `r'` comes from `r` by moving an amount `x` from a more likely class to a less likely one, which still does not make up for the difference. -/
def Transfer (r r' : List ℝ) : Prop := ∃ a b x l, r.Perm (a :: b :: l) ∧ r'.Perm ((a - x) :: (b + x) :: l) ∧ 0 < x ∧ x < a - b

/-- `r'` is evener than `r`: it comes from `r` by one or more such moves. -/
def Evener (r r' : List ℝ) : Prop := Relation.TransGen Transfer r r'

/-- The probabilities of the classes of an example. -/
def Distribution (r : List ℝ) : Prop := (∀ v ∈ r, 0 < v) ∧ r.sum = 1

/-- All classes are equally likely. -/
def AllEqual (r : List ℝ) : Prop := ∀ a ∈ r, ∀ b ∈ r, a = b

end Alipy.Spec

import Verif.Spec.LeaveOut
import Mathlib.Logic.Relation
import Mathlib.Data.List.Perm.Basic
/-! What it means that something selected stays selected when it becomes better. -/
namespace Alipy.Spec

/-- Only what is said about `x` may have changed. -/
def OnlyAt {α β : Type} (x : α) (g g' : α → β) : Prop := ∀ y, y ≠ x → g' y = g y

/-- If `x` could be selected before then it is selected afterwards, in whatever order equal scores come both times. -/
def StaysSelected {α K : Type} [LE K] (x : α) (before after : (List K → List Nat) → Except PyErr (List α)) : Prop :=
  ∀ S S', CanSelect before S → CanSelect after S' → x ∈ S → x ∈ S'

/-- One voter has turned from a class to another class that had fewer votes, even without counting that voter. -/
def VoteMoved (v v' : List Int) : Prop := ∃ (p q : Int) (l : List Int), v.Perm (p :: l) ∧ v'.Perm (q :: l) ∧ l.count q < l.count p

/-- The votes have become evener: one or more such moves. -/
def EvenerVotes (v v' : List Int) : Prop := Relation.TransGen VoteMoved v v'

/-- The same selection, except that `f` has an item that `s` has not, and that all later items are the same. -/
def PrefersLater (f s : List Bool) : Prop := ∃ t t' post, f = t ++ true :: post ∧ s = t' ++ false :: post

end Alipy.Spec

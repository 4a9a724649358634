import Verif.Spec.LeaveOut
/-! How much a few examples may count. -/
namespace Alipy.Spec

/-- The number of positions at which two lists differ. -/
def changes {α : Type} [DecidableEq α] (l l' : List α) : Nat := (l.zip l').countP (fun p => decide (p.1 ≠ p.2))

/-- The examples outside of `d` are as they were. -/
def OnlyWithin {α β : Type} (d : List α) (g g' : α → β) : Prop := ∀ y, y ∉ d → g' y = g y

/-- At most `n` of what could be selected before is no longer selected afterwards, in whatever order equal scores come both times. -/
def ReplacesAtMost {α K : Type} [LE K] [DecidableEq α] (n : Nat) (before after : (List K → List Nat) → Except PyErr (List α)) : Prop :=
  ∀ S S', CanSelect before S → CanSelect after S' → (S.filter (fun x => decide (x ∉ S'))).length ≤ n

end Alipy.Spec

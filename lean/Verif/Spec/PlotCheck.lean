import Mathlib.Data.List.Basic

/-! Spec for the checks before plotting. -/
namespace Alipy.Spec

/-- One number is the value of all items. -/
def AllAgree {α β : Type} (f : α → β) (l : List α) : Prop := ∀ a ∈ l, ∀ b ∈ l, f a = f b

end Alipy.Spec

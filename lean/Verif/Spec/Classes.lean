import Mathlib.Data.Real.Basic
import Mathlib.Data.Matrix.Mul
/-! Two ways to name the classes, and the pseudo-inverse. -/
namespace Alipy.Spec
open Matrix

/-- The same examples are in one class. -/
def SameClasses {α β γ : Type} (y : α → β) (y' : α → γ) : Prop := ∀ i j, y i = y j ↔ y' i = y' j

/-- The four conditions of Penrose. -/
def IsPseudoInverse {ι : Type} [Fintype ι] (A G : Matrix ι ι ℝ) : Prop :=
  A * G * A = A ∧ G * A * G = G ∧ (A * G)ᵀ = A * G ∧ (G * A)ᵀ = G * A

end Alipy.Spec

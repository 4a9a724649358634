import Verif.Model.Distances
import Mathlib.LinearAlgebra.Matrix.Notation
import Mathlib.Data.Matrix.Mul
/-!
# The same examples in other coordinates
-/
namespace Alipy.Spec
open Matrix

variable {α φ ψ : Type} [Fintype φ] [Fintype ψ] [DecidableEq φ]

/-- `X'` are the examples `X` after a rotation or reflection (possibly into more features), multiplied by `k` and shifted. -/
def Moved (k : ℝ) (X : α → φ → ℝ) (X' : α → ψ → ℝ) : Prop := ∃ (Q : Matrix φ ψ ℝ) (t : ψ → ℝ), Q * Qᵀ = 1 ∧ ∀ a, X' a = k • (X a ᵥ* Q) + t

/-- `X'` are the examples `X` with the features in another order, some with another sign, all multiplied by `k` and shifted. -/
def Relisted (k : ℝ) (X : α → φ → ℝ) (X' : α → ψ → ℝ) : Prop :=
  ∃ (σ : ψ ≃ φ) (ε t : ψ → ℝ), (∀ f, |ε f| = 1) ∧ ∀ a f, X' a f = k * (ε f * X a (σ f)) + t f

/-- `X'` are the examples `X` after a rotation or reflection, every one multiplied by a positive number of its own. -/
def Turned (X : α → φ → ℝ) (X' : α → ψ → ℝ) : Prop := ∃ (Q : Matrix φ ψ ℝ) (r : α → ℝ), Q * Qᵀ = 1 ∧ (∀ a, 0 < r a) ∧ ∀ a, X' a = r a • (X a ᵥ* Q)

/-- The change of coordinates that fits the distance. -/
def SameShape (m : Distances.Metric) (X : α → φ → ℝ) (X' : α → ψ → ℝ) : Prop :=
  match m with
  | .euclidean => ∃ k, k ≠ 0 ∧ Moved k X X'
  | .cityblock => ∃ k, k ≠ 0 ∧ Relisted k X X'
  | .cosine => Turned X X'

/-- The result of sorting depends on the order of the numbers only. -/
def OrderBased (argsort : List ℝ → List Nat) : Prop :=
  ∀ l l' : List ℝ, l.length = l'.length → (∀ i j (hi : i < l.length) (hj : j < l.length) (hi' : i < l'.length) (hj' : j < l'.length), l[i] ≤ l[j] ↔ l'[i] ≤ l'[j]) →
    argsort l = argsort l'

end Alipy.Spec

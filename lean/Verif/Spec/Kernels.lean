import Verif.Spec.Kernel
import Mathlib.Analysis.SpecialFunctions.Exp
import Mathlib.LinearAlgebra.Matrix.PosDef
/-!
# The kernels by their formulas
-/
namespace Alipy.Spec
open Matrix

/-- `exp(-gamma * |x - y|^2)` -/
noncomputable def rbfKernel {φ : Type} [Fintype φ] (gamma : ℝ) (x y : φ → ℝ) : ℝ := Real.exp (-(gamma * sqDist x y))

/-- `(gamma * <x, y> + coef0)^degree` -/
def polyKernel {φ : Type} [Fintype φ] (gamma coef0 : ℝ) (degree : ℕ) (x y : φ → ℝ) : ℝ := (gamma * ∑ f, x f * y f + coef0) ^ degree

/-- `<x, y>` -/
def linearKernel {φ : Type} [Fintype φ] (x y : φ → ℝ) : ℝ := ∑ f, x f * y f

/-- `K` is the matrix of all values of the kernel `k` on the examples. -/
def IsGram {ν φ : Type} (X : Matrix ν φ ℝ) (k : (φ → ℝ) → (φ → ℝ) → ℝ) (K : Matrix ν ν ℝ) : Prop := ∀ i j, K i j = k (X i) (X j)

end Alipy.Spec

import Mathlib.Analysis.SpecialFunctions.Exp
import Mathlib.LinearAlgebra.Matrix.Notation
/-!
# `get_gaussian_kernel_mat`: `alipy/utils/misc.py`, lines 34-60

Real numbers instead of floats; `ν` are the rows and `φ` the columns of the feature matrix. `check_array` is not modelled. For `sigma = 0` the code computes nan and 0; the theorems ask for another sigma.
-/
namespace Alipy.Kernel
open Matrix

variable {ν φ : Type} [Fintype ν] [Fintype φ]

/-- Line 59: the squared norms of the rows, as a matrix with one row. -/
def tmp (X : Matrix ν φ ℝ) : Matrix Unit ν ℝ := Matrix.of fun _ i => ∑ f, X i f ^ 2

/-- Line 60. -/
noncomputable def gaussian (X : Matrix ν φ ℝ) (sigma : ℝ) : Matrix ν ν ℝ :=
  Matrix.of fun i j => Real.exp ((-((tmp X)ᵀ * Matrix.of (fun (_ : Unit) (_ : ν) => (1 : ℝ))) i j - (Matrix.of (fun (_ : ν) (_ : Unit) => (1 : ℝ)) * tmp X) i j + 2 * (X * Xᵀ) i j) /
    (2 * sigma ^ 2))

end Alipy.Kernel

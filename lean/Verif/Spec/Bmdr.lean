import Mathlib.LinearAlgebra.Matrix.PosDef
import Mathlib.Analysis.Matrix.Order
/-!
# What BMDR and SPAL minimise
-/
namespace Alipy.Spec
open Matrix

variable {ι υ κ : Type} [Fintype ι] [Fintype υ] [Fintype κ]

/-- The regularised squared loss of the kernel model `tau` on the labelled examples. -/
noncomputable def ridgeLoss (KLL : Matrix ι ι ℝ) (gamma : ℝ) (y tau : ι → ℝ) : ℝ :=
  (∑ i, (y i - (KLL *ᵥ tau) i) ^ 2) + gamma * (tau ⬝ᵥ KLL *ᵥ tau)

/-- The augmented Lagrangian of: minimise the regularised squared loss plus the weighted worst losses `w (f ^ 2 + 2 |f|)` of the predictions `z = f` for the columns of `Q`. -/
noncomputable def lagrangian (KLL : Matrix ι ι ℝ) (Q : Matrix ι κ ℝ) (gamma rho : ℝ) (w : κ → ℝ) (y tau : ι → ℝ) (z delta : κ → ℝ) : ℝ :=
  ridgeLoss KLL gamma y tau + (∑ j, w j * (z j ^ 2 + 2 * |z j|)) + (∑ j, delta j * (z j - (tau ᵥ* Q) j)) + rho / 2 * ∑ j, (z j - (tau ᵥ* Q) j) ^ 2

/-- `G` is a generalised inverse, as the pseudoinverse is. -/
def IsGeneralisedInverse (A G : Matrix ι ι ℝ) : Prop := A * G * A = A

/-- Squared distance, in a space with the kernel as inner product, of the mean of labelled and selected examples and the mean of the others, for fractional selections `x`:
with `phi` and `psi` the features of the labelled and unlabelled examples. -/
noncomputable def mmd {φ : Type} [Fintype φ] (phi : ι → φ → ℝ) (psi : υ → φ → ℝ) (batch : ℝ) (x : υ → ℝ) : ℝ :=
  ∑ f, ((∑ i, phi i f + ∑ j, x j * psi j f) / (Fintype.card ι + batch) - (∑ j, (1 - x j) * psi j f) / (Fintype.card υ - batch)) ^ 2

end Alipy.Spec

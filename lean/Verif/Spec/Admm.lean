import Verif.Spec.Bmdr
/-! What the model in the inner loop of BMDR and SPAL should be: one that is good on the labelled examples and not too sure about the selected ones. -/
namespace Alipy.Spec
open Matrix

variable {ι κ : Type} [Fintype ι] [Fintype κ]

/-- The regularised squared loss on the labelled examples plus the weighted worst losses `f² + 2|f|` of the predictions `f` on the selected examples (the columns of `Q`). -/
noncomputable def selectionLoss (KLL : Matrix ι ι ℝ) (Q : Matrix ι κ ℝ) (gamma : ℝ) (w : κ → ℝ) (y tau : ι → ℝ) : ℝ :=
  ridgeLoss KLL gamma y tau + ∑ j, w j * ((tau ᵥ* Q) j ^ 2 + 2 * |(tau ᵥ* Q) j|)

/-- A model with the smallest loss. -/
def IsBestModel (KLL : Matrix ι ι ℝ) (Q : Matrix ι κ ℝ) (gamma : ℝ) (w : κ → ℝ) (y tau : ι → ℝ) : Prop :=
  ∀ tau', selectionLoss KLL Q gamma w y tau ≤ selectionLoss KLL Q gamma w y tau'

end Alipy.Spec
